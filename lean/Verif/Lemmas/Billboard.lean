import Verif.Spec.Billboard

namespace Litiv.Billboard

theorem render_two (flip : Bool) :
    render flip = [(⟨-1, -1, 0, if flip then 1 else 0⟩, ⟨1, -1, 1, if flip then 1 else 0⟩, ⟨-1, 1, 0, if flip then 0 else 1⟩),
      (⟨-1, 1, 0, if flip then 0 else 1⟩, ⟨1, -1, 1, if flip then 1 else 0⟩, ⟨1, 1, 1, if flip then 0 else 1⟩)] := by
  cases flip <;> rfl

end Litiv.Billboard
