import Verif.Model.RectEdit

/-!
# Specification: the corners of the rectangles
-/

namespace Litiv.RectEdit

variable {P R : Type}

/-- The corners of rectangles numbered from `i`, two for each, with their distances to a point. -/
def corners (g : Geo P R) (p : P) : List R → Nat → List (Nat × Nat)
  | [], _ => []
  | r :: t, i => (2 * i, g.tl p r) :: (2 * i + 1, g.br p r) :: corners g p t (i + 1)

/-- `best` is a corner of `cs` closer than `lim`, none is closer; `none` when no corner is that close. -/
def Nearest (lim : Nat) (cs : List (Nat × Nat)) (best : Option (Nat × Nat)) : Prop :=
  (best = none → ∀ c ∈ cs, lim ≤ c.2) ∧ ∀ b, best = some b → b ∈ cs ∧ b.2 < lim ∧ ∀ c ∈ cs, b.2 ≤ c.2

end Litiv.RectEdit
