import Mathlib.Analysis.SpecialFunctions.Exp

/-!
# Specification of shape distance features
-/

namespace Litiv.ShapeDist

/-- `d` is the Euclidean distance from `p` to the nearest pixel of the image in `s`. -/
def Nearest (rows cols : Nat) (s : Nat → Nat → Prop) (p : Nat × Nat) (d : ℝ) : Prop :=
  (∃ r k, r < rows ∧ k < cols ∧ s r k ∧ d = √(((p.1 : ℝ) - r) ^ 2 + ((p.2 : ℝ) - k) ^ 2)) ∧
  ∀ r k, r < rows → k < cols → s r k → d ≤ √(((p.1 : ℝ) - r) ^ 2 + ((p.2 : ℝ) - k) ^ 2)

end Litiv.ShapeDist
