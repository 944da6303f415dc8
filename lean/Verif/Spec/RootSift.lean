import Mathlib.Analysis.SpecialFunctions.Exp

/-!
# Specification of descriptor normalization and sparseness
-/

namespace Litiv.RootSift

/-- Exactly one value differs from zero. -/
def Single {n : Nat} (v : Fin n → ℝ) : Prop := ∃ i, v i ≠ 0 ∧ ∀ j, j ≠ i → v j = 0

/-- All values have the same size. -/
def Uniform {n : Nat} (v : Fin n → ℝ) : Prop := ∀ i j, |v i| = |v j|

end Litiv.RootSift
