import Mathlib.Analysis.SpecialFunctions.Exp
import Mathlib.Analysis.SpecialFunctions.Trigonometric.Basic
import Mathlib.LinearAlgebra.Matrix.NonsingularInverse

/-!
# Specification of Gaussian mixtures: the normal density
-/

namespace Litiv.GMM.Spec

/-- The density of the normal distribution in `D` dimensions with mean `mu` and covariance matrix `Γ`. -/
noncomputable def gauss (D : Nat) (mu : Fin D → ℝ) (Γ : Matrix (Fin D) (Fin D) ℝ) (x : Fin D → ℝ) : ℝ :=
  (Real.sqrt ((2 * Real.pi) ^ D * Γ.det))⁻¹ * Real.exp (-(1 / 2) * dotProduct (x - mu) (Γ⁻¹.mulVec (x - mu)))

end Litiv.GMM.Spec
