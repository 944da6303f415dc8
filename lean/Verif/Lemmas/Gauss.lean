import Verif.Spec.Gauss
import Mathlib.Analysis.Matrix.Order
import Mathlib.Analysis.SpecialFunctions.Gaussian.GaussianIntegral
import Mathlib.MeasureTheory.Integral.Pi
import Mathlib.MeasureTheory.Measure.Lebesgue.Basic
import Mathlib.MeasureTheory.Measure.Haar.NormedSpace

/-!
# The normal density integrates to one
-/

namespace Litiv.GMM

open MeasureTheory Matrix

open scoped MatrixOrder

/-- The standard case. -/
theorem integral_std (D : Nat) : ∫ y : Fin D → ℝ, Real.exp (-(1 / 2) * dotProduct y y) = Real.sqrt (2 * Real.pi) ^ D := by
  have e : ∀ y : Fin D → ℝ, Real.exp (-(1 / 2) * dotProduct y y) = ∏ i, Real.exp (-(1 / 2) * y i ^ 2) := by
    intro y
    rw [← Real.exp_sum, dotProduct, Finset.mul_sum]
    congr 1
    apply Finset.sum_congr rfl
    intro i _
    ring
  simp only [e]
  rw [integral_fintype_prod_volume_eq_pow (fun t : ℝ => Real.exp (-(1 / 2) * t ^ 2)), integral_gaussian, Fintype.card_fin]
  congr 2
  ring

/-- The integral of the exponential of a positive definite quadratic form. -/
theorem integral_quad (D : Nat) (P : Matrix (Fin D) (Fin D) ℝ) (hP : P.PosDef) :
    ∫ x : Fin D → ℝ, Real.exp (-(1 / 2) * dotProduct x (P.mulVec x)) = (Real.sqrt P.det)⁻¹ * Real.sqrt (2 * Real.pi) ^ D := by
  obtain ⟨B, hB⟩ := CStarAlgebra.nonneg_iff_eq_star_mul_self.mp hP.posSemidef.nonneg
  have hB' : P = Bᵀ * B := hB
  have hdet : P.det = B.det ^ 2 := by rw [hB', Matrix.det_mul, Matrix.det_transpose]; ring
  have hpos : 0 < P.det := hP.det_pos
  have hB0 : B.det ≠ 0 := by
    intro h
    rw [hdet, h] at hpos
    simp at hpos
  have hmap := Real.map_matrix_volume_pi_eq_smul_volume_pi hB0
  have hquad : ∀ x : Fin D → ℝ, dotProduct x (P.mulVec x) = dotProduct (Matrix.toLin' B x) (Matrix.toLin' B x) := by
    intro x
    rw [Matrix.toLin'_apply, hB', ← Matrix.mulVec_mulVec, Matrix.dotProduct_mulVec, Matrix.vecMul_transpose]
  simp only [hquad]
  have hcont : Continuous (Matrix.toLin' B) := LinearMap.continuous_on_pi _
  have hint := integral_map (μ := (volume : Measure (Fin D → ℝ))) (φ := Matrix.toLin' B) hcont.measurable.aemeasurable
    (f := fun y : Fin D → ℝ => Real.exp (-(1 / 2) * dotProduct y y)) (by
      apply Continuous.aestronglyMeasurable
      unfold dotProduct
      fun_prop)
  rw [← hint, hmap, integral_smul_measure, integral_std, ENNReal.toReal_ofReal (abs_nonneg _), smul_eq_mul, hdet, Real.sqrt_sq_eq_abs, abs_inv]

/-- The normal density integrates to one. -/
theorem integral_gauss (D : Nat) (mu : Fin D → ℝ) (Γ : Matrix (Fin D) (Fin D) ℝ) (hΓ : Γ.PosDef) : ∫ x, Spec.gauss D mu Γ x = 1 := by
  unfold Spec.gauss
  rw [integral_const_mul]
  have hshift := integral_sub_right_eq_self (μ := (volume : Measure (Fin D → ℝ)))
    (fun x : Fin D → ℝ => Real.exp (-(1 / 2) * dotProduct x (Γ⁻¹.mulVec x))) mu
  rw [hshift, integral_quad D Γ⁻¹ hΓ.inv]
  have hpos : 0 < Γ.det := hΓ.det_pos
  rw [Matrix.det_nonsing_inv, Ring.inverse_eq_inv', Real.sqrt_inv, inv_inv]
  have hpi : (0 : ℝ) ≤ 2 * Real.pi := by have := Real.pi_pos; linarith
  have e : Real.sqrt ((2 * Real.pi) ^ D * Γ.det) = Real.sqrt (2 * Real.pi) ^ D * Real.sqrt Γ.det := by
    rw [Real.sqrt_mul (pow_nonneg hpi D)]
    congr 1
    rw [Real.sqrt_eq_iff_mul_self_eq (pow_nonneg hpi D) (by positivity), ← mul_pow, Real.mul_self_sqrt hpi]
  rw [e]
  have h1 : 0 < Real.sqrt (2 * Real.pi) ^ D := pow_pos (Real.sqrt_pos.2 (by have := Real.pi_pos; linarith)) D
  have h2 : 0 < Real.sqrt Γ.det := Real.sqrt_pos.2 hpos
  field_simp

/-- The normal density is integrable. -/
theorem integrable_gauss (D : Nat) (mu : Fin D → ℝ) (Γ : Matrix (Fin D) (Fin D) ℝ) (hΓ : Γ.PosDef) : Integrable (Spec.gauss D mu Γ) := by
  by_contra h
  have := integral_gauss D mu Γ hΓ
  rw [integral_undef h] at this
  exact absurd this (by norm_num)

end Litiv.GMM
