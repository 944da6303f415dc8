import Mathlib.Algebra.BigOperators.Group.Finset.Basic
import Mathlib.Analysis.SpecialFunctions.Exp
import Mathlib.Analysis.SpecialFunctions.Pow.Real

/-!
# Specification of the local self-similarity descriptor

Independent of the model: sums of squared differences between patches, and what a bin holds.
-/

namespace Litiv.LSS.Spec

/-- Sum of the squared differences between the patches of radius `h` centred at two pixels of an image with `chans` channels. -/
def patchDiff (px : Nat → Nat → Nat → Int) (chans h : Nat) (r c r' c' : Nat) : Int :=
  ∑ i ∈ Finset.range (2 * h + 1), ∑ j ∈ Finset.range (2 * h + 1), ∑ ch ∈ Finset.range chans,
    (px (r' + i - h) (c' + j - h) ch - px (r + i - h) (c + j - h) ch) ^ 2

/-- Euclidean norm of the `D` bins of a descriptor. -/
noncomputable def norm (D : Nat) (x : Nat → ℝ) : ℝ := Real.sqrt (∑ i ∈ Finset.range D, x i ^ 2)

/-- A descriptor scaled to norm one; the uniform one if it is (nearly) zero. -/
noncomputable def unit (D : Nat) (x : Nat → ℝ) (b : Nat) : ℝ := if 1 / 1000000 < norm D x then x b / norm D x else Real.sqrt (1 / D)

/-- Radius of ring `k` of `R` in a disc of radius `rho`: exponential spacing, with an offset for all but the last. -/
noncomputable def ring (rho : ℝ) (R : Nat) (off : ℝ) (k : Nat) : ℝ :=
  ((R : ℝ) ^ (((k + 1 : Nat) : ℝ) / (R : ℝ)) - 1) / ((R : ℝ) - 1) * rho + if k + 1 = R then 0 else off

/-- Distance to the origin. -/
noncomputable def hyp (y x : Int) : ℝ := Real.sqrt ((y : ℝ) ^ 2 + (x : ℝ) ^ 2)

end Litiv.LSS.Spec
