import Mathlib.Analysis.SpecialFunctions.Exp

/-!
# Descriptor normalization and sparseness

Model of `lv::rootSIFT` and `lv::sparseness` (modules/utils/include/litiv/utils/math.hpp 845-890). Numbers are exact reals
instead of `float` and `double`; sums do not depend on their order. `none` stands for a failed assertion and for results
which are not a number.
-/

namespace Litiv.RootSift

/-- `DBL_EPSILON`. -/
noncomputable def eps : ℝ := 1 / 2 ^ 52

/-- `dL1Norm` (math.hpp 851-854). -/
noncomputable def l1 {n : Nat} (neg : Bool) (d : Fin n → ℝ) : ℝ := (∑ i, if neg then |d i| else d i) + eps

/-- The first transformation of a value (math.hpp 855-867). -/
noncomputable def root (neg : Bool) (l v : ℝ) : ℝ := open Classical in if neg = true ∧ v < 0 then -√(-v / l) else √(v / l)

/-- `dL2Norm` (math.hpp 869-871). -/
noncomputable def l2 {n : Nat} (r : Fin n → ℝ) : ℝ := √(∑ i, r i * r i) + eps

/-- `rootSIFT<TVal,bUseL2Norm,bNegativeCompat>` (math.hpp 846-876); negative values without `bNegativeCompat` fail a debug
assertion (852) or lead to the square root of a negative number. -/
noncomputable def rootSift {n : Nat} (useL2 neg : Bool) (d : Fin n → ℝ) : Option (Fin n → ℝ) := open Classical in
  if neg = true ∨ ∀ i, 0 ≤ d i then
    let r := fun i => root neg (l1 neg d) (d i)
    some (if useL2 then fun i => r i / l2 r else r)
  else none

/-- `cv::norm` with `NORM_L1` and `NORM_L2` (math.hpp 886-887). -/
noncomputable def norm1 {n : Nat} (v : Fin n → ℝ) : ℝ := ∑ i, |v i|

/-- See `norm1`. -/
noncomputable def norm2 {n : Nat} (v : Fin n → ℝ) : ℝ := √(∑ i, v i ^ 2)

/-- `sparseness` (math.hpp 881-890); a division of zero by zero is not a number. -/
noncomputable def sparseness {n : Nat} (v : Fin n → ℝ) : Option ℝ := open Classical in
  if 1 < n ∧ norm2 v ≠ 0 then some ((√n - norm1 v / norm2 v) / (√n - 1)) else none

end Litiv.RootSift
