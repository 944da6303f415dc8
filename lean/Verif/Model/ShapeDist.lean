import Mathlib.Analysis.SpecialFunctions.Exp

/-!
# Shape distance features

Model of `SegmMatcher::GraphModelData::calcShapeDistFeatures` (modules/imgproc/src/SegmMatcher.cpp 2521-2541). Numbers are
exact reals instead of `float`. `cv::distanceTransform` is modelled by what it computes: the smallest Euclidean distance
to a zero pixel, or `none` for the largest distance it can represent if there is no zero pixel; the exponential of this
one is rounded to zero, and `cv::divide` yields zero for a zero divisor.
-/

namespace Litiv.ShapeDist

/-- A mask, by row and column. -/
abbrev Mask := Nat → Nat → Nat

/-- The pixels of an image. -/
def pixels (rows cols : Nat) : List (Nat × Nat) := (List.range rows).flatMap fun r => (List.range cols).map fun k => (r, k)

/-- Euclidean distance of two pixels. -/
noncomputable def dist (p q : Nat × Nat) : ℝ := √(((p.1 : ℝ) - q.1) ^ 2 + ((p.2 : ℝ) - q.2) ^ 2)

/-- `cv::distanceTransform` with `DIST_L2` and `DIST_MASK_PRECISE` (SegmMatcher.cpp 2528, 2535); `zero` tells the zero pixels. -/
noncomputable def transform (rows cols : Nat) (zero : Nat × Nat → Bool) (p : Nat × Nat) : Option ℝ :=
  (((pixels rows cols).filter zero).map (dist p)).foldl (fun m d => some (m.elim d (min d))) none

/-- `SEGMMATCH_SHPDIST_PX_MAX_CST` (SegmMatcher.cpp 78). -/
def maxDist : ℝ := 10

/-- The element-wise steps from a distance to a feature (SegmMatcher.cpp 2529-2533, 2536-2540). -/
noncomputable def feature (d : Option ℝ) : ℝ := open Classical in
  let e := d.elim 0 fun d => Real.exp (-1 / maxDist * d)
  let q := if e = 0 then 0 else 1 / e
  let m := min (q - 1) maxDist
  if m < 0 then maxDist else m

/-- `oFGDist` (SegmMatcher.cpp 2527-2533): distances to the mask's nonzero pixels, which are the zero pixels of
`oInputMask==0`. -/
noncomputable def fgDist (rows cols : Nat) (mask : Mask) (p : Nat × Nat) : ℝ :=
  feature (transform rows cols (fun q => !(mask q.1 q.2 == 0)) p)

/-- `oBGDist` (SegmMatcher.cpp 2534-2540): distances to the mask's zero pixels, which are the zero pixels of
`oInputMask>0`. -/
noncomputable def bgDist (rows cols : Nat) (mask : Mask) (p : Nat × Nat) : ℝ :=
  feature (transform rows cols (fun q => !decide (0 < mask q.1 q.2)) p)

end Litiv.ShapeDist
