import Verif.Model.SegmProj
import Mathlib.Data.Rat.Floor

/-!
# Costs of stereo labels and initial disparities

Model of the stereo terms of `SegmMatcher` as compiled (modules/imgproc/src/SegmMatcher.cpp 1143-1177, 1307-1358,
1407-1445, opengm.hpp 137-168): unary costs of a pixel, table of pairwise costs, initial labels. Costs are natural numbers
instead of 32-bit integers (all terms are nonnegative: affinities are asserted so in debug builds). The products of
affinities and saliencies enter already truncated to integers.
-/

namespace Litiv.SegmUnary
open Litiv.SegmProj

/-- What the features and the masks tell about a pixel: truncated costs of the image and of the shape descriptors for
every label (1337-1342), index of its shape (0 for the background) and median label of the shape (1314-1315). -/
structure Px where
  img : Nat → Nat
  shp : Nat → Nat
  shape : Nat
  median : Nat

/-- The match of a label is seen by the other camera (SegmMatcher.cpp 1335-1336). -/
def inView (c : Cfg) (roi : Nat → Bool) (k l : Nat) : Bool :=
  let a := offsetCol c k l
  decide (0 ≤ a ∧ a < c.cols ∧ roi a.toNat = true)

/-- Distance to the median label of the shape (SegmMatcher.cpp 1332-1333). -/
def medianTerm (c : Cfg) (p : Px) (l : Nat) : Nat :=
  if p.shape ≠ 0 ∧ p.median < c.nReal then ((p.median : Int) - l).natAbs * 20 else 0

/-- `tTotUnaryCost`, `nValidUnaryCosts` and the table. -/
structure Acc where
  tot : Nat
  valid : Nat
  costs : List Nat

/-- One label of the loop (SegmMatcher.cpp 1329-1352). -/
def unaryStep (c : Cfg) (roi : Nat → Bool) (k : Nat) (p : Px) (a : Acc) (l : Nat) : Acc :=
  if inView c roi k l then
    let v := medianTerm c p l + p.img l + p.shp l
    ⟨a.tot + v, a.valid + 1, a.costs ++ [v]⟩
  else { a with costs := a.costs ++ [a.tot / (a.valid + 1)] }

/-- Unary costs of a pixel (SegmMatcher.cpp 1327-1358): disparities, don't-care label, occluded label. -/
def unary (c : Cfg) (roi : Nat → Bool) (k : Nat) (p : Px) : List Nat :=
  ((List.range c.nReal).foldl (unaryStep c roi k p) ⟨0, 0, []⟩).costs ++ [10000, 10000]

/-- The cheapest label, the first one if there are several (SegmMatcher.cpp 1436-1445). -/
def wta (costs : List Nat) : Nat :=
  (List.range' 1 (costs.length - 1)).foldl (fun b i => if costs.getD b 0 > costs.getD i 0 then i else b) 0

/-- Initial label of a pixel (SegmMatcher.cpp 1435-1446); `old` is the don't-care label at the first frame, the label of
the warped previous frame later on (1414-1419). -/
def initial (c : Cfg) (roi : Nat → Bool) (k : Nat) (p : Px) (old : Nat) : Nat :=
  if old = c.dontCare then wta (unary c roi k p) else old

/-- `SEGMMATCH_LBLSIM_STEREO_MAXDIFF_CST` (SegmMatcher.cpp 83). -/
def maxDiff (c : Cfg) : Nat := max 10 (c.dmax / 8)

/-- `getRealLabel` (SegmMatcher.cpp 2608-2612) for a disparity label. -/
def realLabel (c : Cfg) (l : Nat) : Nat := c.dmin + l * c.step

/-- The table of pairwise costs (SegmMatcher.cpp 1157-1177). -/
def pairBase (c : Cfg) (l1 l2 : Nat) : Nat :=
  if l1 < c.nReal ∧ l2 < c.nReal then
    let d := min ((realLabel c l1 : Int) - realLabel c l2).natAbs (maxDiff c)
    d * d
  else if (l1 = c.dontCare ∧ l2 < c.nReal) ∨ (l1 < c.nReal ∧ l2 = c.dontCare) then 10000
  else 0

/-- A pairwise cost read through its weight (opengm.hpp 156-168): product rounded to a float, then truncated. `fl` is the
rounding to floats. -/
def scaled (fl : ℚ → ℚ) (w : ℚ) (c : Cfg) (l1 l2 : Nat) : Nat := ⌊fl (w * pairBase c l1 l2)⌋.toNat

end Litiv.SegmUnary
