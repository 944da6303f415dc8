import Mathlib.Data.List.Basic
import Verif.Model.IEEE
import Verif.Model.Reducer

/-!
# Stereo associations and fusion moves of the segmentation matcher

Model of the stereo half of `SegmMatcher::GraphModelData` (modules/imgproc/src/SegmMatcher.cpp): graph nodes, label
initialization, association bookkeeping, association costs, move costs, one fusion move and the energy that is checked
after it, as compiled (disparity step 1, FGBZ inference, no epipolar cliques). Costs are unbounded integers instead of
`int32`; the tables are computed in `float` arithmetic. Debug assertions and accesses outside of a buffer give `none`.
The minimizer (QPBO with the term reduction of `HigherOrderEnergy`) is an oracle for the labels it returns.
-/

namespace Litiv.SegmAssoc
open IEEE

/-- What `SegmMatcher(min,max)` and `initialize(ROIs,primary)` fix (SegmMatcher.cpp 706-739, 886-915): grid size,
`m_nPrimaryCamIdx==1`, the disparity range, and the primary camera's ROI (`>0`). -/
structure Cfg where
  rows : Nat
  cols : Nat
  right : Bool
  dmin : Nat
  dmax : Nat
  roi : Nat → Nat → Bool

/-- `m_nRealStereoLabels` (SegmMatcher.cpp 719-721, 895): the internal labels below it stand for disparities; it is also
the index of the "don't care" label, followed by the "occluded" label (897-903). -/
def Cfg.nReal (c : Cfg) : Nat := c.dmax - c.dmin + 1

/-- `m_nStereoLabels` (SegmMatcher.cpp 896). -/
def Cfg.nLabels (c : Cfg) : Nat := c.nReal + 2

/-- Columns of `m_oAssocCounts` and `m_oAssocMap` (SegmMatcher.cpp 1029). -/
def Cfg.mapCols (c : Cfg) : Nat := c.cols + c.dmax

/-- `nMapOffset` (SegmMatcher.cpp 2643, 2655). -/
def Cfg.mapOff (c : Cfg) : Nat := if c.right then 0 else c.dmax

/-- `m_vStereoGraphIdxToMapIdxLUT` (SegmMatcher.cpp 1070-1095): the ROI pixels of the primary camera in raster order;
a node's position in it is its `nGraphNodeIdx`. -/
def nodes (c : Cfg) : List (Nat × Nat) :=
  (List.range c.rows).flatMap (fun r => ((List.range c.cols).filter (c.roi r)).map (fun k => (r, k)))

/-- Current primary labeling, `m_oAssocCounts` and `m_oAssocMap` (flat). -/
structure State where
  lab : Nat → Nat → Nat
  counts : Nat → Nat
  amap : Nat → Int

/-- `getRealLabel` (SegmMatcher.cpp 2607-2611). -/
def realLabel (c : Cfg) (l : Nat) : Option Int :=
  if l < c.nReal then some (c.dmin + l)
  else if l = c.nReal then some (-2 ^ 31)
  else if l = c.nReal + 1 then some (2 ^ 31 - 1)
  else none

/-- `getOffsetColIdx(m_nPrimaryCamIdx,..)` (SegmMatcher.cpp 2621-2635); reserved labels are rejected by the assertion. -/
def offsetCol (c : Cfg) (k l : Nat) : Option Int :=
  if l < c.nReal then (realLabel c l).map (fun d => if c.right then (k : Int) + d else (k : Int) - d) else none

/-- Flat position of an association target (SegmMatcher.cpp 2644, 2657, 2664). -/
def flat (c : Cfg) (r : Nat) (a : Int) : Option Nat :=
  if 0 ≤ a + c.mapOff then
    let p := r * c.mapCols + (a + c.mapOff).toNat
    if p < c.rows * c.mapCols then some p else none
  else none

/-- Conversion of a column to `AssocIdxType` (`int16_t`). -/
def int16 (n : Nat) : Int := if n % 65536 < 32768 then ((n % 65536 : Nat) : Int) else ((n % 65536 : Nat) : Int) - 65536

/-- `getAssocCount` (SegmMatcher.cpp 2637-2645). -/
def getCount (c : Cfg) (s : State) (r : Nat) (a : Int) : Option Nat := (flat c r a).map s.counts

/-- `addAssoc` (SegmMatcher.cpp 2647-2668). -/
def addAssoc (c : Cfg) (s : State) (r k l : Nat) : Option State :=
  if r < c.rows ∧ k < c.cols ∧ l < c.nReal then do
    let a ← offsetCol c k l
    let p ← flat c r a
    let q := p * c.nReal + l
    if s.amap q = -1 ∧ s.counts p < 65535 then
      some { s with amap := Function.update s.amap q (int16 k), counts := Function.update s.counts p (s.counts p + 1) }
    else none
  else none

/-- `removeAssoc` (SegmMatcher.cpp 2670-2691). -/
def removeAssoc (c : Cfg) (s : State) (r k l : Nat) : Option State :=
  if r < c.rows ∧ k < c.cols ∧ l < c.nReal then do
    let a ← offsetCol c k l
    let p ← flat c r a
    let q := p * c.nReal + l
    if s.amap q = int16 k ∧ 0 < s.counts p then
      some { s with amap := Function.update s.amap q (-1), counts := Function.update s.counts p (s.counts p - 1) }
    else none
  else none

/-- Write one label. -/
def setLab (lab : Nat → Nat → Nat) (r k l : Nat) : Nat → Nat → Nat :=
  fun r' k' => if r' = r ∧ k' = k then l else lab r' k'

/-- Best label of one node (SegmMatcher.cpp 1437-1445): 0, then every later label that is strictly cheaper. -/
def wta (c : Cfg) (u : Nat → Int) : Nat :=
  ((List.range' 1 (c.nLabels - 1)).foldl (fun (b : Nat × Int) l => if b.2 > u l then (l, u l) else b) (0, u 0)).1

/-- Initialization of the primary labeling (SegmMatcher.cpp 1429-1447); `warped` is the labeling before the loop: all
"don't care", or the previous frame's labels moved along the optical flow, "don't care" outside of the ROI
(1411-1428). -/
def initLabels (c : Cfg) (unary : Nat → Nat → Nat → Int) (warped : Nat → Nat → Nat) : Nat → Nat → Nat :=
  (nodes c).foldl (fun lab n => if lab n.1 n.2 = c.nReal then setLab lab n.1 n.2 (wta c (unary n.1 n.2)) else lab) warped

/-- `resetStereoLabelings` (SegmMatcher.cpp 1407-1461) without the projection on the other camera. -/
def reset (c : Cfg) (unary : Nat → Nat → Nat → Int) (warped : Nat → Nat → Nat) : Option State :=
  let lab := initLabels c unary warped
  (nodes c).foldlM (fun s n => if lab n.1 n.2 < c.nReal then addAssoc c s n.1 n.2 (lab n.1 n.2) else some s)
    ⟨lab, fun _ => 0, fun _ => -1⟩

/-- Truncation of a `float` to `int32` (`cost_cast`, SegmMatcher.hpp 126). -/
def trunc (q : ℚ) : Int := if 0 ≤ q then ⌊q⌋ else ⌈q⌉

/-- `m_aAssocCostRealAddLUT` (SegmMatcher.cpp 962-966), also `m_aAssocCostApproxAddLUT` (975-977, step 1); the macro of
line 91 with the factor of line 76. -/
def addCost (n : Nat) : Int :=
  if n < 1 then 0
  else trunc (float32 (float32 (float32 (float32 ((n + 1 - 1 : Nat) * 3 : ℚ) / float32 ((n + 1 - 1 + 2 : Nat) : ℚ)) * 400) / 1))

/-- `m_aAssocCostRealSumLUT` (SegmMatcher.cpp 964, 968). -/
def sumCost : Nat → Int
  | 0 => 0
  | n + 1 => sumCost n + addCost n

/-- `m_aAssocCostApproxRemLUT` (SegmMatcher.cpp 972). -/
def remCost (n : Nat) : Int :=
  if n = 0 then 0
  else trunc (float32 (float32 (float32 (-1 * float32 (sumCost n : ℚ)) / float32 (n : ℚ)) + 1 / 2))

/-- Access to one of the 200-element tables (SegmMatcher.cpp 376-378). -/
def lut (f : Nat → Int) (n : Nat) : Option Int := if n < 200 then some (f n) else none

/-- `calcAddAssocCost` (SegmMatcher.cpp 2693-2706). -/
def calcAdd (c : Cfg) (s : State) (r k l : Nat) : Option Int :=
  if l < c.nReal then do
    let a ← offsetCol c k l
    let n ← getCount c s r a
    lut addCost n
  else some 0

/-- `calcRemoveAssocCost` (SegmMatcher.cpp 2708-2722). -/
def calcRem (c : Cfg) (s : State) (r k l : Nat) : Option Int :=
  if l < c.nReal then do
    let a ← offsetCol c k l
    let n ← getCount c s r a
    if 0 < n then lut remCost n else none
  else some 0

/-- Columns visited by `calcTotalAssocCost` (SegmMatcher.cpp 2728-2729, 2731). -/
def costCols (c : Cfg) : List Int :=
  let start : Int := if c.right then c.dmin else -c.dmax
  let stop : Int := if c.right then c.cols + c.dmax else c.cols - c.dmin
  (List.range (stop - start).toNat).map (fun (i : Nat) => start + i)

/-- `calcTotalAssocCost` (SegmMatcher.cpp 2724-2735). -/
def totalAssoc (c : Cfg) (s : State) : Option Int :=
  (List.range c.rows).foldlM (fun e r => (costCols c).foldlM (fun e a => do
    let n ← getCount c s r a
    let v ← lut sumCost n
    some (e + v)) e) 0

/-- `calcStereoUnaryMoveCost` (SegmMatcher.cpp 2737-2753); `unary` is the node's unary function. -/
def moveCost (c : Cfg) (unary : Nat → Nat → Nat → Int) (s : State) (r k alpha : Nat) : Option Int :=
  if s.lab r k ≠ alpha then do
    let rem ← calcRem c s r k (s.lab r k)
    let add ← calcAdd c s r k alpha
    some (rem + add + unary r k alpha - unary r k (s.lab r k))
  else some 0

/-- The pairwise cliques of a node (SegmMatcher.cpp 1205-1244): with the pixel below, then with the pixel to the right,
if they are inside of the image and of the ROI; the orientation and the second pixel. -/
def cliques (c : Cfg) (r k : Nat) : List (Nat × Nat × Nat) :=
  (if r + 1 < c.rows ∧ c.roi (r + 1) k then [(0, r + 1, k)] else []) ++
  (if k + 1 < c.cols ∧ c.roi r (k + 1) then [(1, r, k + 1)] else [])

/-- Costs of the stereo graph: unary functions of the pixels, and the pairwise function of each clique, given by its
first pixel and orientation (SegmMatcher.cpp 1144-1405, values not modelled here). -/
structure Costs where
  unary : Nat → Nat → Nat → Int
  pair : Nat → Nat → Nat → List Nat → Int

/-- The terms sent to the reducer for one fusion move (SegmMatcher.cpp 3212-3232): for every node the unary move cost
(`AddUnaryTerm`), then its two cliques (`factorReducer`). Variables are graph node indices. -/
def moveTerms (c : Cfg) (m : Costs) (s : State) (alpha : Nat) : Option (List (Int × List Nat)) :=
  ((nodes c).mapM (fun (n : Nat × Nat) => do
    let u ← moveCost c m.unary s n.1 n.2 alpha
    let i := (nodes c).idxOf n
    some ((u, [i]) :: (cliques c n.1 n.2).flatMap (fun (q : Nat × Nat × Nat) =>
      Reducer.terms 2 (m.pair n.1 n.2 q.1) alpha
        (fun d => if d = 0 then s.lab n.1 n.2 else s.lab q.2.1 q.2.2)
        (fun d => if d = 0 then i else (nodes c).idxOf (q.2.1, q.2.2)))))).map List.flatten

/-- Relabeling of one node (SegmMatcher.cpp 3241-3249). -/
def moveNode (c : Cfg) (alpha : Nat) (s : State) (n : Nat × Nat) : Option State := do
  let old := s.lab n.1 n.2
  let s1 ← (if old < c.nReal then removeAssoc c s n.1 n.2 old else some s : Option State)
  let s2 := { s1 with lab := setLab s1.lab n.1 n.2 alpha }
  if alpha < c.nReal then addAssoc c s2 n.1 n.2 alpha else some s2

/-- The nodes labelled 1 by the minimizer take the label `alpha` (SegmMatcher.cpp 3235-3251); `lbl i` is
`GetLabel(i)`. The count of changed labels is returned as well. -/
def applyMove (c : Cfg) (alpha : Nat) (lbl : Nat → Int) (s : State) : Option (State × Nat) :=
  (nodes c).zipIdx.foldlM (fun (st : State × Nat) n =>
    if lbl n.2 = 1 then (moveNode c alpha st.1 n.1).map (fun s' => (s', st.2 + 1)) else some st) (s, 0)

/-- `StereoGraphInference::value` (SegmMatcher.cpp 3625-3644): association cost and the sum of all factors. -/
def energy (c : Cfg) (m : Costs) (s : State) : Option Int := do
  let t ← totalAssoc c s
  some (t + ((nodes c).map (fun n => m.unary n.1 n.2 (s.lab n.1 n.2))).sum +
    ((nodes c).map (fun n => ((cliques c n.1 n.2).map (fun q =>
      m.pair n.1 n.2 q.1 [s.lab n.1 n.2, s.lab q.2.1 q.2.2])).sum)).sum)

end Litiv.SegmAssoc
