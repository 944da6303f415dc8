import Mathlib.Data.List.Basic

/-!
# Disparity labels seen from the other camera

Model of the projection of the primary camera's labels on the other camera, of the occlusion maps, and of the
post-processing that gives the outputs of `SegmMatcher::apply` (modules/imgproc/src/SegmMatcher.cpp 1464-1549,
1591-1636, 3459-3468). Rows do not interact (the first loop runs them on several threads), so a row is a function of the
column and an image a function of the row. Labels are natural numbers instead of bytes. Pixels outside of the image are
never read.
-/

namespace Litiv.SegmProj

/-- What the constructor and `initialize` fix (SegmMatcher.cpp 719-739, 886-915): image size, number of disparity
labels, smallest disparity, step between them, `m_nMaxDispOffset`, and whether the base camera (whose labels are
projected) is camera 1. -/
structure Cfg where
  rows : Nat
  cols : Nat
  nReal : Nat
  dmin : Nat
  step : Nat
  dmax : Nat
  baseRight : Bool

/-- `m_nDontCareLabelIdx` (SegmMatcher.cpp 895). -/
def Cfg.dontCare (c : Cfg) : Nat := c.nReal

/-- `m_nOccludedLabelIdx` (SegmMatcher.cpp 896). -/
def Cfg.occluded (c : Cfg) : Nat := c.nReal + 1

/-- `getOffsetColIdx(nBaseCamIdx,nColIdx,nLabel)` (SegmMatcher.cpp 2621-2635) for a disparity label. -/
def offsetCol (c : Cfg) (k l : Nat) : Int :=
  if c.baseRight then (k : Int) + (c.dmin + l * c.step : Nat) else (k : Int) - (c.dmin + l * c.step : Nat)

/-- `++m_oStereoVoteMap(row,col,slot)`. -/
def bump (v : Nat → Nat → Nat) (k s : Nat) : Nat → Nat → Nat :=
  fun k' s' => if k' = k ∧ s' = s then v k' s' + 1 else v k' s'

/-- The vote of one base pixel (SegmMatcher.cpp 1483-1492, 1609-1618). -/
def vote (c : Cfg) (roi : Nat → Bool) (base : Nat → Nat) (v : Nat → Nat → Nat) (k : Nat) : Nat → Nat → Nat :=
  let l := base k
  if l < c.nReal then
    let a := offsetCol c k l
    if 0 ≤ a ∧ a < c.cols ∧ roi a.toNat = true then bump v a.toNat ((c.nReal - 1) - l) else v
  else v

/-- The votes of a row (SegmMatcher.cpp 1482-1493, 1608-1619). -/
def votes (c : Cfg) (roi : Nat → Bool) (base : Nat → Nat) : Nat → Nat → Nat :=
  (List.range c.cols).foldl (vote c roi base) (fun _ _ => 0)

/-- `std::max_element` over `n` values: the first of the largest; `n` (the end) if there are none. -/
def maxElement (f : Nat → Nat) (n : Nat) : Nat :=
  (List.range' 1 (n - 1)).foldl (fun b i => if f b < f i then i else b) 0

/-- The labels of a row before the smoothing (SegmMatcher.cpp 1474, 1494-1505). -/
def winners (c : Cfg) (roi : Nat → Bool) (base : Nat → Nat) (k : Nat) : Nat :=
  if roi k = true then
    let v := votes c roi base
    let m := maxElement (v k) c.nReal
    if m ≠ c.nReal ∧ v k m > 0 then (c.nReal - 1) - m else c.occluded
  else c.dontCare

/-- A row of the occlusion map before its smoothing (SegmMatcher.cpp 1603, 1620-1628). -/
def occlusionRow (c : Cfg) (roi : Nat → Bool) (base : Nat → Nat) (k : Nat) : Nat :=
  if roi k = true then
    let v := votes c roi base
    let m := maxElement (v k) c.nReal
    if m = c.nReal ∨ v k m = 0 then 255 else 0
  else 0

/-- One offset of the search for a label (SegmMatcher.cpp 1515-1530). -/
def probe (c : Cfg) (roi : Nat → Bool) (row : Nat → Nat) (k o : Nat) : Option Nat :=
  if k + o < c.cols ∧ roi (k + o) = true ∧ row (k + o) ≠ c.dontCare then some (row (k + o))
  else if o ≤ k ∧ roi (k - o) = true ∧ row (k - o) ≠ c.dontCare then some (row (k - o))
  else none

/-- The pixel at column `k` in the second pass (SegmMatcher.cpp 1509-1539). -/
def fillCell (c : Cfg) (roi : Nat → Bool) (row : Nat → Nat) (k : Nat) : Nat → Nat :=
  if roi k = false then Function.update row k c.dontCare
  else if row k = c.dontCare then
    Function.update row k (((List.range (c.dmax + 1)).findSome? (probe c roi row k)).getD 0)
  else row

/-- The second pass over a row, from right to left (SegmMatcher.cpp 1508-1540). -/
def fillRow (c : Cfg) (roi : Nat → Bool) (row : Nat → Nat) : Nat → Nat :=
  (List.range c.cols).reverse.foldl (fillCell c roi) row

/-- `resetStereoLabelingByProjection` (SegmMatcher.cpp 1464-1549); `blur9` stands for `cv::medianBlur(..,9)`. -/
def project (c : Cfg) (roi : Nat → Nat → Bool) (blur9 : (Nat → Nat → Nat) → Nat → Nat → Nat)
    (base : Nat → Nat → Nat) : Nat → Nat → Nat :=
  fun r => fillRow c (roi r) (blur9 (fun r' => winners c (roi r') (base r')) r)

/-- `computeOcclusionMaps` for one camera (SegmMatcher.cpp 1591-1636); `blur5` stands for `cv::medianBlur(..,5)`. -/
def occlusionMap (c : Cfg) (roi : Nat → Nat → Bool) (blur5 : (Nat → Nat → Nat) → Nat → Nat → Nat)
    (base : Nat → Nat → Nat) : Nat → Nat → Nat :=
  blur5 (fun r => occlusionRow c (roi r) (base r))

/-- The post-processing of both disparity labelings (SegmMatcher.cpp 3459-3465): camera 0, then camera 1; the camera
that is not the primary one gets the projection of the primary camera's labels as they are by then. Gives the pair
(primary, other). -/
def finish (c : Cfg) (roi : Nat → Nat → Bool) (blur9 blur5 : (Nat → Nat → Nat) → Nat → Nat → Nat)
    (prim : Nat → Nat → Nat) : (Nat → Nat → Nat) × (Nat → Nat → Nat) :=
  if c.baseRight then
    let other := project c roi blur9 prim
    (blur5 prim, other)
  else
    let prim' := blur5 prim
    (prim', project c roi blur9 prim')

/-- Coordinate of `BORDER_REPLICATE`. -/
def clamp (n : Nat) (x : Int) : Nat := if x < 0 then 0 else if x < n then x.toNat else n - 1

/-- The window of a pixel: `2*h+1` rows and columns with replicated borders. -/
def window (rows cols h : Nat) (img : Nat → Nat → Nat) (r k : Nat) : List Nat :=
  (List.range (2 * h + 1)).flatMap (fun i => (List.range (2 * h + 1)).map (fun j =>
    img (clamp rows ((r : Int) + i - h)) (clamp cols ((k : Int) + j - h))))

/-- Insertion into a sorted list. -/
def insertSorted (a : Nat) : List Nat → List Nat
  | [] => [a]
  | b :: l => if a ≤ b then a :: b :: l else b :: insertSorted a l

/-- Insertion sort. -/
def sortList (l : List Nat) : List Nat := l.foldr insertSorted []

/-- `cv::medianBlur` of a one-channel image with an aperture of `2*h+1` (OpenCV: middle of the sorted window, borders
replicated). -/
def medianBlur (rows cols h : Nat) (img : Nat → Nat → Nat) (r k : Nat) : Nat :=
  ((sortList (window rows cols h img r k))[(2 * h + 1) * (2 * h + 1) / 2]?).getD 0

end Litiv.SegmProj
