import Verif.Model.ResegmGraph
import Mathlib.Data.Rat.Floor
import Mathlib.Algebra.BigOperators.Group.List.Basic

/-!
# Costs and temporal links of the segmentation graph

Model of `SegmMatcher::GraphModelData::updateResegmModel` (modules/imgproc/src/SegmMatcher.cpp 1918-2160): costs of the
unary, pairwise and temporal terms, and how temporal terms are moved along optical flows. Numbers are exact rationals
instead of `float`, costs are unbounded integers; colour models, shape distances, gradients, flows and temporal
differences are inputs. The construction of the graph is area ResegmGraph; the table of gradient factors
(985-987) is a parameter.
-/

namespace Litiv.ResegmCost
open ResegmGraph

/-- `cost_cast` (SegmMatcher.hpp 125-126): conversion to an integer, towards zero. -/
def costCast (q : ℚ) : Int := if 0 ≤ q then ⌊q⌋ else ⌈q⌉

/-- `std::round`: halves away from zero. -/
def round (q : ℚ) : Int := if 0 ≤ q then ⌊q + 1 / 2⌋ else ⌈q - 1 / 2⌉

/-- `getOffsetColIdx` (SegmMatcher.cpp 2621-2635) for a disparity label which stands for disparity `d`. -/
def offsetCol (cam k : Nat) (d : Int) : Int := if cam = 0 then k + -d else k + d

/-- The matching pixel's column, if its disparity label is a real one and the pixel is in the other camera's region of
interest (SegmMatcher.cpp 1971-1973). -/
def matching (c : Cfg) (cam row col : Nat) (disp : Option Int) : Option Nat :=
  disp.bind fun d =>
    let o := offsetCol cam col d
    if 0 ≤ o ∧ o < c.cols ∧ c.roi (cam ^^^ 1) row o.toNat then some o.toNat else none

/-- What the unary costs of a pixel are computed from: shape distances and colour log-likelihoods. -/
structure Px where
  fgDist : ℚ
  bgDist : ℚ
  fgLog : ℚ
  bgLog : ℚ

/-- The cost of foreground and background for a node (SegmMatcher.cpp 1933-1944, 1974-1979, 2015-2017), given the shape
distances of its matching pixel. -/
def unary (p : Px) (other : Option (ℚ × ℚ)) : Int × Int :=
  match other with
  | some o => (costCast (p.fgDist * 200) + costCast (p.fgLog * 30) + costCast (o.1 * 200 * (1 / 2)),
      costCast (p.bgDist * 200) + costCast (p.bgLog * 30) + costCast (o.2 * 200 * (1 / 2)))
  | none => (100, 0)

/-- `fScaleFact` (SegmMatcher.cpp 1990-1994, 2028-2029): the gradient factors at the pixel and at its matching pixel. -/
def pairScale (fact : Nat → ℚ) (grad : Nat) (other : Option Nat) : ℚ :=
  match other with
  | some h => min (fact grad) (fact h / (1 / 2))
  | none => fact grad

/-- One entry of a pairwise cost table (SegmMatcher.cpp 1996-2000, 2030-2034). -/
def pairCost (scale : ℚ) (a b : Nat) : Int := costCast (((a ^^^ b : Nat) : ℚ) * scale * 200)

/-- One step along the optical flow to layer `cur` (SegmMatcher.cpp 2080-2086); none where an index would be negative or
the node does not exist. -/
def follow (c : Cfg) (m : Maps) (flow : Nat → Nat → Nat → ℚ × ℚ) (cur prev : Nat) : Option Nat :=
  (m.node prev).bind fun n =>
    let f := flow cur n.row n.col
    let rowOff : Int := max (min (round (n.row + f.2)) (c.rows - 1)) 0 - n.row
    let colOff : Int := max (min (round (n.col + f.1)) (c.cols - 1)) 0 - n.col
    let p : Int := (prev + (rowOff * c.cols + colOff)) - c.size
    if 0 ≤ p then some p.toNat else none

/-- `vnLUTNodeIdxs`: the nodes met from the oldest layer to the latest (SegmMatcher.cpp 2069, 2076-2096). -/
def track (c : Cfg) (m : Maps) (flow : Nat → Nat → Nat → ℚ × ℚ) (base : Nat) : Option (List Nat) :=
  (List.range (c.layers - 1)).foldlM (fun path i => path.getLast?.bind fun prev =>
    (follow c m flow (c.layers - 1 - (i + 1)) prev).map fun p => path ++ [p]) [base]

/-- A node can take part in a temporal term (`bValidGraphNode`, SegmMatcher.cpp 2093). -/
def usable (m : Maps) (p : Nat) : Bool := (m.node p).elim false (·.valid)

/-- The members of a temporal term, in both numberings (SegmMatcher.cpp 2075-2112); `some none` if it is turned off. -/
def link (c : Cfg) (m : Maps) (flow : Nat → Nat → Nat → ℚ × ℚ) (base : Nat) : Option (Option (List Nat × List Nat)) :=
  (track c m flow base).bind fun path =>
    if path.tail.all (usable m) then
      (path.mapM fun p => (m.node p).bind (·.graph)).map fun graphs => some (path.reverse, graphs.reverse)
    else some none

/-- `aCliqueLabels` (SegmMatcher.cpp 2129-2130): bit `v` of the assignment, as a label. -/
def bitLabel (assign v : Nat) : Nat := if assign &&& (1 <<< v) ≠ 0 then 1 else 0

/-- `fCliqueCoeffs` (SegmMatcher.cpp 2131-2141); `diff layer place` is `aaTempDiff[nCamIdx]`, `maps` is `vnMapIdxs`
after its reversal. -/
def coeffs (fact : Nat → ℚ) (diff : Nat → Nat → Nat) (maps : List Nat) (layers assign : Nat) : ℚ :=
  ((List.range (layers - 1)).map fun i =>
    if bitLabel assign (i + 1) ≠ bitLabel assign i then fact (diff i (maps.getD (i + 1) 0)) else 0).sum

/-- The position of a labelling in a function's data, last index major (SegmMatcher.cpp 2125, 2155). -/
def cell (layers : Nat) (label : Nat → Nat) : Nat := ((List.range layers).map fun v => label v * 2 ^ v).sum

/-- A temporal cost table (SegmMatcher.cpp 2127-2156), as the data it writes. -/
def tempTable (fact : Nat → ℚ) (diff : Nat → Nat → Nat) (maps : List Nat) (layers : Nat) (old : Nat → Int) : Nat → Int :=
  (List.range (2 ^ layers)).foldl (fun t assign i =>
    if i = cell layers (bitLabel assign) then costCast (coeffs fact diff maps layers assign * 200) else t i) old

end Litiv.ResegmCost
