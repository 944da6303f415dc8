import Verif.Model.KofN
import Verif.Model.IEEE
import Mathlib.Data.Rat.Floor
import Mathlib.Data.List.Sort

/-!
# Model of the edge map counters of the BSDS500 evaluation, modules/datasets/src/impl/BSDS500.cpp:69-429

An image is a function of the row and the column; only the pixels of the frame are read. `none`: an assertion fails or a
vector is read out of its bounds. Integer overflows are not modelled (counts and node numbers are natural numbers).
-/

namespace Litiv.Bsds

/-- A binary image. -/
abbrev Mask := Nat → Nat → Bool

/-- Frame size and maximal distance `dMaxDist` (lines 77-80). `dMaxDistSqr` is the exact square (a simplification of the
rounded product), `nMaxDist` the ceiling. -/
structure Geo where
  rows : Nat
  cols : Nat
  d : ℚ

/-- The four counters of one threshold, `BSDS500.hpp:161-164`. -/
structure Counts where
  indivTP : Nat
  indivTPFN : Nat
  totalTP : Nat
  totalTPFP : Nat
deriving DecidableEq

/-- The pixels of the frame in the order of the double loops over `i`, `j`. -/
def pixels (rows cols : Nat) : List (Nat × Nat) :=
  (List.range rows).flatMap fun i => (List.range cols).map fun j => (i, j)

/-- The offsets of the double loops over `u`, `v` in `[-nMaxDist, nMaxDist]`. -/
def window (R : Nat) : List (Int × Int) :=
  (List.range (2 * R + 1)).flatMap fun a : Nat => (List.range (2 * R + 1)).map fun b : Nat => ((a : Int) - R, (b : Int) - R)

/-- The tests made on one offset, lines 119-128, 171-181 and 382-391: the pixel reached, if none of the `continue`s is
taken. -/
def target (g : Geo) (p : Nat × Nat) (o : Int × Int) : Option (Nat × Nat) :=
  if (p.1 : Int) + o.1 < 0 then none
  else if (p.1 : Int) + o.1 ≥ g.rows then none
  else if (o.1 : ℚ) > g.d then none
  else if (p.2 : Int) + o.2 < 0 then none
  else if (p.2 : Int) + o.2 ≥ g.cols then none
  else if (o.2 : ℚ) > g.d then none
  else if ((o.1 * o.1 + o.2 * o.2 : Int) : ℚ) > g.d * g.d then none
  else some (((p.1 : Int) + o.1).toNat, ((p.2 : Int) + o.2).toNat)

/-- The pixels examined around `p`, in order. -/
def reach (g : Geo) (p : Nat × Nat) : List (Nat × Nat) := (window ⌈g.d⌉.toNat).filterMap (target g p)

/-- `cv::countNonZero` on the frame. -/
def countNonZero (g : Geo) (m : Mask) : Nat := (pixels g.rows g.cols).countP fun p => m p.1 p.2

/-- Writing `UCHAR_MAX` at `q`. -/
def mark (m : Mask) (q : Nat × Nat) : Mask := fun y x => if y = q.1 ∧ x = q.2 then true else m y x

/-- `nIndivTP`, `nGTPosCount` and `oSegmTPAccumulator`. -/
structure Acc where
  tp : Nat
  gt : Nat
  acc : Mask

/-! ## Without the benchmark code -/

/-- Body of the double loop over the pixels of one groundtruth mask, lines 378-400: the first detected pixel of the window,
if any, is the match. -/
def visit (g : Geo) (segm gt : Mask) (s : Acc) (p : Nat × Nat) : Acc :=
  if gt p.1 p.2 then
    match (reach g p).find? fun q => segm q.1 q.2 with
    | some q => { tp := s.tp + 1, gt := s.gt + 1, acc := mark s.acc q }
    | none => { s with gt := s.gt + 1 }
  else s

/-- The counters stored for one threshold, lines 405-415, with their two assertions. -/
def finish (g : Geo) (segm : Mask) (s : Acc) : Option Counts :=
  if s.gt ≥ s.tp ∧ countNonZero g segm ≥ countNonZero g s.acc then
    some ⟨s.tp, s.gt, countNonZero g s.acc, countNonZero g segm⟩
  else none

/-- Evaluation of one (thinned) mask without the benchmark code, lines 372-415. -/
def evalSimple (g : Geo) (segm : Mask) (gts : List Mask) : Option Counts :=
  finish g segm (gts.foldl (fun s gt => (pixels g.rows g.cols).foldl (visit g segm gt) s) ⟨0, 0, fun _ _ => false⟩)

/-! ## With the benchmark code -/

/-- `oMatchable_GT`, lines 112-136. -/
def matchableG (g : Geo) (segm gt : Mask) (p : Nat × Nat) : Bool :=
  gt p.1 p.2 && (reach g p).any fun q => segm q.1 q.2

/-- `oMatchable_SEGM`, lines 112-136: the pixels written by some iteration. -/
def matchableS (g : Geo) (segm gt : Mask) (q : Nat × Nat) : Bool :=
  (pixels g.rows g.cols).any fun p => gt p.1 p.2 && ((reach g p).contains q && segm q.1 q.2)

/-- `voNodeToPxLUT_SEGM`, lines 138-159. -/
def nodesS (g : Geo) (segm gt : Mask) : List (Nat × Nat) := (pixels g.rows g.cols).filter (matchableS g segm gt)

/-- `voNodeToPxLUT_GT`, lines 138-159. -/
def nodesG (g : Geo) (segm gt : Mask) : List (Nat × Nat) := (pixels g.rows g.cols).filter (matchableG g segm gt)

/-- An edge of the graph: two nodes and a weight. -/
abbrev Edge := Nat × Nat × Int

/-- `voEdges`, lines 167-192, with the weights of line 233 (`wt` of the squared distance; the rounded square root is not
modelled). A node number is the position of its pixel in the node list. -/
def realEdges (g : Geo) (wt : Int → Int) (segm gt : Mask) : List Edge :=
  ((pixels g.rows g.cols).filter (matchableG g segm gt)).flatMap fun p =>
    ((reach g p).filter (matchableS g segm gt)).map fun q =>
      ((nodesS g segm gt).idxOf q, (nodesG g segm gt).idxOf p,
        wt (((q.1 : Int) - p.1) * ((q.1 : Int) - p.1) + ((q.2 : Int) - p.2) * ((q.2 : Int) - p.2)))

/-- The streams of random numbers of `kofn.cpp`. -/
structure Rand where
  ri : Nat → Nat
  rr : Nat → ℚ

/-- `c` calls of `kOfN(k,n,…)` in a row. -/
def draws (r : Rand) (k n : Nat) : Nat → Nat × Nat → Option (List (List Nat) × (Nat × Nat))
  | 0, s => some ([], s)
  | c + 1, s =>
    (KofN.kOfN r.ri r.rr k n s).bind fun a => (draws r k n c a.2).map fun t => (a.1 :: t.1, t.2)

/-- Outlier edges of the detected nodes, lines 236-249. -/
def outS (nG : Nat) (ow : Int) (l : List (List Nat)) : List Edge :=
  l.zipIdx.flatMap fun e => e.1.map fun j => (e.2, nG + (if j ≥ e.2 then j + 1 else j), ow)

/-- Outlier edges of the groundtruth nodes, lines 250-263. -/
def outG (nS : Nat) (ow : Int) (l : List (List Nat)) : List Edge :=
  l.zipIdx.flatMap fun e => e.1.map fun i => (nS + (if i ≥ e.2 then i + 1 else i), e.2, ow)

/-- Edges between outliers, lines 264-285. -/
def outMix (nS nG : Nat) (ow : Int) (l : List (List Nat)) : List Edge :=
  l.zipIdx.flatMap fun e => e.1.map fun j => if nS < nG then (nS + e.2, nG + j, ow) else (nS + j, nG + e.2, ow)

/-- The overlay of lines 286-298 (`nOutlierWeight*multiplier` with `multiplier` = 100). -/
def overlay (nS nG : Nat) (ow : Int) : List Edge :=
  ((List.range nS).map fun i => (i, nG + i, ow * 100)) ++ ((List.range nG).map fun i => (nS + i, i, ow * 100))

/-- Degrees of the outlier connections, lines 199-203 (`degree` = 6). -/
def degree (n : Nat) : Nat := min 6 (n - 1)
def degreeMix (nS nG : Nat) : Nat := min 6 (min nS nG)

/-- The number `m` of rows allocated for the graph, lines 209-215. -/
def edgeCount (edges nS nG : Nat) : Nat :=
  edges + degree nS * nS + degree nG * nG + degreeMix nS nG * max nS nG + (nS + nG)

/-- The graph built at lines 223-299 (before the shift of lines 301-307). -/
def graph (g : Geo) (wt : Int → Int) (ow : Int) (r : Rand) (segm gt : Mask) (s : Nat × Nat) :
    Option (List Edge × (Nat × Nat)) :=
  let nS := (nodesS g segm gt).length
  let nG := (nodesG g segm gt).length
  (draws r (degree nS) (nS - 1) nS s).bind fun a =>
  (draws r (degree nG) (nG - 1) nG a.2).bind fun b =>
  (draws r (degreeMix nS nG) (min nS nG) (max nS nG) b.2).bind fun c =>
  some (realEdges g wt segm gt ++ outS nG ow a.1 ++ outG nS ow b.1 ++ outMix nS nG ow c.1 ++ overlay nS nG ow, c.2)

/-- Lines 301-307: the graph given to the solver, with nodes `1..n` and `n+1..2n`. -/
def shift (n : Nat) (l : List Edge) : List Edge := l.map fun e => (e.1 + 1, e.2.1 + 1 + n, e.2.2)

/-- Body of the loop of lines 349-364 on one edge `(a,b,c)` returned by the solver, after the shift of lines 313-320. -/
def record (segm gt : Mask) (nS nG : List (Nat × Nat)) (n : Nat) (s : Acc) (e : Edge) : Option Acc :=
  if e.1 - 1 ≥ nS.length then some s
  else if e.2.1 - 1 - n ≥ nG.length then some s
  else
    (nS[e.1 - 1]?).bind fun q => (nG[e.2.1 - 1 - n]?).bind fun p =>
    if segm q.1 q.2 ∧ gt p.1 p.2 then some { s with tp := s.tp + 1, acc := mark s.acc q } else none

/-- Running a fallible loop body over a list. -/
def loopM {α β : Type} (f : α → β → Option α) : α → List β → Option α
  | a, [] => some a
  | a, x :: l => (f a x).bind fun a' => loopM f a' l

/-- One groundtruth mask with the benchmark code, lines 110-368; `solve n graph` is the list of edges returned by the
assignment solver of `csa.cpp` (not modelled), whose number is asserted at line 311. -/
def matchMask (g : Geo) (wt : Int → Int) (ow : Int) (r : Rand) (solve : Nat → List Edge → List Edge) (segm : Mask)
    (st : Acc × (Nat × Nat)) (gt : Mask) : Option (Acc × (Nat × Nat)) :=
  let nS := nodesS g segm gt
  let nG := nodesG g segm gt
  let n := nS.length + nG.length
  let count (s : Acc) : Acc := { s with gt := s.gt + countNonZero g gt }
  if edgeCount (realEdges g wt segm gt).length nS.length nG.length > 0 then
    (graph g wt ow r segm gt st.2).bind fun gr =>
    let out := solve n (shift n gr.1)
    if out.length = n then (loopM (record segm gt nS nG n) st.1 out).map fun s => (count s, gr.2) else none
  else some (count st.1, st.2)

/-- Evaluation of one (thinned) mask with the benchmark code, lines 92-415. -/
def evalBench (g : Geo) (wt : Int → Int) (ow : Int) (r : Rand) (solve : Nat → List Edge → List Edge) (gts : List Mask)
    (segm : Mask) (s : Nat × Nat) : Option (Counts × (Nat × Nat)) :=
  (loopM (matchMask g wt ow r solve segm) (⟨0, 0, fun _ _ => false⟩, s) gts).bind fun st =>
    (finish g segm st.1).map fun c => (c, st.2)

/-! ## Thresholds -/

/-- The thresholds, `BSDS500.hpp:158` with `linspace<uchar>(0,UCHAR_MAX,n,false)` of `math.hpp:949-963`: products in double
precision, truncated. -/
def thresholds (n : Nat) : List Nat :=
  if n = 1 then [255]
  else (List.range n).map fun i : Nat => ⌊IEEE.fl 53 (IEEE.fl 53 (255 / (n : ℚ)) * ((i + 1 : Nat) : ℚ))⌋.toNat

/-- `lv::unique<uchar>(oClassif)`, `opencv.hpp:1118-1125`. -/
def uniques (g : Geo) (cl : Nat → Nat → Nat) : List Nat :=
  (((pixels g.rows g.cols).map fun p => cl p.1 p.2).dedup).insertionSort (· ≤ ·)

/-- `cv::compare(oClassif,threshold,…,CMP_GE)`, line 89, on the frame. -/
def above (g : Geo) (cl : Nat → Nat → Nat) (t : Nat) : Mask := fun y x => decide (y < g.rows ∧ x < g.cols ∧ t ≤ cl y x)

/-- The loop of lines 416-417 on the unique values from `nNextEvalUniqueValIdx` on. -/
def advance (t : Nat) : List Nat → List Nat
  | u :: v :: l => if u ≤ t then advance t (v :: l) else u :: v :: l
  | l => l

/-- The loop of lines 88-427 over the thresholds. `prev`: the counters of the previous threshold (`none` for the first one);
`us`: the unique values from `nNextEvalUniqueValIdx` on. A threshold not above the current unique value copies the counters
of its predecessor (lines 418-423), otherwise the thresholded image is evaluated by `ev` (lines 89-415), whose state
is the position in the random streams. -/
def bins {σ : Type} (ev : Mask → σ → Option (Counts × σ)) (g : Geo) (cl : Nat → Nat → Nat) :
    List Nat → Option Counts → List Nat → σ → Option (List Counts × σ)
  | [], _, _, s => some ([], s)
  | t :: ts, none, us, s =>
    (ev (above g cl t) s).bind fun r => (bins ev g cl ts (some r.1) (advance t us) r.2).map fun l => (r.1 :: l.1, l.2)
  | t :: ts, some c, us, s =>
    us.head?.bind fun u =>
    if t ≤ u then (bins ev g cl ts (some c) us s).map fun l => (c :: l.1, l.2)
    else (ev (above g cl t) s).bind fun r => (bins ev g cl ts (some r.1) (advance t us) r.2).map fun l => (r.1 :: l.1, l.2)

/-- `accumulate(oClassif,oGT,…)`, lines 69-429: the counters appended for the image. -/
def accumulate {σ : Type} (ev : Mask → σ → Option (Counts × σ)) (g : Geo) (cl : Nat → Nat → Nat) (ths : List Nat) (s : σ) :
    Option (List Counts × σ) :=
  bins ev g cl ths none (uniques g cl) s

end Litiv.Bsds
