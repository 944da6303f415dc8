import Mathlib.Data.List.Basic
import Mathlib.Logic.Function.Basic

/-!
# Primal-dual moves of the segmentation matcher

Model of `initMinimizer`, `setupPrimalDual`, `solvePrimalDual` and of the numbering of cliques in `updateResegmModel`
(modules/imgproc/src/SegmMatcher.cpp), which drive the resegmentation as compiled by default, and of
`sospd::SubtractLinear` (3rdparty/sospd/include/litiv/3rdparty/sospd/submodular-functions.hpp). Nodes are graph node
indices: the maps between them and pixels are bijections and left out. Costs are unbounded integers instead of `int32`.
The minimizer (`SubmodularIBFS`) is an oracle for the labels and the `AlphaCi` values that it returns.
-/

namespace Litiv.SegmDual

/-- A clique: its members in order (`m_anGraphNodeIdxs`) and its cost table (`m_pGraphFunctionPtr`), as a function of the
labels of its members (utils/opengm.hpp 60-130). -/
structure Clique where
  nodes : List Nat
  cost : List Nat → Int

/-- A graph: number of nodes, unary functions, and the cliques owned by each node (`vpCliques`, SegmMatcher.cpp 237). -/
structure Graph where
  size : Nat
  unary : Nat → Nat → Int
  own : Nat → List Clique

/-- The cliques in the order of `initMinimizer` (SegmMatcher.cpp 2813-2833), `setupPrimalDual` (2854-2891) and
`solvePrimalDual` (2920-2966, 3029-3066): node by node. Their positions are the rows of the dual map and the indices of
the minimizer's cliques. -/
def Graph.cliques (g : Graph) : List Clique := (List.range g.size).flatMap g.own

/-- `oDualMap` (clique, position in the clique, label) and `oHeightMap` (node, label). -/
structure Duals where
  dual : Nat → Nat → Nat → Int
  height : Nat → Nat → Int

/-- Write one dual variable. -/
def setDual (d : Nat → Nat → Nat → Int) (i p l : Nat) (v : Int) : Nat → Nat → Nat → Int :=
  fun i' p' l' => if i' = i ∧ p' = p ∧ l' = l then v else d i' p' l'

/-- Add to one height. -/
def addHeight (h : Nat → Nat → Int) (n l : Nat) (v : Int) : Nat → Nat → Int :=
  fun n' l' => if n' = n ∧ l' = l then h n' l' + v else h n' l'

/-- Distribution of a clique's cost on its members (SegmMatcher.cpp 2862-2889): the average, and one more for the first
ones. Costs must not be negative (2873, debug); an empty clique would divide by zero. -/
def setupClique (lab : Nat → Nat) (st : Duals × Nat) (c : Clique) : Option (Duals × Nat) :=
  let cost := c.cost (c.nodes.map lab)
  if 0 ≤ cost ∧ c.nodes ≠ [] then
    let avg := cost / c.nodes.length
    let rem := cost % c.nodes.length
    some (c.nodes.zipIdx.foldl (fun (s : Duals) np =>
      let v := if (np.2 : Int) < rem then avg + 1 else avg
      ⟨setDual s.dual st.2 np.2 (lab np.1) v, addHeight s.height np.1 (lab np.1) v⟩) st.1, st.2 + 1)
  else none

/-- `setupPrimalDual` (SegmMatcher.cpp 2838-2893): the duals and the number of cliques. -/
def setup (g : Graph) (lab : Nat → Nat) : Option (Duals × Nat) :=
  (List.range g.size).foldlM (fun st n =>
    (g.own n).foldlM (setupClique lab)
      (({ st.1 with height := fun n' l => if n' = n then st.1.height n' l + g.unary n l else st.1.height n' l } : Duals), st.2))
    (⟨fun _ _ _ => 0, fun _ _ => 0⟩, 0)

/-- Trailing zeros, looking at no more than `f` bits. -/
def ctzAux : Nat → Nat → Nat
  | 0, _ => 0
  | f + 1, n => if n % 2 = 1 then 0 else ctzAux f (n / 2) + 1

/-- `__builtin_ctz` (undefined for 0, here 0). -/
def ctz (n : Nat) : Nat := ctzAux n n

/-- `a ^ (a >> 1)` (SegmMatcher.cpp 2951). -/
def gray (a : Nat) : Nat := a ^^^ (a >>> 1)

/-- Costs of all fusion assignments of a clique (SegmMatcher.cpp 2946-2960): the table is filled in the order of the Gray
code, one label of the buffer is changed at each step. -/
def fusionTable (k : Nat) (cost : List Nat → Int) (cur fus : Nat → Nat) : Nat → Int :=
  ((List.range' 1 (2 ^ k - 1)).foldl (fun (st : (Nat → Int) × (Nat → Nat) × Nat) a =>
    let g := gray a
    let diff := g ^^^ st.2.2
    let j := ctz diff
    let buf := if diff &&& g ≠ 0 then Function.update st.2.1 j (fus j) else Function.update st.2.1 j (cur j)
    (Function.update st.1 g (cost ((List.range k).map buf)), buf, g))
    (Function.update (fun _ => 0) 0 (cost ((List.range k).map cur)), cur, 0)).1

/-- `sospd::SubtractLinear` (submodular-functions.hpp 274-297). -/
def subtractLinear (k : Nat) (table : Nat → Int) (psi1 psi2 : Nat → Int) : Nat → Int :=
  let sum0 := (List.range k).foldl (fun s i => s + psi2 i) 0
  ((List.range' 1 (2 ^ k - 1)).foldl (fun (st : (Nat → Int) × Int × Nat) a =>
    let g := gray a
    let diff := g ^^^ st.2.2
    let j := ctz diff
    let sum := if g &&& diff ≠ 0 then st.2.1 + (psi1 j - psi2 j) else st.2.1 + (psi2 j - psi1 j)
    (Function.update st.1 g (st.1 g - sum), sum, g))
    (Function.update table 0 (table 0 - sum0), sum0, 0)).1

/-- The energy table of a clique handed to the minimizer (SegmMatcher.cpp 2927-2962), by clique number. -/
def residual (d : Duals) (lab : Nat → Nat) (alpha : Nat) (i : Nat) (c : Clique) : Nat → Int :=
  let node := fun p => c.nodes.getD p 0
  subtractLinear c.nodes.length (fusionTable c.nodes.length c.cost (fun p => lab (node p)) (fun _ => alpha))
    (fun p => d.dual i p alpha) (fun p => d.dual i p (lab (node p)))

/-- The value `tUnaryCost` of a node (SegmMatcher.cpp 2972-2985); `lut` is `vCliqueMemberLUT`, the unary move cost is that
of `calcResegmMoveCosts` (2772-2801, without the temporal constant). -/
def unaryTerm (g : Graph) (d : Duals) (lut : Nat → List (Nat × Nat)) (lab : Nat → Nat) (alpha n : Nat) : Int :=
  (lut n).foldl (fun t p => t + (d.dual p.1 p.2 (lab n) - d.dual p.1 p.2 alpha))
    (-(if lab n ≠ alpha then g.unary n alpha - g.unary n (lab n) else 0))

/-- What the minimizer has to minimize over the sets of moving nodes (`AddUnaryTerm`, SegmMatcher.cpp 2986-2989, and the
clique tables): bit `p` of the assignment of a clique tells whether its member `p` moves. -/
def objective (g : Graph) (d : Duals) (lut : Nat → List (Nat × Nat)) (lab : Nat → Nat) (alpha : Nat) (x : Nat → Bool) : Int :=
  ((List.range g.size).map (fun n =>
    let t := unaryTerm g d lut lab alpha n
    if t > 0 then (if x n then 0 else t) else (if x n then -t else 0))).sum +
  (g.cliques.zipIdx.map (fun ci => residual d lab alpha ci.2 ci.1
    (((List.range ci.1.nodes.length).map (fun p => if x (ci.1.nodes.getD p 0) then 2 ^ p else 0)).sum))).sum

/-- Labels after the move (SegmMatcher.cpp 2998-3016). -/
def moveLabels (lab : Nat → Nat) (alpha : Nat) (lbl : Nat → Int) : Nat → Nat :=
  fun n => if lbl n = 1 then alpha else lab n

/-- The minimizer's `AlphaCi` values are added to the duals of the label `alpha` (SegmMatcher.cpp 3021-3028). -/
def addPhi (g : Graph) (alpha : Nat) (phi : Nat → Nat → Int) (d : Duals) : Duals :=
  g.cliques.zipIdx.foldl (fun d ci => ci.1.nodes.zipIdx.foldl (fun d np =>
    ⟨setDual d.dual ci.2 np.2 alpha (d.dual ci.2 np.2 alpha + phi ci.2 np.2), addHeight d.height np.1 alpha (phi ci.2 np.2)⟩) d) d

/-- The duals of one clique are corrected until they sum to its cost again (SegmMatcher.cpp 3036-3063). -/
def editClique (lab : Nat → Nat) (i : Nat) (c : Clique) (d : Duals) : Duals :=
  let lambdaSum := c.nodes.zipIdx.foldl (fun s np => s + d.dual i np.2 (lab np.1)) 0
  let correction := c.cost (c.nodes.map lab) - lambdaSum
  let avg0 := correction.tdiv c.nodes.length
  let rem0 := correction.tmod c.nodes.length
  let avg := if rem0 < 0 then avg0 - 1 else avg0
  let rem := if rem0 < 0 then rem0 + c.nodes.length else rem0
  c.nodes.zipIdx.foldl (fun d np =>
    let old := d.dual i np.2 (lab np.1)
    let h1 := addHeight d.height np.1 (lab np.1) (-old)
    let new := if (np.2 : Int) < rem then old + avg + 1 else old + avg
    ⟨setDual d.dual i np.2 (lab np.1) new, addHeight h1 np.1 (lab np.1) new⟩) d

/-- `solvePrimalDual` after the minimizer answered (SegmMatcher.cpp 2998-3066). -/
def solve (g : Graph) (alpha : Nat) (lbl : Nat → Int) (phi : Nat → Nat → Int) (st : (Nat → Nat) × Duals) : (Nat → Nat) × Duals :=
  let lab := moveLabels st.1 alpha lbl
  (lab, g.cliques.zipIdx.foldl (fun d ci => editClique lab ci.2 ci.1 d) (addPhi g alpha phi st.2))

/-- A resegmentation graph: pairwise cliques of each node, and its temporal clique if it is valid (SegmMatcher.cpp
2055-2126). -/
structure Resegm where
  size : Nat
  unary : Nat → Nat → Int
  pairw : Nat → List Clique
  temp : Nat → Option Clique

/-- `vpCliques` (SegmMatcher.cpp 2002, 2036, 2114). -/
def Resegm.graph (r : Resegm) : Graph := ⟨r.size, r.unary, fun n => r.pairw n ++ (r.temp n).toList⟩

/-- `vCliqueMemberLUT.push_back` -/
def push (lut : Nat → List (Nat × Nat)) (n : Nat) (e : Nat × Nat) : Nat → List (Nat × Nat) :=
  fun m => if m = n then lut m ++ [e] else lut m

/-- `vCliqueMemberLUT` as filled by `updateResegmModel(true)`: a counter numbers the pairwise cliques of all nodes
(SegmMatcher.cpp 1957-2049), then the valid temporal cliques in the order in which the threads get to
them (2051-2122); the member positions of a temporal clique are those of `vnLUTNodeIdxs`, of which the clique holds
the reverse (2110-2111). -/
def memberLut (r : Resegm) (order : List Nat) : Nat → List (Nat × Nat) :=
  let st := ((List.range r.size).flatMap r.pairw).foldl (fun (st : (Nat → List (Nat × Nat)) × Nat) c =>
    (c.nodes.zipIdx.foldl (fun lut np => push lut np.1 (st.2, np.2)) st.1, st.2 + 1)) (fun _ => [], 0)
  ((order.filterMap r.temp).foldl (fun (st : (Nat → List (Nat × Nat)) × Nat) c =>
    (c.nodes.reverse.zipIdx.foldl (fun lut np => push lut np.1 (st.2, np.2)) st.1, st.2 + 1)) st).1

end Litiv.SegmDual
