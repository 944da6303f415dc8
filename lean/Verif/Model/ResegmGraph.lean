import Mathlib.Data.List.Basic

/-!
# The segmentation graph of the segmentation matcher

Model of the node tables, factors and function buffers which `SegmMatcher::GraphModelData` sets up for its
resegmentation graph (modules/imgproc/src/SegmMatcher.cpp 993-1134, 1637-1767): two cameras, any number of temporal
layers and any temporal stride. Indices are unbounded naturals instead of `size_t` and `int`; accesses outside of a
table give `none`. Functions are described by the offset of their data in `m_aResegmFuncsData`; their values and the
display of the model are left out.
-/

namespace Litiv.ResegmGraph

/-- Grid size, `getTemporalLayerCount()`, `s_nTemporalCliqueStride` and the regions of interest (camera, row, column)
(SegmMatcher.cpp 154-159, 886-887). -/
structure Cfg where
  rows : Nat
  cols : Nat
  layers : Nat
  stride : Nat
  roi : Nat → Nat → Nat → Bool

/-- `nLayerSize` (SegmMatcher.cpp 1026, 1641). -/
def Cfg.size (c : Cfg) : Nat := c.rows * c.cols

/-- `anValidGraphNodes[nCamIdx]`, the number of pixels in a region of interest (SegmMatcher.cpp 1000). -/
def Cfg.roiCount (c : Cfg) (cam : Nat) : Nat :=
  ((List.range c.rows).map fun r => ((List.range c.cols).filter (c.roi cam r)).length).sum

/-- The numbers of `ResegmNodeInfo` (SegmMatcher.cpp 203-249); `graph` is `none` for `SIZE_MAX`. -/
structure Info where
  row : Nat
  col : Nat
  valid : Bool
  graph : Option Nat
  mapIdx : Nat
  lut : Nat
  cam : Nat
  layer : Nat
  stacked : Nat
deriving DecidableEq, Repr

/-- `m_vResegmNodeMap`, `m_nValidResegmGraphNodes` and `m_vResegmGraphIdxToMapIdxLUT` (SegmMatcher.cpp 1039-1041,
1065); entries of the node map which have not been written are `none`. -/
structure Maps where
  node : Nat → Option Info
  count : Nat
  luts : List Nat

/-- One pass of the innermost loop (SegmMatcher.cpp 1071-1117), for the segmentation graph only. -/
def addNode (c : Cfg) (m : Maps) (n : Nat × Nat × Nat × Nat) : Maps :=
  let cam := n.1
  let layer := n.2.1
  let row := n.2.2.1
  let col := n.2.2.2
  let mapIdx := row * c.cols + col
  let stacked := mapIdx + layer * c.size
  let lut := stacked + c.layers * c.size * cam
  let valid := c.roi cam row col
  { node := fun i => if i = lut then
      some ⟨row, col, valid, if valid then some m.count else none, mapIdx, lut, cam, layer, stacked⟩ else m.node i
    count := if valid then m.count + 1 else m.count
    luts := if valid then m.luts ++ [lut] else m.luts }

/-- The order of the four loops: cameras, layers, rows, columns (SegmMatcher.cpp 1066-1071). -/
def order (c : Cfg) : List (Nat × Nat × Nat × Nat) :=
  (List.range 2).flatMap fun cam => (List.range c.layers).flatMap fun layer =>
    (List.range c.rows).flatMap fun row => (List.range c.cols).map fun col => (cam, layer, row, col)

/-- The node tables after all loops (SegmMatcher.cpp 1065-1121). -/
def build (c : Cfg) : Maps := (order c).foldl (addNode c) ⟨fun _ => none, 0, []⟩

/-- The constructor's checks of the regions of interest, and of the number of nodes (SegmMatcher.cpp 900-904, 993,
1001, 1122); the other checks concern the disparity labels and the available memory. -/
def create (c : Cfg) : Option Maps :=
  let total := c.roiCount 0 + c.roiCount 1
  if 1 < c.roiCount 0 ∧ 1 < c.roiCount 1 ∧ 1 < c.size ∧ 1 < c.rows ∧ 1 < c.cols ∧
      c.roiCount 0 < c.size ∧ c.roiCount 1 < c.size then
    let m := build c
    if m.count = total * c.layers then some m else none
  else none

/-- `nTotResegmUnaryFuncDataSize` (SegmMatcher.cpp 1011, 1016): two values per node. -/
def unarySize (c : Cfg) : Nat := c.roiCount 0 * 2 * c.layers + c.roiCount 1 * 2 * c.layers

/-- `nTotResegmPairwFuncDataSize` (SegmMatcher.cpp 1012, 1017): two orientations and four values per node. -/
def pairwSize (c : Cfg) : Nat := c.roiCount 0 * 2 * (2 * 2) * c.layers + c.roiCount 1 * 2 * (2 * 2) * c.layers

/-- `nTotResegmTemporalFuncDataSize` (SegmMatcher.cpp 1013, 1018). -/
def tempSize (c : Cfg) : Nat := c.roiCount 0 * 2 ^ c.layers + c.roiCount 1 * 2 ^ c.layers

/-- `m_pResegmPairwFuncsDataBase` (SegmMatcher.cpp 1131). -/
def pairwBase (c : Cfg) : Nat := unarySize c

/-- `m_pResegmTemporalFuncsDataBase` (SegmMatcher.cpp 1132). -/
def tempBase (c : Cfg) : Nat := pairwBase c + pairwSize c

/-- `m_pResegmFuncsDataEnd` (SegmMatcher.cpp 1133). -/
def dataEnd (c : Cfg) : Nat := tempBase c + tempSize c

/-- The offset of a node's unary function (SegmMatcher.cpp 1666); its factor id is the node's graph index
(1670-1675). -/
def unaryData (g : Nat) : Nat := g * 2

/-- A pairwise clique: graph index of its owner, orientation, node and graph indices of both members, factor id, and
offset of its function (SegmMatcher.cpp 1687-1702). -/
structure Pair where
  owner : Nat
  orient : Nat
  luts : Nat × Nat
  graphs : Nat × Nat
  factor : Nat
  data : Nat
deriving DecidableEq, Repr

/-- The pairwise cliques in order of creation, and `vCliqueMemberLUT` of each node (SegmMatcher.cpp 1703-1707). -/
structure Pairs where
  list : List Pair
  members : Nat → List (Nat × Nat)

/-- Appending to one node's `vCliqueMemberLUT` (SegmMatcher.cpp 1704-1705). -/
def push (t : Nat → List (Nat × Nat)) (n : Nat) (e : Nat × Nat) : Nat → List (Nat × Nat) :=
  fun i => if i = n then t i ++ [e] else t i

/-- `lPairwCliqueCreator` (SegmMatcher.cpp 1684-1709). -/
def addPair (c : Cfg) (m : Maps) (g base : Nat) (s : Pairs) (orient off : Nat) : Option Pairs :=
  (m.node off).bind fun n =>
    if n.valid then n.graph.map fun h =>
      { list := s.list ++ [⟨g, orient, (base, off), (g, h), m.count + s.list.length,
          pairwBase c + (g * 2 + orient) * 2 * 2⟩]
        members := push (push s.members base (s.list.length, 0)) off (s.list.length, 1) }
    else some s

/-- The pairwise cliques of one node (SegmMatcher.cpp 1680-1718). -/
def pairNode (c : Cfg) (m : Maps) (s : Pairs) (g : Nat) : Option Pairs :=
  m.luts[g]?.bind fun base => (m.node base).bind fun n =>
    (if n.row + 1 < c.rows then addPair c m g base s 0 (base + c.cols) else some s).bind fun s =>
      if n.col + 1 < c.cols then addPair c m g base s 1 (base + 1) else some s

/-- The loop which adds pairwise factors (SegmMatcher.cpp 1678-1719). -/
def pairs (c : Cfg) (m : Maps) : Option Pairs := (List.range m.count).foldlM (pairNode c m) ⟨[], fun _ => []⟩

/-- A temporal clique: members in both numberings, factor id and offset of its function (SegmMatcher.cpp 1747-1761). -/
structure Temp where
  luts : List Nat
  graphs : List Nat
  factor : Nat
  data : Nat
deriving DecidableEq, Repr

/-- One node of the loop which adds temporal factors (SegmMatcher.cpp 1726-1763), given the number of pairwise
factors. -/
def tempNode (c : Cfg) (m : Maps) (nPairs : Nat) (s : List Temp) (g : Nat) : Option (List Temp) :=
  m.luts[g]?.bind fun base => (m.node base).bind fun n =>
    if n.layer ≠ c.layers - 1 ∨ n.row % c.stride ≠ 0 ∨ n.col % c.stride ≠ 0 then some s
    else ((List.range (c.layers - 1)).mapM fun i =>
        if (i + 1) * c.size ≤ base then
          (m.node (base - (i + 1) * c.size)).bind fun o => o.graph.map fun h => (base - (i + 1) * c.size, h)
        else none).map fun offs =>
      s ++ [⟨(base :: offs.map (·.1)).reverse, (g :: offs.map (·.2)).reverse, m.count + nPairs + s.length,
        tempBase c + s.length * 2 ^ c.layers⟩]

/-- The loop which adds temporal factors (SegmMatcher.cpp 1721-1766). -/
def temps (c : Cfg) (m : Maps) (nPairs : Nat) : Option (List Temp) :=
  if 1 < c.layers then (List.range m.count).foldlM (tempNode c m nPairs) [] else some []

/-- The number of functions reserved (SegmMatcher.cpp 1642, 1647). -/
def reserved (m : Maps) : Nat := m.count * (1 + 2 + 1)

end Litiv.ResegmGraph
