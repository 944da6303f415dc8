import Verif.Model.Metrics

/-!
# Model of the GPU evaluation of binary classifiers

Models `GLImageProcEvaluatorAlgo` (modules/utils/src/opengl-imgproc.cpp:546-782) and `GLBinaryClassifierEvaluator`
(modules/datasets/src/eval.cpp:284-395): the compute shader which classifies every pixel and increments atomic
counters, the counter buffer holding the counters of several frames, its transfer to the host, and the two texture
layers of the ground truth.

The invocations of a dispatch run concurrently; the only effects they have in common are atomic increments.  A dispatch
is therefore given an arbitrary order in which all its increments take place (`order`, assumed to be a permutation by
the theorems).  OpenGL is modelled by its contract: a load outside of an image yields zero, a buffer range which exceeds
the buffer is an error (`none`), and clearing a buffer writes zeros.  A violated `lvAssert_` and a host write outside of
the destination matrix are `none` as well.  Debug output, display, timers and the pixel buffer variant of the input
upload (`GLUTILS_IMGPROC_USE_DOUBLE_PBO_INPUT` is 0) are left out.
-/

namespace Litiv.GLEval

open Litiv.Metrics

/-- A buffer of 32-bit words. -/
abbrev Words := Nat → UInt32

/-- `BinClassif::nCountersCount*4`, metrics.hpp:40-48, opengl-imgproc.cpp:552: the bytes used by one frame. -/
def frameSize : Nat := 6 * 4

/-- The size-halving loop, opengl-imgproc.cpp:564-565 (`fuel` bounds the rounds). -/
def halve (maxSize : Nat) : Nat → Nat → Nat
  | 0, cur => cur
  | fuel + 1, cur => if maxSize ≤ cur then halve maxSize fuel (cur / 2) else cur

/-- `m_nCurrEvalBufferSize` as set by the constructor, opengl-imgproc.cpp:553-569, with the checks of lines 561-562;
`maxSize` is `GL_MAX_ATOMIC_COUNTER_BUFFER_SIZE`. -/
def pageSize (nTot maxSize : Nat) : Option Nat :=
  if 0 < nTot ∧ frameSize < maxSize then
    if maxSize ≤ nTot * frameSize then
      let cur := halve maxSize (nTot * frameSize) (nTot * frameSize)
      some (cur - cur % frameSize)
    else some (nTot * frameSize)
  else none

/-- The state of an initialized evaluator, opengl-imgproc.hpp:168-186 and 226-240. -/
structure Ev where
  nTot : Nat
  curSize : Nat
  offPtr : Nat
  offBlock : Nat
  acbo : Words
  query : Words
  roi : Mat8
  layers : Nat → Mat8
  nextLayer : Nat
  frame : Nat

/-- The constructor followed by `GLImageProcEvaluatorAlgo::initialize_gl(oInitGT,oROI)`, opengl-imgproc.cpp:592-674; both
layers receive the initial ground truth (lines 629-634), and the counters are cleared. -/
def initGL (nTot maxSize : Nat) (gt roi : Mat8) : Option Ev := do
  let cur ← pageSize nTot maxSize
  if roi.empty || !gt.sameSize roi then none
  else some { nTot, curSize := cur, offPtr := 0, offBlock := 0, acbo := fun _ => 0, query := fun _ => 0, roi,
              layers := fun _ => gt, nextLayer := 1, frame := 0 }

/-- `imageLoad`: zero outside of the image. -/
def load (m : Mat8) (x y : Nat) : UInt8 :=
  if x < m.cols ∧ y < m.rows then m.data.getD (m.cols * y + x) 0 else 0

/-- The counters which one invocation of the shader increments, eval.cpp:315-343: `x` is the classification, `g` the
ground truth and `r` the region of interest.  Counters are numbered as in metrics.hpp:40-48. -/
def shader (x g r : UInt8) : List Nat :=
  if r ≠ 0 ∧ g ≠ 85 ∧ g ≠ 170 then
    (if x = 255 then (if g = 255 then [0] else [2]) else (if g = 255 then [3] else [1])) ++
      (if g = 50 then (if x = 255 then [4] else []) else [])
  else [5]

/-- `ceil((float)n/g)`, opengl-imgproc.cpp:402, with exact arithmetic. -/
def groups (n g : Nat) : Nat := (n + g - 1) / g

/-- The invocations of a dispatch over a frame, opengl-imgproc.cpp:400-403: whole work groups of 12 by 8
(opengl-imgproc.hpp:22). -/
def invocations (rows cols : Nat) : List (Nat × Nat) :=
  (List.range (groups rows 8 * 8)).flatMap fun y => (List.range (groups cols 12 * 12)).map fun x => (x, y)

/-- All counter increments of a dispatch, in the order of the invocations. -/
def increments (out gt roi : Mat8) : List Nat :=
  (invocations roi.rows roi.cols).flatMap fun p => shader (load out p.1 p.2) (load gt p.1 p.2) (load roi p.1 p.2)

/-- `atomicCounterIncrement`s on the counters bound at word `base`, in the given order. -/
def increment (base : Nat) (buf : Words) (cs : List Nat) : Words :=
  cs.foldl (fun b c => Function.update b (base + c) (b (base + c) + 1)) buf

/-- `glGetBufferSubData`: copies `len` words to word `off` of the destination. -/
def copyWords (dst : Words) (off : Nat) (src : Words) (len : Nat) : Words :=
  fun i => if off ≤ i ∧ i < off + len then src (i - off) else dst i

/-- The transfer of a full counter buffer, opengl-imgproc.cpp:691-695. -/
def flush (s : Ev) : Option Ev :=
  if s.offBlock + s.curSize ≤ s.nTot * frameSize then
    some { s with query := copyWords s.query (s.offBlock / 4) s.acbo (s.curSize / 4), acbo := fun _ => 0,
                  offBlock := s.offBlock + s.curSize, offPtr := 0 }
  else none

/-- `GLImageProcEvaluatorAlgo::apply_gl(oNextGT)`, opengl-imgproc.cpp:681-782: evaluates the parent's current output `out`
with the ground truth of the current layer, after putting the next ground truth in the other layer (two layers,
opengl-imgproc.hpp:23; an empty matrix leaves that layer as it is). -/
def applyGL (s : Ev) (out gtNext : Mat8) (order : List Nat → List Nat) : Option Ev := do
  if !(gtNext.empty || gtNext.sameSize s.roi) || !decide (s.frame < s.nTot) then none
  else
    let curLayer := s.nextLayer
    let nextLayer := (s.nextLayer + 1) % 2
    let s ← (if s.offPtr + frameSize > s.curSize then flush s else some s : Option Ev)
    if s.offPtr + frameSize > s.curSize then none
    else
      let layers := if gtNext.empty then s.layers else Function.update s.layers nextLayer gtNext
      some { s with
        acbo := increment (s.offPtr / 4) s.acbo (order (increments out (layers curLayer) s.roi))
        offPtr := s.offPtr + frameSize, layers, nextLayer, frame := s.frame + 1 }

/-- `getEvaluationAtomicCounterBuffer`, opengl-imgproc.cpp:573-580. -/
def queryGL (s : Ev) : Option Ev :=
  if s.offPtr ≠ 0 then
    if s.offBlock + s.offPtr ≤ s.nTot * frameSize then
      some { s with query := copyWords s.query (s.offBlock / 4) s.acbo (s.offPtr / 4) }
    else none
  else some s

/-- One row of the host buffer as counters, eval.cpp:385-390. -/
def rowCounters (q : Words) (r : Nat) : BinClassif :=
  { tp := UInt64.ofNat (q (r * 6 + 0)).toNat, tn := UInt64.ofNat (q (r * 6 + 1)).toNat,
    fp := UInt64.ofNat (q (r * 6 + 2)).toNat, fn := UInt64.ofNat (q (r * 6 + 3)).toNat,
    se := UInt64.ofNat (q (r * 6 + 4)).toNat, dc := UInt64.ofNat (q (r * 6 + 5)).toNat }

/-- `GLBinaryClassifierEvaluator::getMetricsBase`, eval.cpp:381-393. -/
def metricsGL (s : Ev) : Option (Ev × BinClassif) := do
  let s ← queryGL s
  return (s, (List.range s.nTot).foldl (fun m r => m.acc (rowCounters s.query r)) {})

/-- The operations on an evaluator. -/
inductive Op where
  /-- Evaluate the parent's output and give the next ground truth. -/
  | frame (out gtNext : Mat8) (order : List Nat → List Nat)
  /-- Read the metrics. -/
  | metrics

/-- A sequence of operations. -/
def run (s : Ev) : List Op → Option Ev
  | [] => some s
  | .frame out g order :: ops => do run (← applyGL s out g order) ops
  | .metrics :: ops => do run (← metricsGL s).1 ops

/-- A whole session: construction, initialization, operations, and the metrics read at the end (as
`DataEvaluatorWrapper_<…,lv::GLSL>::stopProcessing_impl` does, eval.hpp:267-276). -/
def evaluate (nTot maxSize : Nat) (gt roi : Mat8) (ops : List Op) : Option BinClassif := do
  let s ← initGL nTot maxSize gt roi
  let s ← run s ops
  let r ← metricsGL s
  return r.2

end Litiv.GLEval
