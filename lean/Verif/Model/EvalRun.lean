import Verif.Model.Packets
import Verif.Model.Metrics

/-!
# Model of an evaluation session: pushing outputs, accumulating metrics, saving

Models `push` of both data consumers (modules/datasets/include/litiv/datasets/utils.hpp:903-909 and 934-941), the
default evaluators for binary classification of images and of image arrays (modules/datasets/include/litiv/datasets/
eval.hpp:96-191) and their interplay with the output counter (`Litiv.Packets`).  `saveOutput` is recorded as an event;
what it writes is modelled in `Litiv.Packets`.  Ground truth and regions of interest are functions of the packet index
(the loader is modelled elsewhere).
-/

namespace Litiv.EvalRun

open Litiv.Packets (Counter Res)
open Litiv.Metrics (Mat8 BinClassif)

/-- What distinguishes one consumer from another: outputs `O` and metrics `E`. -/
structure Eval (O E : Type) where
  /-- `IIMetricsAccumulator::create` without arguments -/
  fresh : E
  /-- the size check of `push`, utils.hpp:936 (none for single images) -/
  check : O → Bool
  /-- `processOutput`: the metrics afterwards, and whether it returned normally -/
  process : E → O → Nat → E × Bool
  /-- `isSavingOutput() && !oOutput.empty()`, utils.hpp:907 and 939 -/
  saves : O → Bool

/-- The calls available to the user of a work batch. -/
inductive Call (O : Type) where
  | start | stop | push (o : O) (i : Nat) | reset | getFinal

/-- A work batch: output counter, metrics, and the `saveOutput` calls made so far. -/
structure Sess (O E : Type) where
  cnt : Counter
  acc : E
  saved : List (O × Nat) := []

variable {O E : Type}

/-- `push`, utils.hpp:903-909 and 934-941. -/
def Sess.push (v : Eval O E) (s : Sess O E) (o : O) (i : Nat) : Sess O E × Res :=
  if !s.cnt.processing then (s, .assertFailed)
  else if !v.check o then (s, .assertFailed)
  else
    let cnt := s.cnt.countOutput i
    let p := v.process s.acc o i
    if p.2 then ({ cnt := cnt, acc := p.1, saved := if v.saves o then s.saved ++ [(o, i)] else s.saved }, .ok)
    else ({ cnt := cnt, acc := p.1, saved := s.saved }, .assertFailed)

/-- `resetMetrics` of an evaluator, eval.hpp:108-111 and 153-156: first the counter (which may throw), then the
metrics. -/
def Sess.reset (v : Eval O E) (s : Sess O E) : Sess O E × Res :=
  match s.cnt.resetCount with
  | none => (s, .futureError)
  | some c => ({ s with cnt := c, acc := v.fresh }, .cleared)

/-- One call; `startProcessing` (datasets.hpp:93-104) clears the counter but not the metrics. -/
def Sess.step (v : Eval O E) (s : Sess O E) : Call O → Sess O E × Res
  | .start => ({ s with cnt := s.cnt.start.1 }, s.cnt.start.2)
  | .stop => ({ s with cnt := s.cnt.stop.1 }, s.cnt.stop.2)
  | .push o i => s.push v o i
  | .reset => s.reset v
  | .getFinal => ({ s with cnt := s.cnt.getFinal.1 }, s.cnt.getFinal.2)

/-- A history of calls; the log holds each call with its result. -/
def Sess.run (v : Eval O E) (s : Sess O E) : List (Call O) → Sess O E × List (Call O × Res)
  | [] => (s, [])
  | o :: os =>
    let r := s.step v o
    let t := r.1.run v os
    (t.1, (o, r.2) :: t.2)

/-- A newly constructed work batch, eval.hpp:130 and 187, utils.hpp:857. -/
def Sess.create (v : Eval O E) : Option (Sess O E) := Counter.init.map fun c => { cnt := c, acc := v.fresh }

/-! ### Single images -/

/-- A dataset batch with one image per packet. -/
structure Batch where
  evaluating : Bool
  saving : Bool
  gt : Nat → Mat8
  roi : Nat → Mat8

/-- `processOutput` for binary classification, eval.hpp:118-126 (the packet types are those the evaluator needs). -/
def processImage (b : Batch) (m : BinClassif) (o : Mat8) (i : Nat) : BinClassif × Bool :=
  if b.evaluating then
    if o.empty then (m, false)
    else match m.accImage o (b.gt i) (b.roi i) with
      | none => (m, false)
      | some m => (m, true)
  else (m, true)

/-- The evaluator for binary classification, eval.hpp:96-134. -/
def imageEval (b : Batch) : Eval Mat8 BinClassif where
  fresh := {}
  check := fun _ => true
  process := processImage b
  saves := fun o => b.saving && !o.empty

/-! ### Image arrays -/

/-- A dataset batch with an array of images per packet. -/
structure ArrBatch where
  evaluating : Bool
  saving : Bool
  /-- `getOutputStreamCount()` -/
  streams : Nat
  /-- `getGTStreamCount()` -/
  gtStreams : Nat
  gt : Nat → List Mat8
  roi : Nat → List Mat8

/-- `m_vCounters` and `m_vsStreamNames`, metrics.hpp:152-167. -/
structure ArrMetrics where
  counters : List BinClassif := []
  names : List String := []

/-- `std::vector::resize`. -/
def resize {α : Type} (l : List α) (n : Nat) (d : α) : List α := l.take n ++ List.replicate (n - l.length) d

/-- `cv::Mat()`. -/
def noMat : Mat8 := ⟨0, 0, []⟩

/-- The loop over the streams, eval.hpp:181-182; stops at the first stream whose comparison fails. -/
def streamLoop (o gt roi : List Mat8) : List Nat → List BinClassif → List BinClassif × Bool
  | [], cs => (cs, true)
  | k :: ks, cs =>
    match (cs.getD k {}).accImage (o.getD k noMat) (gt.getD k noMat) (if roi.isEmpty then noMat else roi.getD k noMat) with
    | none => (cs, false)
    | some c => streamLoop o gt roi ks (cs.set k c)

/-- `processOutput` for binary classification of arrays, eval.hpp:163-184. -/
def processArr (b : ArrBatch) (m : ArrMetrics) (o : List Mat8) (i : Nat) : ArrMetrics × Bool :=
  if b.evaluating then
    if o.isEmpty then (m, false)
    else if !(b.gtStreams == b.streams && o.length == b.streams) then (m, false)
    else if !(o.length == (b.gt i).length && ((b.roi i).isEmpty || o.length == (b.roi i).length)) then (m, false)
    else
      let m := if m.counters.isEmpty || m.names.isEmpty then
        { counters := resize m.counters o.length {}, names := resize m.names o.length "" } else m
      let r := streamLoop o (b.gt i) (b.roi i) (List.range o.length) m.counters
      ({ m with counters := r.1 }, r.2)
  else (m, true)

/-- The evaluator for arrays, eval.hpp:137-191. -/
def arrEval (b : ArrBatch) : Eval (List Mat8) ArrMetrics where
  fresh := {}
  check := fun o => o.isEmpty || o.length == b.streams
  process := processArr b
  saves := fun o => b.saving && !o.isEmpty

end Litiv.EvalRun
