/-!
# The change detection application

`apps/changedet/src/main.cpp:135-166` (`main`) and `:346-429` (`Analyze` without a GPU). The subtraction algorithm,
the input frames, and the places where a call throws are given by an environment, so that every crash point is
covered. Masks are lists of pixel values. Console messages and timings are left out. Batches do not share anything
but the generator `rand`, which is modelled apart (`Rand` below).
-/

namespace Litiv.ChangeDet

/-- What a batch meets. `none` or `false`: the call throws. -/
structure Env (F S : Type) where
  /-- the calls and assertions before the algorithm is created (`:350-367`), with the number of frames -/
  setupOk : Bool
  frames : Nat
  roi : List Nat
  /-- `oBatch.getInput` -/
  input : Nat → Option F
  /-- `pAlgo->initialize` -/
  init : F → Option S
  /-- `pAlgo->apply` with a learning rate: the state and the mask -/
  apply : S → F → Nat → Option (S × List Nat)
  dfltRate : Nat
  /-- `DISPLAY_OUTPUT>0`, and whether the user quits at a frame -/
  display : Bool
  quit : Nat → Bool
  /-- `oBatch.push` (with the calls of the display of the same frame), `stopProcessing`, `writeEvalReport` -/
  pushOk : Nat → Bool
  stopOk : Bool
  reportOk : Bool

/-- What happens to a batch, as seen from outside. -/
inductive Ev where
  | start
  | push (i : Nat) (m : List Nat)
  | stop
  | report
deriving DecidableEq

/-- The learning rate of a frame, line 390 (with an algorithm of the library). -/
def rate {F S : Type} (e : Env F S) (i : Nat) : Nat := if i ≤ 100 then 1 else e.dfltRate

/-- Lines 398-403: with a display, the mask is marked outside the region of interest before it is shown. -/
def marked {F S : Type} (e : Env F S) (m : List Nat) : List Nat :=
  if e.display then
    if e.roi.isEmpty then m else List.zipWith (fun v r => if r = 0 then v ||| 127 else v) m e.roi
  else m

/-- The loop of lines 387-410, with `rem` frames left. The events so far, and whether it ended normally. -/
def loop {F S : Type} (e : Env F S) : Nat → Nat → S → List Ev → List Ev × Bool
  | 0, _, _, log => (log, true)
  | rem + 1, i, st, log =>
    match e.input i with
    | none => (log, false)
    | some f =>
      match e.apply st f (rate e i) with
      | none => (log, false)
      | some (st', m) =>
        if e.display && e.quit i then (log, true)
        else if e.pushOk i then loop e rem (i + 1) st' (log ++ [.push i (marked e m)])
        else (log, false)

/-- Lines 349-420: the first `try` with its handlers, and the flag `isProcessing` at the end. `startProcessing` is taken
not to throw. -/
def body {F S : Type} (e : Env F S) : List Ev × Bool :=
  if !(e.setupOk && decide (1 < e.frames)) then ([], false)
  else
    match e.input 0 with
    | none => ([], false)
    | some f =>
      match e.init f with
      | none => ([], false)
      | some st =>
        let r := loop e e.frames 0 st [.start]
        if r.2 then
          if e.stopOk then
            if e.reportOk then (r.1 ++ [.stop, .report], false) else (r.1 ++ [.stop], false)
          else (r.1, true)
        else (r.1, true)

/-- `Analyze`, lines 346-429: the events, and whether the call returned normally. -/
def analyze {F S : Type} (e : Env F S) : List Ev × Bool :=
  let b := body e
  if b.2 then
    if e.stopOk then (b.1 ++ [.stop], true) else (b.1, false)
  else (b.1, true)

/-- What the application leaves: the events of each batch, whether the report of the dataset is written, and the
exit code. -/
structure Outcome where
  batches : List (List Ev)
  report : Bool
  code : Int
deriving DecidableEq

/-- `main`, lines 135-166. Every batch is queued and waited for; `reportOk`: the report of the dataset does not
throw. Simplified: when a batch throws, the batches still in the queue may be dropped with the pool; here they are
all listed. -/
def main {F S : Type} (es : List (Env F S)) (reportOk : Bool) : Outcome :=
  if es.length = 0 ∨ (es.map fun e => e.frames).sum = 0 then ⟨[], false, -1⟩
  else if es.all (fun e => (analyze e).2) then
    if reportOk then ⟨es.map fun e => (analyze e).1, true, 0⟩ else ⟨es.map fun e => (analyze e).1, false, -1⟩
  else ⟨es.map fun e => (analyze e).1, false, -1⟩

/-! The generator `rand`, shared by all the threads. -/

/-- What a worker does with the generator: line 347, or a draw in the algorithm. -/
inductive RandAct where
  | srand
  | draw
deriving DecidableEq

/-- A schedule of workers on the generator: `seed0` is the state after `srand(0)`, `next` gives a value and the next
state. The draws of worker `w`, in order. -/
def draws (seed0 : Nat) (next : Nat → Nat × Nat) (w : Nat) : Nat → List (Nat × RandAct) → List Nat
  | _, [] => []
  | _, (_, .srand) :: t => draws seed0 next w seed0 t
  | s, (u, .draw) :: t =>
    if u = w then (next s).1 :: draws seed0 next w (next s).2 t else draws seed0 next w (next s).2 t

/-- The actions of a batch in a worker: the seed, then `n` draws. -/
def program (w n : Nat) : List (Nat × RandAct) := (w, .srand) :: List.replicate n (w, .draw)

end Litiv.ChangeDet
