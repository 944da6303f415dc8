import Mathlib.Logic.Function.Basic

/-!
# The recording loop of the capture application

`apps/capture/src/main.cpp:65-95` (how a writer saves a packet) and `:458-637` (the loop), with the queues of
`modules/datasets/src/utils.cpp:1337-1391, 1429-1455` (`lv::DataWriter` with one thread, dropping packets when full).
The streams are numbered as in `vWriters`. The writers work at any time between two operations of the main thread.
The sensors and the display are left out: a grab gives the packets of all streams, or fails.
-/

namespace Litiv.Capture

variable {P : Type}

/-- A packet in a queue: its index, its size and its contents. -/
structure Item (P : Type) where
  idx : Nat
  size : Nat
  val : P

/-- A saved packet: the number under which it is saved, its index and its contents. -/
structure Out (P : Type) where
  num : Nat
  idx : Nat
  val : P

/-- A writer: `m_nQueueMaxSize`, `m_mQueue` (by index), what was saved, `nLastSavedIndex` (`none`: `SIZE_MAX`), and
whether an assertion failed in its thread. -/
structure Wr (P : Type) where
  max : Nat
  queue : List (Item P)
  saved : List (Out P)
  last : Option Nat
  err : Bool

/-- `m_nQueueSize`. -/
def Wr.used (w : Wr P) : Nat := (w.queue.map fun q => q.size).sum

/-- The test of `queue_check` and `queue` for an index that is not in the queue (`utils.cpp:1346-1348, 1374`). -/
def Wr.fits (w : Wr P) (size : Nat) : Bool := decide (w.used + size ≤ w.max)

/-- `m_mQueue[nIdx] = oPacket.clone()` for an index above those in the queue (`utils.cpp:1375-1376`). -/
def Wr.put (w : Wr P) (i : Nat) (p : Nat × P) : Wr P := { w with queue := w.queue ++ [⟨i, p.1, p.2⟩] }

/-- The number of the next saved packet, `++nLastSavedIndex` (`main.cpp:70, 85, 92`). -/
def Wr.next (w : Wr P) : Nat := match w.last with
  | none => 0
  | some l => l + 1

/-- The thread of a writer takes the first packet and saves it (`utils.cpp:1429-1455`, `main.cpp:65-95`). The
assertion of lines 67, 83 and 91 comes first. Simplified: saving and removing are one step, and the disk does not
fail. -/
def Wr.save (w : Wr P) : Wr P := match w.queue with
  | [] => w
  | q :: t =>
    if w.last.all fun l => decide (l < q.idx) then
      { w with
        queue := t
        saved := w.saved ++ [⟨w.next, q.idx, q.val⟩]
        last := some w.next }
    else
      { w with
        queue := t
        err := true }

/-- Where the main thread is: before a grab, checking the queues (line 598), queueing (601-614), out of the loop, or
in a handler of 640-643. -/
inductive Phase (P : Type) where
  | idle
  | check (ps : Nat → Nat × P) (k : Nat) (ok : Bool)
  | push (ps : Nat → Nat × P) (todo : List Nat)
  | stopped
  | failed

/-- The state: the writers, `nRealFrameIdx`, the number of frames kept, the phase. -/
structure St (P : Type) where
  ws : Nat → Wr P
  idx : Nat
  good : Nat
  ph : Phase P

/-- The streams: how many, and the order in which they are queued (lines 601-614). -/
structure Cfg where
  n : Nat
  ord : List Nat

/-- The steps: a grab (lines 463-472, whether it gave all packets, and whether the user quits), the next operation of
the main thread, or a writer that saves a packet. -/
inductive Act (P : Type) where
  | grab (got : Bool) (ps : Nat → Nat × P) (quit : Bool)
  | main
  | save (k : Nat)

/-- One step; `none`: the step is not possible. -/
def step (c : Cfg) (s : St P) : Act P → Option (St P)
  | .grab got ps quit => match s.ph with
    | .idle =>
      if got then
        if quit then some { s with ph := .stopped } else some { s with ph := .check ps 0 true }
      else some { s with idx := s.idx + 1 }
    | _ => none
  | .main => match s.ph with
    | .check ps k ok =>
      if k < c.n then
        if (ps k).1 ≤ (s.ws k).max then some { s with ph := .check ps (k + 1) (ok && (s.ws k).fits (ps k).1) }
        else some { s with ph := .failed }
      else if ok then some { s with ph := .push ps c.ord }
      else
        some { s with
          idx := s.idx + 1
          ph := .idle }
    | .push ps (k :: t) =>
      if (s.ws k).fits (ps k).1 then
        some { s with
          ws := Function.update s.ws k ((s.ws k).put s.idx (ps k))
          ph := .push ps t }
      else some { s with ph := .failed }
    | .push _ [] =>
      some { s with
        idx := s.idx + 1
        good := s.good + 1
        ph := .idle }
    | _ => none
  | .save k => if k < c.n then some { s with ws := Function.update s.ws k (s.ws k).save } else none

/-- The start: empty queues of the given sizes. -/
def init (max : Nat → Nat) : St P := ⟨fun k => ⟨max k, [], [], none, false⟩, 0, 0, .idle⟩

end Litiv.Capture
