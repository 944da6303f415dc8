/-!
# Model of `lv::WorkerPool`

`modules/utils/include/litiv/utils/cxx.hpp:402-423` (declaration), `:1053-1099` (implementation).

The pool is a transition system. Every region executed while holding `m_oSyncMutex` is one atomic action;
`queueTask` is split in its three unsynchronised parts (test of the atomic flag, insertion under the lock,
`notify_one` after the lock has been released). A schedule is an arbitrary list of actions, so all interleavings of any
number of client threads and workers, and spurious wake-ups of the condition variable, are covered. Tasks are
identified by numbers and terminate; what a task computes (and an exception it throws, which its `packaged_task`
contains) is not modelled.
-/

namespace Litiv.WorkerPool

/-- Program counter of a worker thread in `entry()`, `cxx.hpp:1086-1099`. -/
inductive Pc where
  /-- about to evaluate `while(m_bIsActive || !m_qTasks.empty())` with the lock held, line 1088/1089 -/
  | head
  /-- blocked inside `m_oSyncVar.wait` -/
  | waiting
  /-- woken up (by a notification or spuriously), about to re-evaluate the wait predicate with the lock -/
  | woken
  /-- executing the task outside the lock -/
  | running (t : Nat)
  /-- `entry()` returned -/
  | exited
deriving DecidableEq, Repr

/-- A `queueTask` call in progress, `cxx.hpp:1069-1083`. `owner = some w`: called by the task that worker `w` runs;
`owner = none`: called by a thread outside the pool. -/
inductive Call where
  /-- passed the test of `m_bIsActive`, about to take the lock and insert task `t` -/
  | checked (owner : Option Nat) (t : Nat)
  /-- inserted, about to call `notify_one` -/
  | toNotify (owner : Option Nat)
deriving DecidableEq, Repr

/-- Thread on whose behalf a call runs. -/
def Call.owner : Call → Option Nat
  | .checked o _ => o
  | .toNotify o => o

/-- State of the pool. `accepted`, `started`, `finished` are history variables. -/
structure St where
  active : Bool
  queue : List Nat
  workers : List Pc
  calls : List Call
  accepted : List Nat
  started : List Nat
  finished : List Nat
deriving DecidableEq, Repr

/-- Constructor, `cxx.hpp:1053-1056`: `n` workers, all starting `entry()`. -/
def init (n : Nat) : St :=
  { active := true, queue := [], workers := List.replicate n .head, calls := [],
    accepted := [], started := [], finished := [] }

inductive Act where
  /-- `queueTask(t)` evaluates `if(!m_bIsActive) throw`, line 1070 -/
  | call (owner : Option Nat) (t : Nat)
  /-- call number `i` inserts its task under the lock, lines 1077-1080 -/
  | enqueue (i : Nat)
  /-- call number `i` executes `notify_one`, line 1081; `w` is the waiter that is released, if there is one -/
  | notify (i w : Nat)
  /-- `~WorkerPool` takes the lock, clears the flag and calls `notify_all`, lines 1060-1064 -/
  | destroy
  /-- worker `w` evaluates the loop condition and, if it does not leave, the wait predicate, lines 1089-1090 -/
  | head (w : Nat)
  /-- spurious wake-up of worker `w` -/
  | spurious (w : Nat)
  /-- worker `w`, woken, re-evaluates the wait predicate, line 1090 -/
  | recheck (w : Nat)
  /-- the task of worker `w` returns and the lock is taken again, lines 1094-1095 -/
  | finish (w : Nat)
deriving DecidableEq, Repr

/-- After the wait predicate held, lines 1091-1096: pop and run the front task if there is one. -/
def afterWait (s : St) (w : Nat) : St :=
  match s.queue with
  | [] => { s with workers := s.workers.set w .head }
  | t :: q => { s with queue := q, workers := s.workers.set w (.running t), started := s.started ++ [t] }

/-- Release of a waiting worker by `notify_all`. -/
def wakeAll (ws : List Pc) : List Pc := ws.map fun p => if p = .waiting then .woken else p

/-- One action; `none` when it is not possible in this state. With `strict = true` the client respects the lifetime
rules of C++: the destructor does not start while a call from a thread outside the pool is in progress. -/
def step (strict : Bool) (s : St) : Act → Option St
  | .call owner t =>
    if !s.active then none -- throws: nothing is accepted
    else
      match owner with
      | none => some { s with calls := s.calls ++ [.checked none t] }
      | some w =>
        match s.workers[w]? with
        | some (.running _) => some { s with calls := s.calls ++ [.checked (some w) t] }
        | _ => none
  | .enqueue i =>
    match s.calls[i]? with
    | some (.checked o t) =>
      some { s with queue := s.queue ++ [t], accepted := s.accepted ++ [t], calls := s.calls.set i (.toNotify o) }
    | _ => none
  | .notify i w =>
    match s.calls[i]? with
    | some (.toNotify _) =>
      if Pc.waiting ∈ s.workers then
        if s.workers[w]? = some .waiting then
          some { s with calls := s.calls.eraseIdx i, workers := s.workers.set w .woken }
        else none
      else some { s with calls := s.calls.eraseIdx i }
    | _ => none
  | .destroy =>
    if s.active && (!strict || s.calls.all (fun c => c.owner.isSome)) then
      some { s with active := false, workers := wakeAll s.workers }
    else none
  | .head w =>
    if s.workers[w]? = some .head then
      if !s.active && s.queue.isEmpty then some { s with workers := s.workers.set w .exited }
      else if s.active && s.queue.isEmpty then some { s with workers := s.workers.set w .waiting }
      else some (afterWait s w)
    else none
  | .spurious w =>
    if s.workers[w]? = some .waiting then some { s with workers := s.workers.set w .woken } else none
  | .recheck w =>
    if s.workers[w]? = some .woken then
      if s.active && s.queue.isEmpty then some { s with workers := s.workers.set w .waiting }
      else some (afterWait s w)
    else none
  | .finish w =>
    match s.workers[w]? with
    | some (.running t) =>
      -- the task cannot return while a `queueTask` call that it makes is in progress
      if s.calls.any (fun c => c.owner = some w) then none
      else some { s with workers := s.workers.set w .head, finished := s.finished ++ [t] }
    | _ => none

/-- Execution of a schedule. -/
def exec (strict : Bool) (s : St) : List Act → Option St
  | [] => some s
  | a :: as => (step strict s a).bind fun s' => exec strict s' as

/-- States reachable from a fresh pool of `n` workers. -/
def Reachable (strict : Bool) (n : Nat) (s : St) : Prop := ∃ as, exec strict (init n) as = some s

/-- All joins in the destructor have returned, `cxx.hpp:1065-1066`. -/
def Joined (s : St) : Prop := ∀ p ∈ s.workers, p = .exited

end Litiv.WorkerPool
