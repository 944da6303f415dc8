/-!
# Model of `lv::Semaphore` (modules/utils/include/litiv/utils/cxx.hpp:987-1046)

Any number of threads call the member functions. Each region executed with `m_oMutex` held is one atomic action; a
blocked `wait` releases the mutex, so it is split at the condition variable. The schedule (a list of actions) is
arbitrary and includes spurious wake-ups and time-outs.

Simplifications: the count is a natural number (no wrap-around of `size_t` by 2^64 notifications); the unlocked read in
`count()` (line 993-995) is modelled as reading the current value.
-/

namespace Litiv.Semaphore

/-- What one thread is doing with the semaphore. `timed` distinguishes `wait_for`/`wait_until` from `wait`. -/
inductive Pc where
  /-- not inside a call -/
  | idle
  /-- blocked on the condition variable, `cxx.hpp:1004`, `:1020`, `:1030` -/
  | waiting (timed : Bool)
  /-- released from the condition variable, about to re-evaluate `m_nCount>0` with the mutex held -/
  | woken (timed : Bool)
deriving DecidableEq, Repr

/-- State of a semaphore and its client threads. -/
structure St where
  /-- `m_nCount` -/
  count : Nat
  /-- the client threads -/
  threads : List Pc
  /-- history: completed `notify` calls -/
  notified : Nat
  /-- history: the threads whose wait/try_wait call returned holding a permit, in order -/
  acquired : List Nat
  /-- history: completed calls that returned `false` -/
  refused : Nat
deriving DecidableEq, Repr

/-- `Semaphore(nInitCount)`, `cxx.hpp:989-990`, used by `n` threads. -/
def init (c n : Nat) : St :=
  { count := c, threads := List.replicate n .idle, notified := 0, acquired := [], refused := 0 }

/-- Atomic actions. -/
inductive Act where
  /-- `notify()` by any thread (also one that is not in the list), lines 997-1001; `t` is the waiter released by
  `notify_one`, if there is one -/
  | notify (t : Nat)
  /-- `wait()`/`wait_for()`/`wait_until()` starts: lock, test the predicate, lines 1003-1006, 1018-1024, 1027-1033 -/
  | wait (t : Nat) (timed : Bool)
  /-- `try_wait()`, lines 1008-1015 -/
  | tryWait (t : Nat)
  /-- spurious wake-up of thread `t` -/
  | spurious (t : Nat)
  /-- a released thread has the mutex again and re-evaluates the predicate -/
  | recheck (t : Nat)
  /-- the time limit of thread `t` expires: the predicate is evaluated a last time -/
  | timeout (t : Nat)
deriving DecidableEq, Repr

/-- The predicate held: `--m_nCount` and return, lines 1005, 1022-1023, 1031-1032. -/
def take (s : St) (t : Nat) : St :=
  { s with count := s.count - 1, threads := s.threads.set t .idle, acquired := s.acquired ++ [t] }

/-- One action; `none` when it is not possible in this state. -/
def step (s : St) : Act → Option St
  | .notify t =>
    if s.threads.any (fun p => p = .waiting true ∨ p = .waiting false) then
      match s.threads[t]? with
      | some (.waiting b) =>
        some { s with count := s.count + 1, notified := s.notified + 1, threads := s.threads.set t (.woken b) }
      | _ => none
    else some { s with count := s.count + 1, notified := s.notified + 1 }
  | .wait t b =>
    if s.threads[t]? = some .idle then
      if s.count > 0 then some (take s t)
      else some { s with threads := s.threads.set t (.waiting b) }
    else none
  | .tryWait t =>
    if s.threads[t]? = some .idle then
      if s.count > 0 then some (take s t)
      else some { s with refused := s.refused + 1 }
    else none
  | .spurious t =>
    match s.threads[t]? with
    | some (.waiting b) => some { s with threads := s.threads.set t (.woken b) }
    | _ => none
  | .recheck t =>
    match s.threads[t]? with
    | some (.woken b) =>
      if s.count > 0 then some (take s t)
      else some { s with threads := s.threads.set t (.waiting b) }
    | _ => none
  | .timeout t =>
    if s.threads[t]? = some (.waiting true) ∨ s.threads[t]? = some (.woken true) then
      if s.count > 0 then some (take s t)
      else some { s with threads := s.threads.set t .idle, refused := s.refused + 1 }
    else none

/-- Execution of a schedule. -/
def exec (s : St) : List Act → Option St
  | [] => some s
  | a :: as => (step s a).bind fun s' => exec s' as

/-- States reachable from a fresh semaphore with count `c` and `n` client threads. -/
def Reachable (c n : Nat) (s : St) : Prop := ∃ as, exec (init c n) as = some s

end Litiv.Semaphore
