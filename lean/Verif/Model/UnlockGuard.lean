/-!
# Scoped release of mutexes

`modules/utils/include/litiv/utils/cxx.hpp:951-985` (`lv::unlock_guard`), with any number of threads and mutexes.
A mutex is a `std::mutex`: unlocking one that the thread does not own, and locking one that it already owns, are
undefined behaviour (`none`). A thread that cannot take a mutex waits (the state does not change). `std::lock` takes
the mutexes one at a time and, when one is taken, gives back those it took and starts again (the standard only
requires that it does not deadlock; implementations start again at another mutex, here it is the first). A thread
has one guard at a time: nested guards are left out.
-/

namespace Litiv.UnlockGuard

/-- Where a thread is with its guard. -/
inductive Phase where
  /-- no guard is alive -/
  | out
  /-- in the constructor: mutexes still to unlock, and all the mutexes of the guard -/
  | ctor (todo ms : List Nat)
  /-- in the scope of the guard -/
  | inside (ms : List Nat)
  /-- in the destructor: mutexes taken so far, those still to take, and all -/
  | dtor (held todo ms : List Nat)
deriving DecidableEq

/-- The owner of each mutex, and the phase of each thread. -/
structure St where
  owner : Nat → Option Nat
  phase : Nat → Phase

/-- What a thread does next. -/
inductive Act where
  /-- `m.lock()` in the code of the thread -/
  | lock (m : Nat)
  /-- `m.unlock()` in the code of the thread -/
  | unlock (m : Nat)
  /-- the guard is created -/
  | enter (ms : List Nat)
  /-- the scope ends -/
  | leave
  /-- the constructor or destructor goes on -/
  | tick

/-- Change the owner of a mutex. -/
def St.own (s : St) (m : Nat) (o : Option Nat) : St := { s with owner := fun k => if k = m then o else s.owner k }

/-- Change the phase of a thread. -/
def St.goto (s : St) (t : Nat) (p : Phase) : St := { s with phase := fun k => if k = t then p else s.phase k }

/-- The mutexes of a list are given back. -/
def St.freeAll (s : St) (l : List Nat) : St := { s with owner := fun k => if k ∈ l then none else s.owner k }

/-- The thread runs its own code (not the constructor or the destructor of the guard). -/
def running : Phase → Bool
  | .out => true
  | .inside _ => true
  | _ => false

/-- The constructor (`cxx.hpp:955-958` and `:974-977`): `unlock` on each mutex in order. -/
def ctorTick (s : St) (t : Nat) (todo ms : List Nat) : Option St :=
  match todo with
  | [] => some (s.goto t (.inside ms))
  | m :: r => if s.owner m = some t then some ((s.own m none).goto t (.ctor r ms)) else none

/-- The destructor (`cxx.hpp:960-962` and `:979-981`): `std::lock` on all the mutexes (`lock` for a single one). -/
def dtorTick (s : St) (t : Nat) (held todo ms : List Nat) : Option St :=
  match todo with
  | [] => some (s.goto t .out)
  | m :: r =>
    match s.owner m with
    | none => some ((s.own m (some t)).goto t (.dtor (held ++ [m]) r ms))
    | some u => if u = t then none else some ((s.freeAll held).goto t (.dtor [] ms ms))

/-- A step of the thread `t`. Actions that do not fit its phase change nothing. -/
def step (s : St) (t : Nat) (a : Act) : Option St :=
  match a with
  | .lock m =>
    if running (s.phase t) then
      match s.owner m with
      | none => some (s.own m (some t))
      | some u => if u = t then none else some s
    else some s
  | .unlock m =>
    if running (s.phase t) then
      if s.owner m = some t then some (s.own m none) else none
    else some s
  | .enter ms => if s.phase t = .out then some (s.goto t (.ctor ms ms)) else some s
  | .leave =>
    match s.phase t with
    | .inside ms => some (s.goto t (.dtor [] ms ms))
    | _ => some s
  | .tick =>
    match s.phase t with
    | .ctor todo ms => ctorTick s t todo ms
    | .dtor held todo ms => dtorTick s t held todo ms
    | _ => some s

/-- A schedule: which thread does what, in order. -/
def run : St → List (Nat × Act) → Option St
  | s, [] => some s
  | s, (t, a) :: r => (step s t a).bind fun s' => run s' r

end Litiv.UnlockGuard
