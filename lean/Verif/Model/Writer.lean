/-!
# Model of the asynchronous data writer

Models `lv::DataWriter`, modules/datasets/src/utils.cpp:1324-1455 (declared in
modules/datasets/include/litiv/datasets/utils.hpp:778-815).

All shared state is accessed under `m_oSyncMutex`, except for the packet handed to the archiving callback, so every
critical section is one atomic action and a schedule is a list of actions. Waiting on a condition variable is modelled
by actions which are only enabled when the awaited condition holds; every change of these conditions happens under the
mutex and is followed by a notification. Queue nodes have an identity, as the worker keeps an iterator while it runs the
callback without the lock. The outcome `none` is undefined behaviour: erasing an iterator which is no longer valid, or
assigning a packet while a callback reads it without the lock (a data race). Sizes are natural numbers (no overflow of
`size_t`); a packet is its contents (a number stands for them) and its size in bytes.
-/

namespace Litiv.Writer

/-- A packet: what it holds, and `total()*elemSize()`. -/
structure Pkt where
  data : Nat
  size : Nat
deriving DecidableEq

/-- A node of `m_mQueue`. -/
structure Node where
  idx : Nat
  nid : Nat
  pkt : Pkt
deriving DecidableEq

/-- Where a worker is in `entry`: waiting, running the callback (with its iterator and `nPacketSize`), or done. -/
inductive Worker where
  | idle
  | writing (nid idx size : Nat)
  | gone
deriving DecidableEq

/-- `stopAsyncWriting` joins the workers after clearing `m_bIsActive`. -/
inductive Phase where
  | idle | active | stopping
deriving DecidableEq

/-- The members of `DataWriter`, calls of `queue` in progress, and the history of the session. -/
structure St where
  phase : Phase := .idle
  /-- `m_bAllowPacketDrop` -/
  drop : Bool := false
  /-- `m_nQueueMaxSize` -/
  max : Nat := 0
  /-- `m_nQueueSize` -/
  size : Nat := 0
  /-- `m_nQueueCount` -/
  count : Nat := 0
  /-- `m_mQueue`, by increasing index -/
  map : List Node := []
  workers : List Worker := []
  /-- number of exceptions in `m_vWorkerExceptions` -/
  excs : Nat := 0
  /-- calls of `queue` which have passed the first test and wait for the mutex or for free space -/
  pending : List (Nat × Pkt) := []
  nextNid : Nat := 0
  /-- history: packets accepted, given to the callback, and replaced while they were waiting -/
  accepted : List (Nat × Pkt) := []
  written : List (Nat × Pkt) := []
  replaced : List (Nat × Pkt) := []

/-- What the user sees. -/
inductive Ret where
  | nothing
  | queued (pos : Nat)
  /-- `SIZE_MAX` -/
  | dropped
  /-- the callback was called directly -/
  | direct
  | assertFailed
  | threw
deriving DecidableEq

/-- The node of an index (`m_mQueue.find`). -/
def St.find (s : St) (i : Nat) : Option Node := s.map.find? fun n => n.idx == i

/-- `nOldPacketSize`, utils.cpp:1347-1349, 1362-1364 and 1371-1373. -/
def St.oldSize (s : St) (i : Nat) : Nat := match s.find i with
  | none => 0
  | some n => n.pkt.size

/-- Whether a packet fits into the queue, utils.cpp:1350, 1366 and 1374. -/
def St.fits (s : St) (i : Nat) (p : Pkt) : Bool := s.size + p.size - s.oldSize i ≤ s.max

/-- `queue_check`, utils.cpp:1340-1351; `none` is the failing assertion. -/
def queueCheck (s : St) (i : Nat) (p : Pkt) : Option Bool :=
  if s.phase ≠ .active then some true
  else if p.size > s.max then none
  else if !s.drop then some true
  else some (s.fits i p)

/-- Insertion of a new node into the ordered map. -/
def insNode (n : Node) : List Node → List Node
  | [] => [n]
  | m :: l => if n.idx < m.idx then n :: m :: l else m :: insNode n l

/-- `std::distance(m_mQueue.begin(), m_mQueue.find(nIdx))`, utils.cpp:1378. -/
def position (l : List Node) (i : Nat) : Nat := l.findIdx fun n => n.idx == i

/-- A worker runs the callback on the node `nid`. -/
def Worker.holds (nid : Nat) : Worker → Bool
  | .writing m _ _ => m == nid
  | _ => false

/-- The beginning of `queue`, utils.cpp:1353-1358. -/
def queueStart (s : St) (i : Nat) (p : Pkt) : St × Ret :=
  if s.phase ≠ .active then ({ s with accepted := s.accepted ++ [(i, p)], written := s.written ++ [(i, p)] }, .direct)
  else if p.size > s.max then (s, .assertFailed)
  else ({ s with pending := (i, p) :: s.pending }, .nothing)

/-- The critical section of `queue`, utils.cpp:1370-1387. -/
def queueCommit (s : St) (i : Nat) (p : Pkt) : Option (St × Ret) :=
  let s := { s with pending := s.pending.erase (i, p) }
  if s.fits i p then
    match s.find i with
    | some n =>
      if s.workers.any (Worker.holds n.nid) then none
      else
        let map := s.map.map fun m => if m.idx = i then { m with pkt := p } else m
        some ({ s with map, size := s.size + p.size - n.pkt.size, accepted := s.accepted ++ [(i, p)], replaced := s.replaced ++ [(i, n.pkt)] },
          .queued (position map i))
    | none =>
      let map := insNode ⟨i, s.nextNid, p⟩ s.map
      some ({ s with map, size := s.size + p.size, count := s.count + 1, nextNid := s.nextNid + 1, accepted := s.accepted ++ [(i, p)] },
        .queued (position map i))
  else some (s, .dropped)

/-- `CACHE_MIN_SIZE`, utils.cpp:30; `CACHE_MAX_SIZE` is a build option and given to `start`. -/
def cacheMinSize : Nat := 10 * 1024 * 1024

/-- The end of `stopAsyncWriting`, utils.cpp:1421-1425: rethrows the latest exception. -/
def rethrow (s : St) : St × Ret :=
  if s.excs > 0 then ({ s with excs := s.excs - 1 }, .threw) else (s, .nothing)

/-- `startAsyncWriting` once the previous workers were joined, utils.cpp:1395-1411. -/
def start (s : St) (n cacheMax : Nat) (drop : Bool) (workers : Nat) : St × Ret :=
  if s.excs > 0 then rethrow s
  else if n > 0 then
    ({ s with
        phase := .active, drop, max := Nat.max (min n cacheMax) cacheMinSize, size := 0, count := 0, map := [],
        workers := List.replicate workers .idle, accepted := [], written := [], replaced := [] }, .nothing)
  else (s, .nothing)

/-- A worker takes the first packet and calls the callback, utils.cpp:1433-1442. -/
def take (s : St) (k : Nat) : St := match s.map with
  | [] => s
  | n :: _ => { s with workers := s.workers.set k (.writing n.nid n.idx n.pkt.size), written := s.written ++ [(n.idx, n.pkt)] }

/-- A worker gets the lock back after the callback (which failed if `fail`), utils.cpp:1443-1449. -/
def finish (s : St) (k : Nat) (fail : Bool) : Option St := match s.workers[k]? with
  | some (.writing nid _ size) =>
    if s.map.any (fun n => n.nid == nid) then
      some { s with
        excs := if fail then s.excs + 1 else s.excs, size := s.size - size, map := s.map.filter (fun n => n.nid != nid),
        count := s.count - 1, workers := s.workers.set k .idle }
    else none
  | _ => some s

/-- The atomic actions. -/
inductive Act where
  | queue (i : Nat) (p : Pkt)
  | commit (i : Nat) (p : Pkt)
  | start (n cacheMax : Nat) (drop : Bool) (workers : Nat)
  | stop | join
  | take (k : Nat) | finish (k : Nat) (fail : Bool) | exit (k : Nat)
deriving DecidableEq

/-- When an action can take place. A blocking `queue` call commits once the packet fits (utils.cpp:1361-1368); a worker
takes a packet or leaves as in utils.cpp:1430-1437; `stopAsyncWriting` returns when all workers have left. -/
def enabled (s : St) : Act → Bool
  | .queue _ _ => true
  | .commit i p => s.pending.contains (i, p) && (s.drop || s.fits i p)
  | .start _ _ _ _ => s.phase == .idle
  | .stop => s.phase == .active
  | .join => s.phase == .stopping && s.workers.all (· == .gone)
  | .take k => s.workers[k]? == some .idle && decide (s.count > 0) &&
      (match s.map with | [] => false | n :: _ => decide (n.pkt.size ≤ s.size))
  | .finish k _ => (match s.workers[k]? with | some (.writing _ _ _) => true | _ => false)
  | .exit k => s.workers[k]? == some .idle && s.phase != .active && s.count == 0

/-- One action; `none` is undefined behaviour. -/
def step (s : St) : Act → Option (St × Ret)
  | .queue i p => some (queueStart s i p)
  | .commit i p => queueCommit s i p
  | .start n c d w => some (start s n c d w)
  | .stop => some ({ s with phase := .stopping }, .nothing)
  | .join => some (rethrow { s with phase := .idle })
  | .take k => some (take s k, .nothing)
  | .finish k fail => (finish s k fail).map fun s => (s, .nothing)
  | .exit k => some ({ s with workers := s.workers.set k .gone }, .nothing)

/-- Runs a schedule and collects the results; `none` if an action is not enabled or undefined. -/
def run (s : St) : List Act → Option (St × List Ret)
  | [] => some (s, [])
  | a :: as => if enabled s a then
      match step s a with
      | none => none
      | some (s', r) => (run s' as).map fun t => (t.1, r :: t.2)
    else none

end Litiv.Writer
