/-!
# Model of the asynchronous data precacher

Models `lv::DataPrecacher`, modules/datasets/src/utils.cpp:302-530 (declared in
modules/datasets/include/litiv/datasets/utils.hpp:456-485).

Two threads take part: the user thread (calls of `getPacket`, `startAsyncPrecaching`, `stopAsyncPrecaching`) and the
worker thread (`entry`). All shared state is accessed under `m_oSyncMutex`, so each critical section is one atomic
action and a schedule is a list of actions. Time-outs only decide which action comes next, so every order is allowed.

The loading callback is a function `cb`, as the header demands that a packet loaded twice be identical; `cb i = none`
means that the callback throws. The ring buffer is byte-addressed memory of a given generation: it is a local variable
of `entry` and dies with the worker. Packet indices are natural numbers (`size_t(-1)`, which stands for no packet in the
code, is `none` here and is no valid index).
-/

namespace Litiv.Precacher

/-- A packet: its header (dimensions and element type) and its bytes. -/
structure Pkt where
  hdr : Nat
  bytes : List UInt8
deriving DecidableEq

/-- A `cv::Mat` header placed over the buffer, utils.cpp:432, 440, 447. -/
structure View where
  off : Nat
  len : Nat
  hdr : Nat
deriving DecidableEq

/-- What a `cv::Mat` member refers to: nothing, data it owns, or a region of the buffer of generation `gen`. -/
inductive Handle where
  | empty
  | owned (p : Pkt)
  | view (gen : Nat) (v : View)
deriving DecidableEq

/-- The members of `DataPrecacher` and the local variables of `entry`. -/
structure St where
  /-- `CACHE_MAX_SIZE`, a constant of the build, utils.cpp:29 -/
  maxSize : Nat := 0
  /-- `m_bIsActive` -/
  active : Bool := false
  /-- `m_pWorkerException` is set -/
  exc : Bool := false
  /-- the worker thread is inside `entry`, so its buffer exists -/
  alive : Bool := false
  /-- counts the buffers created so far -/
  gen : Nat := 0
  /-- `nBufferSize` -/
  size : Nat := 0
  /-- contents of `vcBuffer` -/
  mem : Nat → UInt8 := fun _ => 0
  /-- `lCache` -/
  cache : List View := []
  /-- `nNextExpectedReqIdx` -/
  nextExp : Nat := 0
  /-- `nNextPrecacheIdx` -/
  nextPre : Nat := 0
  /-- `nFirstBufferIdx` -/
  first : Option Nat := none
  /-- `nNextBufferIdx` -/
  next : Option Nat := none
  /-- `nLastTargetPacketIdx`, `oLastTargetPacket` -/
  memo : Option (Nat × Pkt) := none
  /-- `bReachedEnd` -/
  ended : Bool := false
  /-- `m_nReqIdx` when `m_bGotRequest` -/
  req : Option Nat := none
  /-- `m_oReqPacket` -/
  reqPacket : Handle := .empty
  /-- `m_nAnswIdx` -/
  answIdx : Option Nat := none
  /-- `m_nLastReqIdx` -/
  lastReq : Option Nat := none
  /-- `m_oLastReqPacket`, the packet held by the user -/
  lastPacket : Handle := .empty

/-- The bytes of a region. -/
def readMem (mem : Nat → UInt8) (off len : Nat) : List UInt8 := (List.range len).map fun k => mem (off + k)

/-- Copies bytes to a region (`oNextPacket.copyTo(oNextPacket_cache)`). -/
def writeMem (mem : Nat → UInt8) (off : Nat) (b : List UInt8) : Nat → UInt8 :=
  fun a => if off ≤ a ∧ a < off + b.length then b.getD (a - off) 0 else mem a

/-- Contents of a `cv::Mat`; `none` if it refers to a buffer that no longer exists. -/
def St.read (s : St) : Handle → Option Pkt
  | .empty => some ⟨0, []⟩
  | .owned p => some p
  | .view g v => if s.alive ∧ g = s.gen then some ⟨v.hdr, readMem s.mem v.off v.len⟩ else none

/-- Where `lCacheNextPacket` places a packet of `size` bytes, utils.cpp:422-455: offset and new values of
`nFirstBufferIdx`, `nNextBufferIdx`; `none` if the packet is not cached. -/
def place (first next : Option Nat) (bufSize size : Nat) : Option (Nat × Option Nat × Option Nat) :=
  if first = none ∨ next = none ∨ first.getD 0 < next.getD 0 then
    if next = none ∨ next.getD 0 + size > bufSize then
      if (first ≠ none ∧ size > first.getD 0) ∨ size > bufSize then none
      else some (0, (if first = none then some 0 else first), some size)
    else some (next.getD 0, first, some (next.getD 0 + size))
  else if next.getD 0 + size < first.getD 0 then some (next.getD 0, first, some (next.getD 0 + size))
  else none

/-- The result of an action for the user. -/
inductive Ret where
  | nothing
  /-- `getPacket(i)` returns a packet; its contents as seen by the user (`none` if dangling) -/
  | value (i : Nat) (p : Option Pkt)
  /-- the call throws -/
  | threw
deriving DecidableEq

/-- Stores a fetched packet in the cache, utils.cpp:413-467; `none` is a write outside of the buffer. -/
def cachePkt (s : St) (p : Pkt) : Option St :=
  if p.bytes.length = 0 then some { s with ended := true }
  else
    match place s.first s.next s.size p.bytes.length with
    | none => some { s with ended := false }
    | some (off, first, next) =>
      if off + p.bytes.length ≤ s.size then
        some { s with
          ended := false, first, next, mem := writeMem s.mem off p.bytes, cache := s.cache ++ [⟨off, p.bytes.length, p.hdr⟩],
          nextPre := s.nextPre + 1 }
      else none

/-- The worker dies of an exception: it leaves `entry`, utils.cpp:527-529. -/
def St.die (s : St) : St := { s with exc := true, alive := false }

/-- One call of `lCacheNextPacket` with its index update, utils.cpp:401-412 and 472-474 (515-517, 522-523). -/
def fill (cb : Nat → Option Pkt) (s : St) : Option St :=
  match s.memo with
  | some (k, p) =>
    if s.nextPre = k then cachePkt s p
    else match cb s.nextPre with
      | none => some s.die
      | some p => cachePkt { s with memo := some (s.nextPre, p) } p
  | none => match cb s.nextPre with
      | none => some s.die
      | some p => cachePkt { s with memo := some (s.nextPre, p) } p

/-- The loop which pops packets up to the requested one, utils.cpp:486-492; `k` packets remain to be popped; `none` is
`lCache.front()` on an empty list. -/
def popTo (s : St) (i : Nat) : Nat → Option St
  | 0 => some s
  | k + 1 => match s.cache with
    | [] => none
    | v :: rest =>
      popTo { s with reqPacket := .view s.gen v, answIdx := some i, first := some v.off, cache := rest, nextExp := s.nextExp + 1 } i k

/-- Answers a request by a direct call of the callback, utils.cpp:495-502 (`clearEnd`) and 505-510. -/
def answerDirect (cb : Nat → Option Pkt) (s : St) (i : Nat) (clearEnd : Bool) : St :=
  match cb i with
  | none => { s with cache := [] }.die
  | some p =>
    { s with cache := [], reqPacket := .owned p, answIdx := some i, first := none, next := none, nextExp := i + 1, nextPre := i + 1,
             ended := if clearEnd then false else s.ended }

/-- The worker answers the pending request `i`, utils.cpp:479-513. -/
def answer (cb : Nat → Option Pkt) (s : St) (i : Nat) : Option St :=
  if i + 1 = s.nextExp then some s
  else if !s.cache.isEmpty then
    if i < s.nextPre ∧ i ≥ s.nextExp then popTo s i (i + 1 - s.nextExp)
    else some (answerDirect cb s i true)
  else some (answerDirect cb s i false)

/-- `getPacket(i)` up to the point where it waits, utils.cpp:314-331. -/
def getStart (cb : Nat → Option Pkt) (s : St) (i : Nat) : St × Ret :=
  if s.lastReq = some i then (s, .value i (s.read s.lastPacket))
  else if !s.active then
    match cb i with
    | none => (s, .threw)
    | some p => ({ s with lastPacket := .owned p, lastReq := some i }, .value i (some p))
  else ({ s with req := some i }, .nothing)

/-- The end of `getPacket`, utils.cpp:341-355. -/
def getEnd (s : St) (i : Nat) : St × Ret :=
  if s.exc then ({ s with req := none, active := false }, .threw)
  else
    let s' := { s with req := none, lastPacket := s.reqPacket, lastReq := s.answIdx }
    (s', .value i (s'.read s'.lastPacket))

/-- `stopAsyncPrecaching`, utils.cpp:376-386; joining lets the worker leave `entry`. -/
def stop (s : St) : St × Ret :=
  let s' := if s.active then { s with active := false, alive := false, cache := [] } else s
  (s', if s.exc then .threw else .nothing)

/-- `CACHE_MIN_SIZE`, utils.cpp:30. -/
def cacheMinSize : Nat := 10 * 1024 * 1024

/-- `startAsyncPrecaching`, utils.cpp:358-374. -/
def start (s : St) (n : Nat) : St × Ret :=
  let r := stop s
  if r.2 = .threw then r
  else if n > 0 then
    ({ r.1 with
        active := true, exc := false, answIdx := none, req := none, alive := true, gen := s.gen + 1,
        size := max (min n s.maxSize) cacheMinSize, mem := fun _ => 0, cache := [], nextExp := 0, nextPre := 0, first := none,
        next := none, memo := none, ended := false }, .nothing)
  else (r.1, .nothing)

/-- The atomic actions. -/
inductive Act where
  | get (i : Nat) | recv | start (n : Nat) | stop
  | fill | answer
deriving DecidableEq

/-- When an action can take place: user calls one after the other, `recv` once the answer or an exception is there
(utils.cpp:332-340); the worker precaches when it sees no request and has not reached the end (utils.cpp:477-524), and
also before its first look at the requests (the prefill loop, utils.cpp:470-476, is entered whether or not the user got
hold of the mutex first). -/
def enabled (s : St) : Act → Bool
  | .get _ => s.req.isNone
  | .recv => s.req.isSome && (s.exc || s.answIdx == s.req)
  | .start _ => s.req.isNone
  | .stop => s.req.isNone
  | .fill => s.alive && (s.req.isNone || s.answIdx.isNone) && !s.ended
  | .answer => s.alive && s.req.isSome

/-- One action; `none` is undefined behaviour (a write outside of the buffer or `front()` of an empty list). -/
def step (cb : Nat → Option Pkt) (s : St) : Act → Option (St × Ret)
  | .get i => some (getStart cb s i)
  | .recv => some (getEnd s (s.req.getD 0))
  | .start n => some (start s n)
  | .stop => some (stop s)
  | .fill => (fill cb s).map fun s => (s, .nothing)
  | .answer => (answer cb s (s.req.getD 0)).map fun s => (s, .nothing)

/-- The states that can be reached from a newly constructed precacher under some schedule. -/
inductive Reach (cb : Nat → Option Pkt) : St → Prop
  | init (maxSize : Nat) : Reach cb { maxSize }
  | step {s s' : St} {a : Act} {r : Ret} : Reach cb s → enabled s a = true → step cb s a = some (s', r) → Reach cb s'

/-- Runs a schedule and collects the results; `none` if an action is not enabled or undefined. -/
def run (cb : Nat → Option Pkt) (s : St) : List Act → Option (St × List Ret)
  | [] => some (s, [])
  | a :: as => if enabled s a then
      match step cb s a with
      | none => none
      | some (s', r) => (run cb s' as).map fun t => (t.1, r :: t.2)
    else none

end Litiv.Precacher
