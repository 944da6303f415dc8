/-!
# Model of output packet counting, naming and saving

Models `lv::IDataCounter` (modules/datasets/src/utils.cpp:1295-1318, modules/datasets/include/litiv/datasets/utils.hpp:
844-909), `startProcessing`/`stopProcessing` of a work batch (modules/datasets/include/litiv/datasets.hpp:93-118), the
default packet names (utils.cpp:36-60, 1140-1146) and the output archiver (utils.cpp:1456-1600).
-/

namespace Litiv.Packets

/-! ### Output counter -/

/-- `std::promise<size_t>` with its shared state: not satisfied, or satisfied with a value. The future handed out by
`resetOutputCount` is the only one; `futureValid` is `std::future::valid()`. -/
structure Counter where
  /-- `m_mProcessedPackets` (an `unordered_set`; the order of the list is irrelevant) -/
  seen : List Nat := []
  /-- the value of `m_nPacketCountPromise`, if satisfied -/
  promise : Option Nat := none
  /-- `m_nPacketCountFuture.valid()` -/
  futureValid : Bool := false
  /-- `m_nFinalPacketCount` -/
  final : Nat := 0
  /-- `m_bIsProcessing` -/
  processing : Bool := false

/-- What a call returns to the user. -/
inductive Res where
  | ok
  /-- the call ended normally and cleared the counter -/
  | cleared
  | value (n : Nat)
  /-- `std::future_error` (promise already satisfied) -/
  | futureError
  /-- the calling thread blocks on the future -/
  | blocked
  /-- `lvAssert_` throws -/
  | assertFailed
deriving DecidableEq

/-- `unordered_set::insert`. -/
def insertIdx (l : List Nat) (i : Nat) : List Nat := if i ∈ l then l else l ++ [i]

/-- `getCurrentOutputCount`, utils.cpp:1295-1297. -/
def Counter.current (c : Counter) : Nat := c.seen.length

/-- `std::promise::set_value`: throws if already satisfied. -/
def Counter.setPromise (c : Counter) (n : Nat) : Option Counter :=
  match c.promise with
  | none => some { c with promise := some n }
  | some _ => none

/-- `resetOutputCount`, utils.cpp:1312-1318; `none` is the exception of line 1313. -/
def Counter.resetCount (c : Counter) : Option Counter :=
  (c.setPromise c.seen.length).map fun c =>
    { c with seen := [], promise := none, futureValid := true, final := 0 }

/-- `countOutput`, utils.cpp:1303-1306. -/
def Counter.countOutput (c : Counter) (i : Nat) : Counter := { c with seen := insertIdx c.seen i }

/-- `setOutputCountPromise`, utils.cpp:1308-1310. -/
def Counter.setFinal (c : Counter) : Option Counter := c.setPromise c.seen.length

/-- The calls available to the user of a work batch. -/
inductive Op where
  | start | stop | push (i : Nat) | reset | getFinal
deriving DecidableEq

/-- `startProcessing`, datasets.hpp:93-104 (`startProcessing_impl` and the stop watch are not modelled). -/
def Counter.start (c : Counter) : Counter × Res :=
  if c.processing then (c, .ok)
  else match c.resetCount with
    | none => (c, .futureError)
    | some c => ({ c with processing := true }, .cleared)

/-- `stopProcessing`, datasets.hpp:106-115. -/
def Counter.stop (c : Counter) : Counter × Res :=
  if c.processing then
    match c.setFinal with
    | none => (c, .futureError)
    | some c => ({ c with processing := false }, .ok)
  else (c, .ok)

/-- `push`, utils.hpp:882-886 and 903-909 (evaluation and saving are modelled elsewhere). -/
def Counter.push (c : Counter) (i : Nat) : Counter × Res :=
  if c.processing then (c.countOutput i, .ok) else (c, .assertFailed)

/-- `resetMetrics`, utils.hpp:878-880. -/
def Counter.reset (c : Counter) : Counter × Res :=
  match c.resetCount with
  | none => (c, .futureError)
  | some c => (c, .cleared)

/-- `getFinalOutputCount`, utils.cpp:1299-1301. -/
def Counter.getFinal (c : Counter) : Counter × Res :=
  if c.futureValid then
    match c.promise with
    | none => (c, .blocked)
    | some n => ({ c with futureValid := false, final := n }, .value n)
  else (c, .value c.final)

/-- One call. -/
def Counter.step (c : Counter) : Op → Counter × Res
  | .start => c.start
  | .stop => c.stop
  | .push i => c.push i
  | .reset => c.reset
  | .getFinal => c.getFinal

/-- A history of calls; the log holds each call with its result. -/
def Counter.run (c : Counter) : List Op → Counter × List (Op × Res)
  | [] => (c, [])
  | o :: os =>
    let r := c.step o
    let t := r.1.run os
    (t.1, (o, r.2) :: t.2)

/-- The constructor calls `resetOutputCount` on default-constructed members, utils.hpp:857. -/
def Counter.init : Option Counter := ({} : Counter).resetCount

/-! ### Packet names -/

/-- `snprintf` with `%0<w>zu`. -/
def padded (w n : Nat) : List Char :=
  let d := Nat.toDigits 10 n
  List.replicate (w - d.length) '0' ++ d

/-- `snprintf` into a buffer of 32 characters keeps 31 of them. -/
def snprintf32 (s : List Char) : List Char := s.take 31

/-- `IDataHandler::getInputName`, utils.cpp:36-40, and the default case of `getOutputName`, utils.cpp:46-48: `count` is
`getInputCount()` resp. `getExpectedOutputCount()`. -/
def packetName (count idx : Nat) : List Char :=
  snprintf32 (padded (if count < 10^7 then 6 else 9) idx)

/-- The default case of `getFeaturesName`, utils.cpp:55-57. -/
def featuresName (idx : Nat) : List Char :=
  snprintf32 (padded (if idx < 10^7 then 6 else 9) idx)

/-- `find_last_of` followed by `substr` up to the found character: drops everything from the last occurrence of a
character satisfying `p`; the whole string if there is none. -/
def dropFromLast (p : Char → Bool) (s : List Char) : List Char :=
  if s.any p then ((s.reverse.dropWhile fun c => !p c).drop 1).reverse else s

/-- `find_last_of` followed by `substr` after the found character. -/
def takeAfterLast (p : Char → Bool) (s : List Char) : List Char :=
  (s.reverse.takeWhile fun c => !p c).reverse

/-- `IDataProducer_<DatasetSource_Image>::getInputName` for a listed image path, utils.cpp:1143-1145. -/
def imageName (path : List Char) : List Char :=
  dropFromLast (· == '.') (takeAfterLast (fun c => c == '/' || c == '\\') path)

/-- File name of output stream `stream` of packet `idx`, utils.cpp:1583-1587 (without directory and extension). -/
def streamName (name : Nat → List Char) (streams idx stream : Nat) : List Char :=
  if streams > 1 then name idx ++ '_' :: Nat.toDigits 10 stream else name idx

/-! ### Saving masks -/

/-- The graying of pixels outside the region of interest in `saveOutput`, utils.cpp:1481-1491: the mask is only touched
if all its pixels are 0 or 255 and the region has the same size (here: as many pixels). -/
def grayOut (out roi : List UInt8) : List UInt8 :=
  if (out.countP (· = 255)) + (out.countP (· = 0)) = out.length ∧ roi ≠ [] ∧ roi.length = out.length then
    List.zipWith (fun o r => if r = 0 then (o ||| 127) &&& 127 else o) out roi
  else out

end Litiv.Packets
