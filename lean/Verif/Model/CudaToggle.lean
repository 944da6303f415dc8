/-!
# Algorithms with a CUDA implementation that can be turned on and off

Model of `IParallelAlgo_<CUDA>` (modules/utils/include/litiv/utils/algo.hpp 82-128) and `lv::cuda::init`
(modules/utils/src/cuda.cpp 48-76). The CUDA runtime enters by its contract: a number of devices, their capabilities, the
current device of the thread, and whether errors can be cleared and the warm-up kernel runs, which may differ at each call.
Calls with a reset of the device (`bReset`) and several host threads are not modelled.
-/

namespace Litiv.CudaToggle

/-- The devices of the system. -/
structure Env where
  /-- `cv::cuda::getCudaEnabledDeviceCount()` (cuda.cpp 63). -/
  count : Int
  /-- `cv::cuda::deviceSupports` when the given device is the current one (cuda.cpp 68). -/
  caps : Int → Bool

/-- How the CUDA runtime behaves in one call. -/
structure Flags where
  /-- `nLatestErrSync==cudaSuccess` (cuda.cpp 61-62). -/
  clear : Bool
  /-- The warm-up kernel works (cuda.cpp 75). -/
  warm : Bool

/-- `lv::cuda::init` (cuda.cpp 55-76): the current device after the call, and whether it returned without an exception.
`cv::cuda::setDevice` (66) throws for a negative identifier and leaves the current device as it is. -/
def init (env : Env) (f : Flags) (cur id : Int) : Int × Bool :=
  if !f.clear then (cur, false)
  else if !decide (env.count > 0) then (cur, false)
  else if !decide (env.count > id) then (cur, false)
  else if id < 0 then (cur, false)
  else if !env.caps id then (id, false)
  else if !f.warm then (id, false)
  else (id, true)

/-- The members of an algorithm (algo.hpp 118-125); `info` is the device `m_pDeviceInfo` describes. -/
structure Algo where
  use : Bool
  inited : Bool
  dev : Int
  info : Option Int
deriving DecidableEq

/-- `tryInitEnableCUDA` (algo.hpp 92-105): the current device, the object and the result. -/
def tryInit (env : Env) (f : Flags) (cur : Int) (id : Int) : Int × Algo × Bool :=
  match init env f cur id with
  | (cur', true) => (cur', ⟨true, true, id, some cur'⟩, true)
  | (cur', false) => (cur', ⟨false, false, -1, none⟩, false)

/-- The constructor (algo.hpp 86-90). -/
def construct (env : Env) (f : Flags) (cur : Int) (use : Bool) (id : Int) : Int × Algo :=
  let a : Algo := ⟨use, false, -1, none⟩
  if a.use then ((tryInit env f cur id).1, (tryInit env f cur id).2.1) else (cur, a)

/-- `enableCUDA` (algo.hpp 107-114); `none` if the assertion fails, which leaves the object as it is. -/
def enable (a : Algo) (val : Bool) : Option Algo :=
  if val && !a.use then
    if a.inited then some { a with use := true } else none
  else if !val && a.use then some { a with use := false }
  else some a

/-- `isParallel` (algo.hpp 116). -/
def Algo.isParallel (a : Algo) : Bool := a.use

/-- `getParallelAlgoType` (algo.hpp 118): whether it is `CUDA` rather than `NonParallel`. -/
def Algo.isCuda (a : Algo) : Bool := if a.use then true else false

/-- A call of the user. -/
inductive Call where
  /-- Construction of a new object. -/
  | construct (use : Bool) (id : Int)
  /-- `tryInitEnableCUDA` of the object with the given number. -/
  | tryInit (i : Nat) (id : Int)
  /-- `enableCUDA` of the object with the given number; exceptions are caught by the user. -/
  | enable (i : Nat) (val : Bool)

/-- All objects, and the current device. -/
structure World where
  cur : Int
  objs : List Algo

/-- One call. -/
def step (env : Env) (w : World) (f : Flags) : Call → World
  | .construct use id => let r := construct env f w.cur use id; ⟨r.1, w.objs ++ [r.2]⟩
  | .tryInit i id => if i < w.objs.length then let r := tryInit env f w.cur id; ⟨r.1, w.objs.set i r.2.1⟩ else w
  | .enable i val => match w.objs[i]? with
    | some a => ⟨w.cur, w.objs.set i ((enable a val).getD a)⟩
    | none => w

/-- A sequence of calls, from no object and the current device `cur`. -/
def run (env : Env) (cur : Int) (calls : List (Flags × Call)) : World :=
  calls.foldl (fun w c => step env w c.1 c.2) ⟨cur, []⟩

end Litiv.CudaToggle
