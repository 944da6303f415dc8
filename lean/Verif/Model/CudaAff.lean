import Verif.Model.Cuda
import Verif.Model.Affinity
import Mathlib.Analysis.Real.Sqrt

/-!
# Model of the descriptor affinity on the GPU

`modules/imgproc/src/imgproc.cpp:551-606` (the `GpuMat` form of `computeDescriptorAffinity`) and
`modules/imgproc/cuda/affinity.cu`, for warps of 32 threads.

Every pixel has its own thread block. Blocks read the descriptors and write their own row of the output, so they are modelled
one by one. Distances are exact real numbers; the code uses `float`. The ceilings of `float` quotients are those of the exact
quotients. The pointers stored in `aDistCalcLUTs` are replaced by the test that fills them (`valid`).
-/

namespace Litiv.CudaAff

open Cuda (Act Block sec ld1 ld2 st addSt halves)
open Affinity (Map3)

/-- Arguments: descriptor maps (row, column, bin) of the same size, and regions. -/
structure Args where
  rows : Nat
  cols : Nat
  size : Nat
  d1 : Nat → Nat → Nat → ℝ
  d2 : Nat → Nat → Nat → ℝ
  roi1 : Option (Nat → Nat → Bool)
  roi2 : Option (Nat → Nat → Bool)

/-- Memory of a block: `aDescCalcLUT` in shared memory, and the row `aAffArray` of the output. -/
inductive Cell
  | sh (i : Nat)
  | out (o : Nat)
deriving DecidableEq

open Cell

/-- `__float2int_ru(float(a)/b)`, affinity.cu:27,85,125, and the `std::ceil`s of imgproc.cpp:582-585,599. -/
def ceilDiv (a b : Nat) : Nat := (a + b - 1) / b

/-- The state of a block: number of barriers so far, memory and registers. -/
abbrev S := Nat × Block Cell ℝ

/-- The stores of -1 before the first barrier, affinity.cu:92-105,144-157. -/
noncomputable def initActs (n nOff : Nat) (valid : Nat → Bool) (t : Nat) : List (Act Cell ℝ) :=
  ((List.range (ceilDiv nOff n)).filterMap fun s : Nat =>
    if n * s + t < nOff ∧ valid (n * s + t) = false then some (out (n * s + t)) else none).map fun c => st c (-1)

/-- The squared differences, affinity.cu:34-43. -/
noncomputable def fillActs (n size : Nat) (x y : Nat → ℝ) (t : Nat) : List (Act Cell ℝ) :=
  (List.range (ceilDiv size n)).map fun s : Nat =>
    st (sh (n * s + t)) (if n * s + t < size then (x (n * s + t) - y (n * s + t)) * (x (n * s + t) - y (n * s + t)) else 0)

/-- The sums over the multiples of the number of threads, affinity.cu:49-50. -/
noncomputable def accActs (n size t : Nat) : List (Act Cell ℝ) :=
  (List.range (ceilDiv size n - 1)).flatMap fun j : Nat => [ld1 (sh (t + n * (j + 1))), ld2 (sh t), addSt (sh t)]

/-- The tree of additions with two barriers per step, affinity.cu:52-58. -/
noncomputable def treeA (sched : Nat → List Nat) (n : Nat) (s : S) : S :=
  (halves n (n / 2)).foldl (fun s k =>
    sec n sched (fun t => [ld2 (sh t), addSt (sh t)]) (sec n sched (fun t => [ld1 (sh (t + k))]) s)) s

/-- The tree of additions with one barrier per step, affinity.cu:62-66. -/
noncomputable def treeB (sched : Nat → List Nat) (n : Nat) (s : S) : S :=
  (halves n (n / 2)).foldl (fun s k =>
    sec n sched (fun t => if t < k then [ld1 (sh (t + k)), ld2 (sh t), addSt (sh t)] else []) s) s

/-- The sum of the shared array, affinity.cu:47-67. -/
noncomputable def reduce (sched : Nat → List Nat) (n size : Nat) (s : S) : S :=
  if ceilDiv size n * n > n then treeA sched n (sec n sched (accActs n size) s) else treeB sched n s

/-- The store of thread 0, affinity.cu:68-69. -/
noncomputable def outActs (o t : Nat) : List (Act Cell ℝ) :=
  if t = 0 then [ld1 (sh 0), fun r m => (r, Function.update m (out o) (Real.sqrt r.1))] else []

/-- The loop over the offsets, affinity.cu:31-71. `pend` are the actions since the last barrier: no barrier follows the store
of a distance. -/
noncomputable def offsets (sched : Nat → List Nat) (n size : Nat) (valid : Nat → Bool) (x : Nat → ℝ) (y : Nat → Nat → ℝ) :
    List Nat → (Nat → List (Act Cell ℝ)) → S → S
  | [], pend, s => sec n sched pend s
  | o :: os, pend, s =>
    if valid o then
      offsets sched n size valid x y os (outActs o)
        (reduce sched n size (sec n sched (fun t => pend t ++ fillActs n size x (y o) t) s))
    else offsets sched n size valid x y os pend s

/-- `lv::isPow2`, cuda.hpp:50-54. -/
def isPow2 (n : Nat) : Bool := n != 0 && (n &&& (n - 1)) == 0

/-- Column of the second map for an offset, affinity.cu:98,150; `rng` is `g_anDispRange`. -/
def column (rng : Nat → Int) (c o : Nat) : Int := (c : Int) + rng o

/-- The test of affinity.cu:99 and 151. -/
def valid (g : Args) (rng : Nat → Int) (r c o : Nat) : Bool :=
  decide (0 ≤ column rng c o) && decide (column rng c o < g.cols) &&
    match g.roi2 with
    | none => true
    | some f => f r (column rng c o).toNat

/-- A block of `compute_desc_affinity_l2` or, if there are regions, `compute_desc_affinity_l2_roi`, affinity.cu:74-163, with
`n` threads and any contents of the memory. `dbg`: assertions are compiled; the one of line 46 is reached for valid offsets. -/
noncomputable def rawBlock (dbg : Bool) (g : Args) (rng : Nat → Int) (n nOff r c : Nat) (sched : Nat → List Nat)
    (b : Block Cell ℝ) : Option (Nat → ℝ) :=
  if Affinity.outside g.roi1 r c then
    some fun o => (sec n sched (initActs n nOff fun _ => false) (0, b)).2.mem (out o)
  else if dbg && !isPow2 n && (List.range nOff).any (valid g rng r c) then none
  else
    some fun o => (offsets sched n g.size (valid g rng r c) (g.d1 r c) (fun o => g.d2 r (column rng c o).toNat)
      (List.range nOff) (fun _ => []) (sec n sched (initActs n nOff (valid g rng r c)) (0, b))).2.mem (out o)

/-- Shared memory of the patch kernel: `anCounts` and `afAffinities` (counts as real numbers). -/
inductive PCell
  | cnt (i : Nat)
  | aff (i : Nat)
deriving DecidableEq

open PCell

/-- What a thread of the patch kernel looks at, affinity.cu:176-181: the raw affinity of its pixel, unless outside or -1. -/
noncomputable def looked (rows cols p r c o : Nat) (raw : Map3) (t : Nat) : Option ℝ :=
  let pr : Int := (r : Int) + (t / p : Nat) - (p / 2 : Nat)
  let pc : Int := (c : Int) + (t % p : Nat) - (p / 2 : Nat)
  if t / p < p ∧ 0 ≤ pr ∧ pr < rows ∧ 0 ≤ pc ∧ pc < cols then
    if raw pr.toNat pc.toNat o ≠ -1 then some (raw pr.toNat pc.toNat o) else none
  else none

/-- The stores before the loop, affinity.cu:186-193. -/
noncomputable def pinitActs (l : Nat → Option ℝ) (t : Nat) : List (Act PCell ℝ) :=
  match l t with
  | some v => [st (cnt t) 1, st (aff t) v]
  | none => [st (cnt t) 0, st (aff t) 0]

/-- The loads of one step, affinity.cu:196-199. -/
noncomputable def ploadActs (n k t : Nat) : List (Act PCell ℝ) :=
  if t + k < n then [ld1 (cnt (t + k)), ld2 (aff (t + k))] else [fun _ m => ((0, 0), m)]

/-- The additions of one step, affinity.cu:201-202; no other thread touches these cells before the next barrier. -/
noncomputable def paddActs (t : Nat) : List (Act PCell ℝ) :=
  [fun r m => (r, Function.update m (cnt t) (m (cnt t) + r.1)), fun r m => (r, Function.update m (aff t) (m (aff t) + r.2))]

/-- The loop, affinity.cu:195-203. -/
noncomputable def ptree (sched : Nat → List Nat) (n : Nat) (s : Nat × Block PCell ℝ) : Nat × Block PCell ℝ :=
  (halves n (n / 2)).foldl (fun s k => sec n sched paddActs (sec n sched (ploadActs n k) s)) s

/-- A block of `compute_desc_affinity_patch`, affinity.cu:165-206, with `n` threads. -/
noncomputable def patchBlock (dbg : Bool) (rows cols p : Nat) (raw : Map3) (n r c o : Nat) (sched : Nat → List Nat)
    (b : Block PCell ℝ) : Option ℝ :=
  if dbg && !isPow2 n then none
  else
    let m := (ptree sched n (sec n sched (pinitActs (looked rows cols p r c o raw)) (0, b))).2.mem
    some (if m (cnt 0) ≠ 0 then m (aff 0) / m (cnt 0) else -1)

/-- Number of threads of the first kernel, imgproc.cpp:581-582. -/
def threads (nOff : Nat) : Nat := if nOff > 64 then ceilDiv nOff 64 * 64 else 64

/-- Number of threads of the patch kernel, imgproc.cpp:597-599. -/
def patchThreads (p : Nat) : Nat := ceilDiv (p * p) 32 * 32

/-- What the scheduler and the memory do: schedules and initial contents of each block of the two kernels. -/
structure Exec where
  sched1 : Nat → Nat → Nat → List Nat
  mem1 : Nat → Nat → Block Cell ℝ
  sched2 : Nat → Nat → Nat → Nat → List Nat
  mem2 : Nat → Nat → Nat → Block PCell ℝ

/-- All values of a table of options; `none` if one of them in range is `none`. -/
noncomputable def table2 (rows cols : Nat) (f : Nat → Nat → Option (Nat → ℝ)) : Option Map3 :=
  if (List.range rows).all fun r => (List.range cols).all fun c => (f r c).isSome then
    some fun r c o => (f r c).elim 0 fun v => v o
  else none

noncomputable def table3 (rows cols nOff : Nat) (f : Nat → Nat → Nat → Option ℝ) : Option Map3 :=
  if (List.range rows).all fun r => (List.range cols).all fun c => (List.range nOff).all fun o => (f r c o).isSome then
    some fun r c o => (f r c o).getD 0
  else none

/-- The checks, imgproc.cpp:556-567 (the test of line 561 names the first region twice). -/
def checks (g : Args) (p nOff : Nat) : Prop :=
  0 < g.size ∧ 0 < g.rows * g.cols ∧ ((g.roi1 = none ∧ g.roi2 = none) ∨ (g.roi1 ≠ none ∧ g.roi1 ≠ none)) ∧
    1 ≤ p ∧ p % 2 = 1 ∧ 0 < nOff ∧ nOff ≤ 254

open Classical in
/-- The kernels, imgproc.cpp:579-606, for a device holding the disparities `rng`. Without a second region the kernel with regions
reads through a null pointer. A block has at most 1024 threads (`cudaKernelWrap` throws otherwise). -/
noncomputable def kernels (dbg : Bool) (g : Args) (p nOff : Nat) (rng : Nat → Int) (e : Exec) : Option Map3 :=
  if g.roi1 ≠ none ∧ g.roi2 = none then none
  else
    (table2 g.rows g.cols fun r c => rawBlock dbg g rng (threads nOff) nOff r c (e.sched1 r c) (e.mem1 r c)).bind fun raw =>
      if p > 1 then
        if patchThreads p ≤ 1024 then
          table3 g.rows g.cols nOff fun r c o =>
            patchBlock dbg g.rows g.cols p raw (patchThreads p) r c o (e.sched2 r c o) (e.mem2 r c o)
        else none
      else some raw

/-- Host and device between calls: `s_vDispRange_dev` of each host thread (`thread_local`) and `g_anDispRange` of the device,
imgproc.cpp:574-578; all zero at first. -/
structure Host where
  cache : Nat → Nat → Int
  dev : Nat → Int

def Host.start : Host := ⟨fun _ _ => 0, fun _ => 0⟩

/-- The upload of the disparities by host thread `th`, imgproc.cpp:574-578 and affinity.cu:220-222. -/
def upload (h : Host) (th : Nat) (disp : List Int) : Host :=
  if ∀ i < disp.length, disp.getD i 0 = h.cache th i then h
  else
    let new : Nat → Int := fun i => if i < disp.length then disp.getD i 0 else h.cache th i
    ⟨Function.update h.cache th new, new⟩

/-- What a call asks for. -/
structure Req where
  th : Nat
  g : Args
  p : Nat
  disp : List Int

open Classical in
/-- Host and device after a call. -/
noncomputable def next (h : Host) (q : Req) : Host := if checks q.g q.p q.disp.length then upload h q.th q.disp else h

open Classical in
/-- A call, imgproc.cpp:551-606. -/
noncomputable def call (dbg : Bool) (h : Host) (q : Req) (e : Exec) : Option Map3 :=
  if checks q.g q.p q.disp.length then kernels dbg q.g q.p q.disp.length (next h q).dev e else none

/-- Host and device after earlier calls, one at a time (the mutex of imgproc.cpp:572-573). -/
noncomputable def after (calls : List Req) : Host := calls.foldl next Host.start

end Litiv.CudaAff
