import Verif.Model.Cuda
import Verif.Model.CudaAff
import Verif.Model.SC

/-!
# Model of the shape context kernel

`modules/features2d/cuda/SC.cu` and its launches, `modules/features2d/src/SC.cpp:155-197,532-548`, for warps of 32 threads, absolute
distances and no rotation invariance (the only case the kernel handles).

A block computes one descriptor. Numbers are exact reals; the code uses `float`. `rsqrt(0)` is infinite and makes every bin not a
number: `none`.
-/

namespace Litiv.CudaSC

open Cuda (Act Block sec ld1 ld2 st addSt halves)
open CudaAff (ceilDiv isPow2)

/-- Memory of a block: `aTmpDesc` and `aTmpLUT` in shared memory, and the descriptor in the output. -/
inductive Cell
  | desc (i : Nat)
  | lut (i : Nat)
  | out (i : Nat)
deriving DecidableEq

open Cell

abbrev S := Nat × Block Cell ℝ

/-- The initial values, SC.cu:61-64. -/
noncomputable def initActs (n D : Nat) (v : ℝ) (t : Nat) : List (Act Cell ℝ) :=
  (List.range (ceilDiv D n)).map fun s : Nat => st (desc (n * s + t)) (if n * s + t < D then v else 0)

/-- `atomicAdd(...,1.0f)`, SC.cu:78. -/
noncomputable def bump (c : Cell) : Act Cell ℝ := fun r m => (r, Function.update m c (m c + 1))

/-- The loop of a thread over the contour points, SC.cu:68-81: it visits the points `t`, `t + n`, ... below `N`; `bin i` is the bin of the
`i`-th one. -/
noncomputable def histActs (n N : Nat) (bin : Nat → Option Nat) (t : Nat) : List (Act Cell ℝ) :=
  ((List.range N).filter fun i => i % n == t).filterMap fun i => (bin i).map fun b => bump (desc b)

/-- The squares, SC.cu:107-110. -/
noncomputable def squareActs (n D t : Nat) : List (Act Cell ℝ) :=
  (List.range (ceilDiv D n)).flatMap fun s : Nat =>
    [ld1 (desc (n * s + t)), fun r m => (r, Function.update m (lut (n * s + t)) (r.1 * r.1))]

/-- `aTmpLUT[threadIdx.x+a] += aTmpLUT[threadIdx.x+b]` as three instructions. -/
noncomputable def addInstrs (a b : Nat) : List (Nat → List (Act Cell ℝ)) :=
  [fun t => [ld1 (lut (t + b))], fun t => [ld2 (lut (t + a))], fun t => [addSt (lut (t + a))]]

/-- The additions of a single warp when there is more than one bin per thread, SC.cu:113-120. -/
noncomputable def warpInstrs (D : Nat) : List (Nat → List (Act Cell ℝ)) :=
  (((List.range (ceilDiv D 32 - 2)).map fun j : Nat => (ceilDiv D 32 - 1 - j) * 32).flatMap fun k => addInstrs (k - 32) k) ++
    ([32, 16, 8, 4, 2, 1].flatMap fun k => addInstrs 0 k)

/-- The same for several warps, SC.cu:124-129; `k ≥ n` holds down to `k = n`. -/
noncomputable def blockInstrs (n D : Nat) : List (Nat → List (Act Cell ℝ)) :=
  (((List.range (ceilDiv D n - 1)).map fun j : Nat => (ceilDiv D n - 1 - j) * n).flatMap fun k => addInstrs (k - n) k) ++
    ((halves n (n / 2)).flatMap fun k => addInstrs 0 k)

/-- Instructions without barriers: the threads of a warp in lockstep (`lock`, one warp), or one after the other in any order. -/
noncomputable def instrs (lock : Bool) (n : Nat) (sched : Nat → List Nat) (l : List (Nat → List (Act Cell ℝ))) (s : S) : S :=
  if lock then l.foldl (fun s i => sec n sched i s) s else sec n sched (fun t => l.flatMap fun i => i t) s

/-- One of the additions with a barrier after each, SC.cu:133-137. -/
noncomputable def halfActs (k t : Nat) : List (Act Cell ℝ) := if t < k then [ld1 (lut (t + k)), ld2 (lut t), addSt (lut t)] else []

/-- `__shfl_down` by `k` lanes and addition, SC.cu:88-102: lanes beyond the end keep their value. -/
noncomputable def shfl (v : Nat → ℝ) (k : Nat) : Nat → ℝ := fun i => v i + if i + k < 32 then v (i + k) else v i

/-- The sum of the squares, SC.cu:84-141: the first register of every thread. -/
noncomputable def normSum (lock : Bool) (n D : Nat) (sched : Nat → List Nat) (s : S) : S :=
  if n = 32 then
    if ceilDiv D 32 * 32 = 32 then
      (s.1, ⟨s.2.mem, fun _ => ([16, 8, 4, 2, 1].foldl shfl (fun i => s.2.mem (desc i) * s.2.mem (desc i)) 0, 0)⟩)
    else instrs lock n sched (squareActs n D :: warpInstrs D ++ [(fun _ : Nat => [ld1 (lut 0)] : Nat → List (Act Cell ℝ))]) s
  else if ceilDiv D n * n > n then instrs false n sched (squareActs n D :: blockInstrs n D ++ [(fun _ : Nat => [ld1 (lut 0)] : Nat → List (Act Cell ℝ))]) s
  else
    match halves n (n / 2) with
    | [] => s
    | k :: ks => sec n sched (fun _ => [ld1 (lut 0)])
        (ks.foldl (fun s k => sec n sched (halfActs k) s) (sec n sched (fun t => squareActs n D t ++ halfActs k t) s))

/-- The output of a thread, SC.cu:142-155; `norm`: divided by the root of the first register. -/
noncomputable def outActs (norm : Bool) (n D t : Nat) : List (Act Cell ℝ) :=
  ((List.range D).filter fun i => i % n == t).map fun i =>
    fun r m => (r, Function.update m (out i) (if norm then m (desc i) * (1 / Real.sqrt r.1) else m (desc i)))

/-- A block, SC.cu:30-156: `near` is the value of the distance mask, `N` the number of contour points. -/
noncomputable def block (lock norm near : Bool) (n D N : Nat) (v : ℝ) (bin : Nat → Option Nat) (sched : Nat → List Nat) (b : Block Cell ℝ) :
    Nat → Option ℝ :=
  let s := sec n sched (initActs n D v) (0, b)
  let s := if near then sec n sched (histActs n N bin) s else s
  let s := if norm then normSum lock n D sched s else s
  let s' := sec n sched (outActs norm n D) s
  fun i => if norm = true ∧ (s.2.regs (i % n)).1 = 0 then none else some (s'.2.mem (out i))

/-- Numbers of `float`s in shared memory: allocated, SC.cpp:191,542, and used, SC.cu:43,86,106. -/
def allocated (D : Nat) : Nat := ceilDiv D 32 * 32 * 2
def used (norm : Bool) (n D : Nat) : Nat :=
  if norm && !(decide (ceilDiv D n * n = 32) && decide (n = 32)) then 2 * (ceilDiv D n * n) else ceilDiv D n * n

/-- The launch: `none` if there are too many threads, shared memory is overrun, or an assertion of the kernel (SC.cu:123) fails. -/
noncomputable def launch (dbg lock norm near : Bool) (n D N : Nat) (v : ℝ) (bin : Nat → Option Nat) (sched : Nat → List Nat) (b : Block Cell ℝ) :
    Option (Nat → Option ℝ) :=
  if n ≤ 1024 ∧ used norm n D ≤ allocated D ∧ ¬ (dbg = true ∧ norm = true ∧ n ≠ 32 ∧ isPow2 n = false) then
    some (block lock norm near n D N v bin sched b)
  else none

/-- `__float2int_rn`: halves are rounded to even. -/
noncomputable def rint (x : ℝ) : Int :=
  if x - ⌊x⌋ < 1 / 2 then ⌊x⌋ else if 1 / 2 < x - ⌊x⌋ then ⌊x⌋ + 1 else if ⌊x⌋ % 2 = 0 then ⌊x⌋ else ⌊x⌋ + 1

/-- The bin of a contour point, SC.cu:72-77; `outer` is half of the size of the mask. -/
noncomputable def lookBin (m : LSS.Mask) (outer : Nat) (k p : ℂ) : Option Nat :=
  let row := rint (p.im - k.im) + outer
  let col := rint (p.re - k.re) + outer
  let n : Int := 2 * outer + 1
  if 0 ≤ row ∧ row < n ∧ 0 ≤ col ∧ col < n then
    if 0 ≤ m.cell (row * n + col).toNat then some (m.cell (row * n + col).toNat).toNat else none
  else none

/-- `setBlockSize`, SC.cpp:157-161, and the number of threads, SC.cpp:189,540. -/
def setBlockSize (n : Nat) : Option Nat := if n % 32 = 0 then some n else none
def threads (blockSize : Nat) : Nat := if blockSize = 0 then 32 else blockSize

/-- What the device does: schedules and initial memory of the block of each descriptor. -/
structure Exec where
  lock : Bool
  sched : Nat → Nat → Nat → List Nat
  mem : Nat → Nat → Block Cell ℝ

/-- The descriptor of the key point `k`, as for a row of `detectAndCompute`, SC.cu:55-60, or for the pixel of a map, SC.cu:50-54. -/
noncomputable def descriptor (dbg : Bool) (c : SC.Cfg) (outer : Nat) (kernel : Int → Int → Bool) (rows cols : Nat) (img : Int → Int → Bool)
    (contour : List ℂ) (n : Nat) (e : Exec) (i j : Nat) (k : ℂ) : Option (Nat → Option ℝ) :=
  (LSS.getLogPolarMask (outer * 2 + 1) c.R c.A true c.inner).bind fun m =>
    launch dbg e.lock c.normalize (!SC.farFrom kernel rows cols img (rint k.im) (rint k.re)) n (c.R * c.A) contour.length (SC.initVal c)
      (fun i => lookBin m outer k (contour.getD i 0)) (e.sched i j) (e.mem i j)

/-- The map of both forms of `compute2`, SC.cpp:163-194,236-237,260-261: the descriptors of all pixels, whatever the key points. -/
noncomputable def fillMap (dbg : Bool) (c : SC.Cfg) (outer : Nat) (kernel : Int → Int → Bool) (rows cols : Nat) (img : Int → Int → Bool)
    (contour : List ℂ) (n : Nat) (e : Exec) (r q : Nat) : Option (Nat → Option ℝ) :=
  descriptor dbg c outer kernel rows cols img contour n e r q ⟨(q : ℝ), (r : ℝ)⟩

end Litiv.CudaSC
