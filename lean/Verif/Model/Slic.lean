import Mathlib.Data.Nat.Sqrt
import Mathlib.Analysis.Real.Sqrt
import Mathlib.Analysis.SpecialFunctions.Log.Basic

/-!
# Superpixels: grid, kernels and iterations

Model of `modules/imgproc/src/SLIC.cpp:52-190` and `modules/imgproc/cuda/SLIC.cu:53-236`.

Simplifications, used throughout: arithmetic on `float` is exact real arithmetic (so the order in
which atomic additions of a kernel are executed changes no value), sizes are natural numbers that do
not overflow, allocations on the device succeed, `cv::cvtColor` to four channels keeps the three
given ones, and labels, which the code stores as `float`, are integers.  The grid of blocks and
threads is modelled as it is launched, and the atomic operations of the threads of a launch are
executed in an arbitrary order, given by a `Sched`.
-/
namespace Litiv.Slic

/-- `iDivUp`, `SLIC.cpp:52-54`; `none` is a division by zero. -/
def iDivUp (a b : Nat) : Option Nat :=
  if b = 0 then none else some (if a % b = 0 then a / b else a / b + 1)

/-- `SLIC::InitType`, `SLIC.hpp:57-60`. -/
inductive InitType where
  | size
  | nspx

/-- The sizes kept by `SLIC::initialize`: frame, diameter, superpixels per row and column, their
number; `SLIC.hpp:84-89`. -/
structure Geo where
  width : Nat
  height : Nat
  diam : Nat
  perRow : Nat
  perCol : Nat
  nbSpx : Nat

/-- The diameter, `SLIC.cpp:80-84`.  `(int)sqrt(a/b)` on real numbers is the integer square root of
the integer quotient (`init_count`); a count of zero converts an infinite value to `int`, which is
undefined (`none`). -/
def diamOf (nbPx arg : Nat) : InitType → Option Nat
  | .nspx => if arg = 0 then none else some (Nat.sqrt (nbPx / arg))
  | .size => some arg

/-- The sizes set by `SLIC::initialize`, `SLIC.cpp:73-88`; `none` is a division by zero. -/
def initialize' (width height arg : Nat) (t : InitType) : Option Geo :=
  (diamOf (width * height) arg t).bind fun d =>
  (iDivUp width d).bind fun pr =>
  (iDivUp height d).bind fun pc =>
  some ⟨width, height, d, pr, pc, pr * pc⟩

/-- Grid and block sizes of a launch (`lv::cuda::KernelParams`, used in `SLIC.cpp:149-189`). -/
structure Launch where
  gx : Nat
  gy : Nat
  gz : Nat
  bx : Nat
  by' : Nat

/-- The position of a thread: `blockIdx` and `threadIdx`, `SLIC.cu:74,171`. -/
structure Thread where
  ix : Nat
  iy : Nat
  iz : Nat
  tx : Nat
  ty : Nat
deriving DecidableEq

/-- All threads of a launch. -/
def Launch.threads (l : Launch) : List Thread :=
  (List.range l.gx).flatMap fun ix => (List.range l.gy).flatMap fun iy =>
  (List.range l.gz).flatMap fun iz => (List.range l.bx).flatMap fun tx =>
  (List.range l.by').map fun ty => ⟨ix, iy, iz, tx, ty⟩

/-- The launch of `kRgb2CIELab`, `SLIC.cpp:146-149`. -/
def labLaunch (g : Geo) : Option Launch :=
  (iDivUp g.width 16).bind fun a => (iDivUp g.height 16).bind fun b => some ⟨a, b, 1, 16, 16⟩

/-- The launch of `kInitClusters`, `SLIC.cpp:153-154`. -/
def initLaunch (g : Geo) : Option Launch :=
  (iDivUp g.nbSpx 16).bind fun a => some ⟨a, 1, 1, 16, 1⟩

/-- The launch of `kAssignment`, `SLIC.cpp:167-173`, for a device with at most `maxThr` threads per
block; `none` is a division by zero or a failed `CV_Assert`. -/
def assignLaunch (maxThr : Nat) (g : Geo) : Option Launch :=
  (iDivUp (g.diam * g.diam) maxThr).bind fun z =>
  if g.diam = 0 then none else
  let hMax := maxThr / g.diam
  if 3 ≤ g.diam ∧ 3 ≤ min g.diam hMax then some ⟨g.perRow, g.perCol, z, g.diam, min g.diam hMax⟩
  else none

/-- The launch of `kUpdate`, `SLIC.cpp:189`. -/
def updateLaunch (maxThr : Nat) (g : Geo) : Option Launch :=
  (iDivUp g.nbSpx maxThr).bind fun a => some ⟨a, 1, 1, maxThr, 1⟩

/-- A colour in the `Lab` space (`float3`). -/
structure Lab where
  l : ℝ
  a : ℝ
  b : ℝ

/-- The memory of the device, `SLIC.hpp:98-110`: the colours, the five rows of cluster values, the
labels and the six rows of accumulators.  A read or write out of bounds of `clusters` (`5*nbSpx`
values) or `acc` (`6*nbSpx` values) is undefined and not done on these functions. -/
structure Dev where
  lab : Nat → Nat → Lab
  clusters : Nat → ℝ
  labels : Nat → Nat → ℤ
  acc : Nat → ℝ

/-- `exp(log(v)/3.0f)`, `SLIC.cu:89,94,96`; the logarithm of zero is minus infinity, whose
exponential is zero. -/
noncomputable def cbrt (v : ℝ) : ℝ := if v = 0 then 0 else Real.exp (Real.log v / 3)

/-- The colour of a pixel with the given blue, green and red values, `SLIC.cu:80-105`. -/
noncomputable def toLab (b' g' r' : Nat) : Lab :=
  let b0 : ℝ := b' / 255
  let g0 : ℝ := g' / 255
  let r0 : ℝ := r' / 255
  let x := r0 * (412453 / 1000000) + g0 * (357580 / 1000000) + b0 * (180423 / 1000000)
  let y := r0 * (212671 / 1000000) + g0 * (715160 / 1000000) + b0 * (72169 / 1000000)
  let z := r0 * (19334 / 1000000) + g0 * (119193 / 1000000) + b0 * (950227 / 1000000)
  let x := x / (950456 / 1000000)
  let y3 := cbrt y
  let z := z / (1088754 / 1000000)
  let x := if x > 8856 / 1000000 then cbrt x else 7787 / 1000 * x + 13793 / 100000
  let y := if y > 8856 / 1000000 then y3 else 7787 / 1000 * y + 13793 / 100000
  let z := if z > 8856 / 1000000 then z / cbrt z else 7787 / 1000 * z + 13793 / 100000
  let l := if y > 8856 / 1000000 then 116 * y3 - 16 else 9033 / 10 * y
  ⟨l, (x - y) * 500, (y - z) * 200⟩

/-- One thread of `kRgb2CIELab`, `SLIC.cu:72-110`; `img x y` is the pixel in column `x` of row `y`. -/
noncomputable def labThread (l : Launch) (g : Geo) (img : Nat → Nat → Nat × Nat × Nat) (t : Thread) (dev : Dev) : Dev :=
  let px := t.ix * l.bx + t.tx
  let py := t.iy * l.by' + t.ty
  if px < g.width ∧ py < g.height then
    let p := img px py
    { dev with lab := fun x y => if x = px ∧ y = py then toLab p.1 p.2.1 p.2.2 else dev.lab x y }
  else dev

/-- One thread of `kInitClusters`, `SLIC.cu:112-132`.  The truncated minimum of real numbers in lines
121-122 is the minimum of the truncated ones, and half of the diameter is truncated with it. -/
def initThread (l : Launch) (g : Geo) (t : Thread) (dev : Dev) : Dev :=
  let k := t.ix * l.bx + t.tx
  let n := g.perCol * g.perRow
  if k < n then
    let i := k / g.perRow
    let j := k % g.perRow
    let x := min (j * g.diam + g.diam / 2) (g.width - 1)
    let y := min (i * g.diam + g.diam / 2) (g.height - 1)
    let color := dev.lab x y
    { dev with clusters := fun q =>
        if q = k + 4 * n then (y : ℝ) else if q = k + 3 * n then (x : ℝ)
        else if q = k + 2 * n then color.b else if q = k + n then color.a
        else if q = k then color.l else dev.clusters q }
  else dev

/-- A cell of the shared memory of a block: `sharedLab` and `sharedXY`, `SLIC.cu:137-138`. -/
structure Cell where
  lab : Lab
  x : ℝ
  y : ℝ

/-- What the thread with `threadIdx` `(tx, ty)` writes to the shared memory of its block,
`SLIC.cu:140-162`; an absent neighbour is marked by `-1`. -/
noncomputable def sharedCell (g : Geo) (clusters : Nat → ℝ) (ix iy tx ty : Nat) : Cell :=
  let nx : ℤ := (ix : ℤ) + ((tx : ℤ) - 1)
  let ny : ℤ := (iy : ℤ) + ((ty : ℤ) - 1)
  let lin : ℤ := ny * g.perRow + nx
  if nx < 0 ∨ nx ≥ g.perRow ∨ lin < 0 ∨ lin ≥ g.nbSpx then ⟨⟨0, 0, 0⟩, -1, 0⟩
  else
    let k := lin.toNat
    ⟨⟨clusters k, clusters (k + g.nbSpx), clusters (k + 2 * g.nbSpx)⟩,
      clusters (k + 3 * g.nbSpx), clusters (k + 4 * g.nbSpx)⟩

/-- `computeDistance`, `SLIC.cu:65-70`. -/
noncomputable def computeDistance (dx dy : ℝ) (dl : Lab) (area wc2 : ℝ) : ℝ :=
  let ds2 := dx ^ 2 + dy ^ 2
  let dc2 := dl.l ^ 2 + dl.a ^ 2 + dl.b ^ 2
  Real.sqrt (dc2 + ds2 / area * wc2)

open Classical in
/-- One step of the search for the nearest cluster, `SLIC.cu:179-197`: `best` holds `distanceMin` and
`labelMin`. -/
noncomputable def searchStep (l : Launch) (g : Geo) (wc2 : ℝ) (clusters : Nat → ℝ) (t : Thread) (px py : Nat) (color : Lab)
    (best : ℝ × ℤ) (ij : Nat × Nat) : ℝ × ℤ :=
  let c := sharedCell g clusters t.ix t.iy ij.2 ij.1
  if c.x ≠ -1 then
    let dist := min (computeDistance ((px : ℝ) - c.x) ((py : ℝ) - c.y)
      ⟨color.l - c.lab.l, color.a - c.lab.a, color.b - c.lab.b⟩ ((g.diam * g.diam : Nat) : ℝ) wc2) best.1
    if dist ≠ best.1 then (dist, ((t.iy : ℤ) + ((ij.1 : ℤ) - 1)) * l.gx + t.ix + ((ij.2 : ℤ) - 1))
    else best
  else best

/-- The nine neighbours in the order of the loops, `SLIC.cu:179,181`. -/
def neigh : List (Nat × Nat) :=
  [(0, 0), (0, 1), (0, 2), (1, 0), (1, 1), (1, 2), (2, 0), (2, 1), (2, 2)]

/-- The label found by a thread, `SLIC.cu:167-197`. -/
noncomputable def search (l : Launch) (g : Geo) (wc2 : ℝ) (clusters : Nat → ℝ) (t : Thread) (px py : Nat) (color : Lab) : ℤ :=
  (neigh.foldl (searchStep l g wc2 clusters t px py color) (100000, -1)).2

/-- The operations of a thread on memory that other threads use: writing a label and
`atomicAdd`, `SLIC.cu:199-207`. -/
inductive Act where
  | label (x y : Nat) (v : ℤ)
  | add (idx : ℤ) (v : ℝ)

/-- The column handled by a thread of `kAssignment`, `SLIC.cu:171`. -/
def pxOf (l : Launch) (t : Thread) : Nat := t.ix * l.bx + t.tx

/-- The row handled by a thread of `kAssignment`, `SLIC.cu:172`. -/
def pyOf (l : Launch) (t : Thread) : Nat := t.iy * l.by' * l.gz + t.iz * l.by' + t.ty

/-- The operations of one thread of `kAssignment`, `SLIC.cu:171-208`.  What it reads (colours,
clusters and, after the barrier, the shared cells) is not changed during the launch. -/
noncomputable def assignActs (l : Launch) (g : Geo) (wc2 : ℝ) (dev : Dev) (t : Thread) : List Act :=
  let px := pxOf l t
  let py := pyOf l t
  if py < g.height ∧ px < g.width then
    let color := dev.lab px py
    let k := search l g wc2 dev.clusters t px py color
    [.label px py k, .add k color.l, .add (k + g.nbSpx) color.a, .add (k + 2 * g.nbSpx) color.b,
      .add (k + 3 * g.nbSpx) px, .add (k + 4 * g.nbSpx) py, .add (k + 5 * g.nbSpx) 1]
  else []

/-- Execution of one operation; `none` is an access out of the bounds of the accumulators. -/
noncomputable def runAct (g : Geo) (dev : Dev) : Act → Option Dev
  | .label x y v => some { dev with labels := fun x' y' => if x' = x ∧ y' = y then v else dev.labels x' y' }
  | .add i v =>
    if 0 ≤ i ∧ i < 6 * (g.nbSpx : ℤ) then
      some { dev with acc := fun q => if q = i.toNat then dev.acc q + v else dev.acc q }
    else none

/-- Execution of operations one after the other. -/
noncomputable def runActs (g : Geo) : List Act → Dev → Option Dev
  | [], dev => some dev
  | a :: as, dev => (runAct g dev a).bind (runActs g as)

/-- One thread of `kUpdate`, `SLIC.cu:211-236`. -/
noncomputable def updateThread (l : Launch) (g : Geo) (t : Thread) (dev : Dev) : Dev :=
  let k := t.ix * l.bx + t.tx
  let n := g.nbSpx
  if k < n then
    let counter := dev.acc (k + n * 5)
    open Classical in
    if counter ≠ 0 then
      { dev with
        clusters := fun q =>
          if q = k + n * 4 then dev.acc (k + n * 4) / counter
          else if q = k + n * 3 then dev.acc (k + n * 3) / counter
          else if q = k + n * 2 then dev.acc (k + n * 2) / counter
          else if q = k + n then dev.acc (k + n) / counter
          else if q = k then dev.acc k / counter else dev.clusters q
        acc := fun q =>
          if q = k ∨ q = k + n ∨ q = k + n * 2 ∨ q = k + n * 3 ∨ q = k + n * 4 ∨ q = k + n * 5 then 0
          else dev.acc q }
    else dev
  else dev

/-- The order in which the operations and threads of the launches are executed.  Threads of
`kRgb2CIELab`, `kInitClusters` and `kUpdate` share no memory and are executed one by one. -/
structure Sched where
  acts : List Act → List Act
  acts_perm : ∀ l, (acts l).Perm l
  thr : List Thread → List Thread
  thr_perm : ∀ l, (thr l).Perm l

/-- `SLIC::assignment`, `SLIC.cpp:166-186`. -/
noncomputable def assignment (s : Sched) (maxThr : Nat) (g : Geo) (wc : ℝ) (dev : Dev) : Option Dev :=
  (assignLaunch maxThr g).bind fun l =>
  let wc2 := wc * wc
  runActs g (s.acts (l.threads.flatMap (assignActs l g wc2 dev))) dev

/-- `SLIC::update`, `SLIC.cpp:188-190`. -/
noncomputable def update (s : Sched) (maxThr : Nat) (g : Geo) (dev : Dev) : Option Dev :=
  (updateLaunch maxThr g).bind fun l =>
  some ((s.thr l.threads).foldl (fun d t => updateThread l g t d) dev)

/-- The iterations of `SLIC::segment`, `SLIC.cpp:157-162`; iteration `i` is executed in the orders
`s (2*i)` and `s (2*i+1)`. -/
noncomputable def iterate (s : Nat → Sched) (maxThr : Nat) (g : Geo) (wc : ℝ) : Nat → Nat → Dev → Option Dev
  | _, 0, dev => some dev
  | i, m + 1, dev =>
    (assignment (s (2 * i)) maxThr g wc dev).bind fun dev =>
    (update (s (2 * i + 1)) maxThr g dev).bind fun dev =>
    iterate s maxThr g wc (i + 1) m dev

/-- The two kernels before the iterations, `SLIC.cpp:145-156`. -/
noncomputable def prepare (s : Sched) (g : Geo) (img : Nat → Nat → Nat × Nat × Nat) (dev : Dev) : Option Dev :=
  (labLaunch g).bind fun l =>
  let dev := (s.thr l.threads).foldl (fun d t => labThread l g img t d) dev
  (initLaunch g).bind fun l =>
  some ((s.thr l.threads).foldl (fun d t => initThread l g t d) dev)

/-- `SLIC::segment`, `SLIC.cpp:139-164`.  The labels of the result are copied to the host. -/
noncomputable def segment (s₀ : Sched) (s : Nat → Sched) (maxThr : Nat) (g : Geo) (wc : ℝ) (nbIteration : Nat)
    (img : Nat → Nat → Nat × Nat × Nat) (dev : Dev) : Option Dev :=
  (prepare s₀ g img dev).bind fun dev => iterate s maxThr g wc 0 nbIteration dev

/-- The memory after `SLIC::initialize`, `SLIC.cpp:133-136`: clusters and accumulators are zero, the
arrays of colours and labels are not initialized. -/
def fresh (lab : Nat → Nat → Lab) (labels : Nat → Nat → ℤ) : Dev := ⟨lab, fun _ => 0, labels, fun _ => 0⟩

end Litiv.Slic
