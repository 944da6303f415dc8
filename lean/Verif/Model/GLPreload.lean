import Mathlib.Data.Fin.VecNotation
import Mathlib.Algebra.Order.Group.Int
import Mathlib.Data.Fintype.Basic

/-!
# Model of the shared memory preloading, median blur and neighbour functions of the shader generators

Models `getComputeShaderFunctionSource_SharedDataPreLoad`, `..._BinaryMedianBlur` and `getShaderFunctionSource_getRandNeighbor3x3`
(modules/utils/src/opengl-shaders.cpp:679-797) and the post-processing stage of the GPU LOBSTER
(modules/video/src/BackgroundSubtractorLOBSTER.cpp:279-305).

An image is any function of the coordinates (`imageLoad` gives zero outside of it).  Cells of the shared array are named
by their position relative to the first pixel of the work group: `(x,y)` is `avPreloadData[y+b][x+b]`.  Invocations
run concurrently; a schedule is any list of invocations, one entry per atomic increment or per copied pixel.
-/

namespace Litiv.GLPreload

abbrev Cell := Int × Int

/-- A work group: its size, the size of the external border and the values `int(x*fVar)` for its columns (a truncated
product of floats, opengl-shaders.cpp:690). -/
structure Shape where
  w : Nat
  h : Nat
  b : Nat
  t : Nat → Nat

/-- The quadrant of an invocation, opengl-shaders.cpp:695-722; the unsigned difference `h-int(fVar*x)` does not wrap
since `int(fVar*x) ≤ h`. -/
def quad (g : Shape) (i : Nat × Nat) : Fin 4 :=
  if g.t i.1 > i.2 ∧ g.h - g.t i.1 ≤ i.2 then 1
  else if g.t i.1 < i.2 ∧ g.h - g.t i.1 ≥ i.2 then 2
  else if g.t i.1 ≥ i.2 ∧ g.h - g.t i.1 > i.2 then 0
  else 3

/-- `nQuadExtRowLength`, opengl-shaders.cpp:697, 704, 711, 718. -/
def rowLen (g : Shape) (q : Fin 4) : Nat := ![g.w + g.b, g.h + g.b, g.h + g.b, g.w + g.b] q

/-- `vQuadExtStartCoord` relative to the work group, opengl-shaders.cpp:698, 705, 712, 719. -/
def start (g : Shape) (q : Fin 4) : Cell :=
  let w : Int := g.w
  let h : Int := g.h
  let b : Int := g.b
  (![(-b, -b), (w + b - 1, -b), (-b, h + b - 1), (w + b - 1, h + b - 1)] : Fin 4 → Cell) q

/-- `vQuadExtVarRowLength`, opengl-shaders.cpp:699, 706, 713, 720. -/
def along (q : Fin 4) : Cell := ![(1, 0), (0, 1), (0, -1), (-1, 0)] q

/-- `vQuadExtVarRow`, opengl-shaders.cpp:700, 707, 714, 721. -/
def across (q : Fin 4) : Cell := ![(0, 1), (-1, 0), (1, 0), (0, -1)] q

/-- `vCurrQuadExtCoord` of a ticket, opengl-shaders.cpp:727-728 (`mod` is exact here). -/
def cell (g : Shape) (q : Fin 4) (k : Nat) : Cell :=
  ((start g q).1 + (across q).1 * (k / rowLen g q : Nat) + (along q).1 * (k % rowLen g q : Nat),
   (start g q).2 + (across q).2 * (k / rowLen g q : Nat) + (along q).2 * (k % rowLen g q : Nat))

/-- Where an invocation is in the loop: before `atomicAdd`, before copying the pixel of its ticket, or out of the loop. -/
inductive Pc where
  | fetch
  | copy (k : Nat)
  | done
deriving DecidableEq

/-- The shared arrays and the invocations. -/
structure St (α : Type) where
  data : Cell → α
  count : Fin 4 → Nat
  pc : Nat × Nat → Pc

/-- After the first barrier: every invocation copied its own pixel and cleared the counter of its quadrant,
opengl-shaders.cpp:691, 723-724; `d₀` and `c₀` are the contents of the shared arrays before. -/
def enter {α : Type} (g : Shape) (img : Int → Int → α) (o : Cell) (d₀ : Cell → α) (c₀ : Fin 4 → Nat) : St α where
  data := fun p => if 0 ≤ p.1 ∧ p.1 < g.w ∧ 0 ≤ p.2 ∧ p.2 < g.h then img (o.1 + p.1) (o.2 + p.2) else d₀ p
  count := fun q => if ∃ x < g.w, ∃ y < g.h, quad g (x, y) = q then 0 else c₀ q
  pc := fun _ => .fetch

/-- One step of an invocation in the loop, opengl-shaders.cpp:725-731. -/
def step {α : Type} (g : Shape) (img : Int → Int → α) (o : Cell) (s : St α) (i : Nat × Nat) : St α :=
  let q := quad g i
  match s.pc i with
  | .fetch => { s with
      count := Function.update s.count q (s.count q + 1)
      pc := Function.update s.pc i (if s.count q < rowLen g q * g.b then .copy (s.count q) else .done) }
  | .copy k => { s with
      data := Function.update s.data (cell g q k) (img (o.1 + (cell g q k).1) (o.2 + (cell g q k).2))
      pc := Function.update s.pc i .fetch }
  | .done => s

/-- `preload_data` of all invocations of a work group whose first pixel is `o`, in the order of a schedule. -/
def preload {α : Type} (g : Shape) (img : Int → Int → α) (o : Cell) (d₀ : Cell → α) (c₀ : Fin 4 → Nat)
    (sched : List (Nat × Nat)) : St α :=
  sched.foldl (step g img o) (enter g img o d₀ c₀)

/-! ### Median blur -/

/-- The offsets of the two nested loops over the kernel, opengl-shaders.cpp:747-748. -/
def kernelOffsets (n : Nat) : List (Int × Int) :=
  let r : Nat := n / 2
  ((List.range (2 * r + 1)).map fun (y : Nat) => (List.range (2 * r + 1)).map fun (x : Nat) => ((x : Int) - (r : Int), (y : Int) - (r : Int))).flatten

/-- The majority decision over a window, opengl-shaders.cpp:746-751. -/
def blurOf (n : Nat) (px : Int → Int → Nat) : Nat :=
  let cnt := (kernelOffsets n).foldl (fun c d => c + if px d.1 d.2 > 128 then 1 else 0) 0
  if cnt > n * n / 2 then 255 else 0

/-- `BinaryMedianBlur(mData,vCoords)`, opengl-shaders.cpp:742-752. -/
def directBlur (n : Nat) (img : Int → Int → Nat) (v : Cell) : Nat := blurOf n fun dx dy => img (v.1 + dx) (v.2 + dy)

/-- `BinaryMedianBlur(vCoords)` with preloaded data, opengl-shaders.cpp:753-765, of the invocation at local position `l`
and global position `gl`. -/
def sharedBlur (n : Nat) (data : Cell → Nat) (gl l v : Cell) : Nat :=
  blurOf n fun dx dy => data (v.1 - gl.1 + l.1 + dx, v.2 - gl.2 + l.2 + dy)

/-! ### In-place post-processing, BackgroundSubtractorLOBSTER.cpp:279-305 -/

/-- What a work group does with the output image: preload its window, or store its filtered pixels. -/
inductive Ev where
  | load (gx gy : Nat)
  | store (gx gy : Nat)
deriving DecidableEq

/-- The output image and the preloaded windows of the work groups (as images). -/
structure Post where
  img : Int → Int → Nat
  win : Nat × Nat → Int → Int → Nat

/-- One event; the work groups have `w`x`h` pixels and the frame `fw`x`fh` (stores outside of it are dropped). -/
def postStep (n w h fw fh : Nat) (s : Post) : Ev → Post
  | .load gx gy => { s with win := Function.update s.win (gx, gy) s.img }
  | .store gx gy => { s with
      img := fun x y =>
        if gx * w ≤ x ∧ x < gx * w + w ∧ gy * h ≤ y ∧ y < gy * h + h ∧ x < fw ∧ y < fh then
          directBlur n (s.win (gx, gy)) (x, y)
        else s.img x y }

/-- The post-processing stage with the events of its work groups in a given order. -/
def postProc (n w h fw fh : Nat) (img : Int → Int → Nat) (evs : List Ev) : Int → Int → Nat :=
  (evs.foldl (postStep n w h fw fh) ⟨img, fun _ _ _ => 0⟩).img

/-! ### Random neighbours -/

/-- `_avNeighborPattern3x3`, opengl-shaders.cpp:771-775. -/
def pattern3x3 : Fin 8 → Cell := ![(-1, 1), (0, 1), (1, 1), (-1, 0), (1, 0), (-1, -1), (0, -1), (1, -1)]

/-- `getRandNeighbor3x3`, opengl-shaders.cpp:769-795: the result of `clamp` is not used. -/
def randNeighbor (_nBorderSize _fw _fh : Nat) (pos : Cell) (r : BitVec 32) : Cell :=
  (pos.1 + (pattern3x3 ⟨r.toNat % 8, Nat.mod_lt _ (by decide)⟩).1, pos.2 + (pattern3x3 ⟨r.toNat % 8, Nat.mod_lt _ (by decide)⟩).2)

end Litiv.GLPreload
