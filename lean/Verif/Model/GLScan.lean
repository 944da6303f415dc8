import Mathlib.Algebra.BigOperators.Group.Finset.Basic

/-!
# Model of the prefix sum and transpose compute shaders

Models the shaders generated by `getComputeShaderSource_ParallelPrefixSum`, `..._ParallelPrefixSum_BlockMerge` and
`..._Transpose` (modules/utils/src/opengl-shaders.cpp:578-677).

A work group runs its invocations concurrently between two `barrier()`s.  Every invocation is a list of atomic actions on
its registers and on the shared array; a schedule is any list of invocation numbers, one entry per action.  An access
outside of the shared array is undefined in GLSL and gives `none`.  Pixels have one component of any type with addition
(`uvec4` adds componentwise, with wrap-around); the binary mode masks the loaded values, which here are the `input`.
-/

namespace Litiv.GLScan

/-- The shared array `tmp`, or a row of an image. -/
abbrev Mem (α : Type) := Nat → α

/-- An atomic action on the two registers of an invocation and the shared array. -/
abbrev Act (α : Type) := α × α → Mem α → (α × α) × Mem α

/-- A work group between two barriers: shared array, registers and next action of each invocation. -/
structure Group (α : Type) where
  mem : Mem α
  regs : Nat → α × α
  pc : Nat → Nat

/-- Invocation `t` performs its next action, if any is left before the barrier. -/
def stepT {α : Type} (acts : Nat → List (Act α)) (g : Group α) (t : Nat) : Group α :=
  ((acts t)[g.pc t]?).elim g fun a =>
    let r := a (g.regs t) g.mem
    ⟨r.2, Function.update g.regs t r.1, Function.update g.pc t (g.pc t + 1)⟩

/-- The work between two barriers, in the order given by a schedule. -/
def phase {α : Type} [Zero α] (acts : Nat → List (Act α)) (sched : List Nat) (m : Mem α) : Mem α :=
  (sched.foldl (stepT acts) ⟨m, fun _ => (0, 0), fun _ => 0⟩).mem

/-- The loads of an invocation, opengl-shaders.cpp:599-600. -/
def loadActs {α : Type} (input : Nat → α) (t : Nat) : List (Act α) :=
  [fun r m => (r, Function.update m (t * 2) (input (t * 2))),
   fun r m => (r, Function.update m (t * 2 + 1) (input (t * 2 + 1)))]

/-- One level of the up-sweep, opengl-shaders.cpp:604-608. -/
def upActs {α : Type} [Add α] (offset depth t : Nat) : List (Act α) :=
  if t < depth then
    [fun r m => ((m (offset * (t * 2 + 1) - 1), r.2), m),
     fun r m => ((r.1, m (offset * (t * 2 + 2) - 1)), m),
     fun r m => (r, Function.update m (offset * (t * 2 + 2) - 1) (r.2 + r.1))]
  else []

/-- One level of the down-sweep, opengl-shaders.cpp:616-622; the first register is `swapsum`. -/
def downActs {α : Type} [Add α] (offset depth t : Nat) : List (Act α) :=
  if t < depth then
    [fun r m => ((m (offset * (t * 2 + 1) - 1), r.2), m),
     fun r m => ((r.1, m (offset * (t * 2 + 2) - 1)), m),
     fun r m => (r, Function.update m (offset * (t * 2 + 1) - 1) r.2),
     fun r m => ((r.1, m (offset * (t * 2 + 2) - 1)), m),
     fun r m => (r, Function.update m (offset * (t * 2 + 2) - 1) (r.2 + r.1))]
  else []

/-- The indices of a level are inside of the shared array (with `offset = 0` they wrap around below zero). -/
def inRange (n offset depth nInv : Nat) : Bool :=
  decide (∀ t < min depth nInv, 0 < offset ∧ offset * (t * 2 + 2) ≤ n)

/-- The up-sweep loop, opengl-shaders.cpp:601-610; `sched p` is the schedule of the `p`-th section between barriers.
Returns the shared array, the offset and the number of sections so far. -/
def upLoop {α : Type} [AddZeroClass α] (n nInv : Nat) (sched : Nat → List Nat) :
    Nat → Nat → Nat → Nat → Mem α → Option (Mem α × Nat × Nat)
  | 0, _, _, _, _ => none
  | fuel + 1, depth, offset, p, m =>
    if 0 < depth then
      if inRange n offset depth nInv then
        upLoop n nInv sched fuel (depth / 2) (offset * 2) (p + 1) (phase (upActs offset depth) (sched p) m)
      else none
    else some (m, offset, p)

/-- The down-sweep loop, opengl-shaders.cpp:613-623. -/
def downLoop {α : Type} [AddZeroClass α] (n nInv : Nat) (sched : Nat → List Nat) :
    Nat → Nat → Nat → Nat → Mem α → Option (Mem α)
  | 0, _, _, _, _ => none
  | fuel + 1, depth, offset, p, m =>
    if depth < n then
      if inRange n (offset / 2) depth nInv then
        downLoop n nInv sched fuel (depth * 2) (offset / 2) (p + 1) (phase (downActs (offset / 2) depth) (sched p) m)
      else none
    else some m

/-- A work group of the prefix sum shader on `n = nMaxRowSize` columns, opengl-shaders.cpp:578-629; the result is the
shared array which the invocations store.  The shader needs `nMaxRowSize>1` (line 581); `ceil((float)nMaxRowSize/2)`
(line 582) is exact for the sizes which fit the shared memory. -/
def groupScan {α : Type} [AddZeroClass α] (n : Nat) (input : Nat → α) (sched : Nat → List Nat) (m₀ : Mem α) :
    Option (Mem α) :=
  let nInv := (n + 1) / 2
  if 1 < n then
    if 2 * nInv ≤ n then do
      let m := phase (loadActs input) (sched 0) m₀
      let r ← upLoop n nInv sched (nInv + 1) nInv 1 1 m
      let m := Function.update r.1 (n - 1) 0
      downLoop n nInv sched (n + 1) 1 r.2.1 r.2.2 m
    else none
  else none

/-- `imageLoad` on a row of `w` columns. -/
def loadCol {α : Type} [Zero α] (w : Nat) (row : Mem α) (x : Nat) : α := if x < w then row x else 0

/-- `imageStore` on a row of `w` columns. -/
def storeCol {α : Type} (w : Nat) (row : Mem α) (x : Nat) (v : α) : Mem α := if x < w then Function.update row x v else row

/-- The prefix sum shader on one row, with `g` work groups (each covers its own `n` columns, so that their order is
irrelevant, also when input and output are the same image), opengl-shaders.cpp:599-600 and 625-626. -/
def rowScan {α : Type} [AddZeroClass α] (w n g : Nat) (input out : Mem α) (sched : Nat → Nat → List Nat) (m₀ : Mem α) :
    Option (Mem α) :=
  (List.range g).foldlM (fun out b => do
    let m ← groupScan n (fun x => loadCol w input (b * n + x)) (sched b) m₀
    return (List.range n).foldl (fun out x => storeCol w out (b * n + x) (m x)) out) out

/-- The block merge shader on one row, opengl-shaders.cpp:631-655 (one invocation per row). -/
def mergeRow {α : Type} [AddZeroClass α] (w n : Nat) (row : Mem α) : Mem α :=
  (List.range' 1 ((w + n - 1) / n - 1)).foldl (fun row b =>
    let last := loadCol w row (b * n - 1)
    (List.range n).foldl (fun row x => storeCol w row (b * n + x) (loadCol w row (b * n + x) + last)) row) row

/-- The number of work groups per row which the comment of the prefix sum shader asks for, opengl-shaders.cpp:579. -/
def documentedGroups (w n : Nat) : Nat := ((w + 1) / 2 + n - 1) / n

/-! ### Transpose -/

/-- An image: number of columns and rows, and pixels by column and row. -/
structure Img (α : Type) where
  cols : Nat
  rows : Nat
  at_ : Nat → Nat → α

/-- `imageLoad`: zero outside of the image. -/
def Img.load {α : Type} [Zero α] (m : Img α) (x y : Nat) : α := if x < m.cols ∧ y < m.rows then m.at_ x y else 0

/-- `imageStore`: nothing outside of the image. -/
def Img.store {α : Type} (m : Img α) (x y : Nat) (v : α) : Img α :=
  if x < m.cols ∧ y < m.rows then { m with at_ := Function.update m.at_ x (Function.update (m.at_ x) y v) } else m

/-- The shared tile of a work group after its loads, opengl-shaders.cpp:672: `tile ly lx`; `order` is the order of the
invocations `(lx,ly)`. -/
def loadTile {α : Type} [Zero α] (input : Img α) (bs gx gy : Nat) (order : List (Nat × Nat)) (tile : Nat → Nat → α) :
    Nat → Nat → α :=
  order.foldl (fun t p => Function.update t p.2 (Function.update (t p.2) p.1 (input.load (gx * bs + p.1) (gy * bs + p.2)))) tile

/-- The stores of a work group, opengl-shaders.cpp:674. -/
def storeTile {α : Type} (out : Img α) (bs gx gy : Nat) (order : List (Nat × Nat)) (tile : Nat → Nat → α) : Img α :=
  order.foldl (fun o p => o.store (gy * bs + p.2) (gx * bs + p.1) (tile p.2 p.1)) out

/-- The transpose shader, opengl-shaders.cpp:657-677, on the given work groups; `ord₁` and `ord₂` give the order of the
invocations before and after the barrier of each work group. -/
def transpose {α : Type} [Zero α] (bs : Nat) (input out : Img α) (groups : List (Nat × Nat))
    (ord₁ ord₂ : Nat × Nat → List (Nat × Nat)) (tile : Nat → Nat → α) : Img α :=
  groups.foldl (fun o g => storeTile o bs g.1 g.2 (ord₂ g) (loadTile input bs g.1 g.2 (ord₁ g) tile)) out

end Litiv.GLScan
