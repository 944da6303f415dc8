/-!
# Model of `lv::AutoBuffer` (modules/utils/include/litiv/utils/cxx.hpp:722-817, 1101-1375)

Memory is modelled explicitly: every buffer object has an inline static array, and may own one heap block. The current
storage is designated by a pointer (`m_pBufferPtr`) that is independent of the ownership, as in the code, so that
aliasing, dangling pointers, double frees and leaks can be expressed.

An operation returns `none` when it would have undefined behaviour (access outside a block or to a freed block, double
free). A memory cell is `none` when it has not been written.

Simplifications: allocation always succeeds; sizes are natural numbers (no `size_t` wrap-around); element copy and move
are the same; `clear` and `resize(0)` do not destroy elements individually.
-/

namespace Litiv.AutoBuffer

/-- A memory cell of element type; `none`: never written. -/
abbrev Cell (α : Type) := Option α

/-- The value of `m_pBufferPtr`: the static array of object `i`, or heap block `k`. -/
inductive Loc where
  | stat (i : Nat)
  | heap (k : Nat)
deriving DecidableEq, Repr

/-- The members of an `AutoBuffer`, `cxx.hpp:800-813`. -/
structure Obj (α : Type) where
  /-- template parameter `nStaticSize` -/
  ns : Nat
  /-- `m_aStaticBuffer` -/
  stat : List (Cell α)
  /-- `m_aDynamicBuffer` (null or an owned heap block) -/
  dyn : Option Nat
  /-- `m_pBufferPtr` -/
  ptr : Loc
  /-- `m_nBufferSize` -/
  cap : Nat
  /-- `m_nUsedBufferSize` -/
  used : Nat

/-- All buffer objects and the heap. -/
structure World (α : Type) where
  obj : Nat → Option (Obj α)
  heap : Nat → Option (List (Cell α))
  /-- the next heap block identifier -/
  next : Nat

/-- Nothing constructed, nothing allocated. -/
def World.empty {α : Type} : World α := { obj := fun _ => none, heap := fun _ => none, next := 0 }

/-- Functional update. -/
def upd {β : Type} (f : Nat → β) (i : Nat) (b : β) : Nat → β := fun k => if k = i then b else f k

variable {α : Type}

/-- The memory block a pointer designates. -/
def World.block (w : World α) : Loc → Option (List (Cell α))
  | .stat i => (w.obj i).map (·.stat)
  | .heap k => w.heap k

/-- Replace the contents of a block. -/
def World.setBlock (w : World α) (l : Loc) (b : List (Cell α)) : World α :=
  match l with
  | .stat i => { w with obj := upd w.obj i ((w.obj i).map fun o => { o with stat := b }) }
  | .heap k => { w with heap := upd w.heap k (some b) }

/-- Replace the members of object `i`. -/
def World.setObj (w : World α) (i : Nat) (o : Obj α) : World α := { w with obj := upd w.obj i (some o) }

/-- `Allocator::allocate(n)`, `cxx.hpp:619-699`: a fresh block with unwritten cells. -/
def World.alloc (w : World α) (n : Nat) : World α :=
  { w with heap := upd w.heap w.next (some (List.replicate n none)), next := w.next + 1 }

/-- Release of an owned block (`deallocate2`); undefined when it is not allocated. -/
def World.free (w : World α) : Option Nat → Option (World α)
  | none => some w
  | some k =>
    match w.heap k with
    | none => none
    | some _ => some { w with heap := upd w.heap k none }

/-- `std::copy_n(src, n, dst)`. -/
def World.copyN (w : World α) (src : Loc) (n : Nat) (dst : Loc) : Option (World α) := do
  let b ← w.block src
  let d ← w.block dst
  if n ≤ b.length ∧ n ≤ d.length then some (w.setBlock dst (b.take n ++ d.drop n)) else none

/-- `m_pBufferPtr[idx] = v`. -/
def World.store (w : World α) (l : Loc) (idx : Nat) (v : Cell α) : Option (World α) := do
  let b ← w.block l
  if idx < b.length then some (w.setBlock l (b.set idx v)) else none

/-- `m_pBufferPtr[idx]`, `operator[]`, `cxx.hpp:1228-1240`. -/
def World.load (w : World α) (l : Loc) (idx : Nat) : Option (Cell α) := do
  let b ← w.block l
  b[idx]?

/-- Default constructor, `cxx.hpp:1101-1113`. -/
def construct (w : World α) (i ns n : Nat) : Option (World α) :=
  if n ≤ ns then
    some (w.setObj i { ns, stat := List.replicate ns none, dyn := none, ptr := .stat i, cap := ns, used := n })
  else
    some ((w.alloc n).setObj i
      { ns, stat := List.replicate ns none, dyn := some w.next, ptr := .heap w.next, cap := n, used := n })

/-- Implicit destructor: the `unique_ptr` releases its block. -/
def destroy (w : World α) (i : Nat) : Option (World α) := do
  let o ← w.obj i
  let w ← w.free o.dyn
  some { w with obj := upd w.obj i none }

/-- `m_aDynamicBuffer = nullptr; m_pBufferPtr = m_aStaticBuffer.data(); m_nBufferSize = m_aStaticBuffer.size();`
(`cxx.hpp:1162-1164`, `1194-1196`, `1314-1316`, `1330-1332`), then the used size is set to `n`. -/
def toStatic (w : World α) (i n : Nat) : Option (World α) := do
  let o ← w.obj i
  let w ← w.free o.dyn
  some (w.setObj i { o with dyn := none, ptr := .stat i, cap := o.ns, used := n })

/-- Fresh heap block of `n` cells that receives the first `m_nUsedBufferSize` elements and replaces the owned block
(`cxx.hpp:1291-1296`, `1319-1324`). -/
def grow (w : World α) (i n : Nat) : Option (World α) := do
  let o ← w.obj i
  let k := w.next
  let w ← (w.alloc n).copyN o.ptr o.used (.heap k)
  let w ← w.free o.dyn
  some (w.setObj i { o with dyn := some k, ptr := .heap k, cap := n })

/-- `reserve`, `cxx.hpp:1286-1298`. -/
def reserve (w : World α) (i n : Nat) : Option (World α) := do
  let o ← w.obj i
  if n > o.cap then grow w i n else some w

/-- `resize_static`, `cxx.hpp:1300-1310`. -/
def resizeStatic (w : World α) (i : Nat) : Option (World α) := do
  let o ← w.obj i
  if o.dyn.map Loc.heap = some o.ptr then
    let n := min o.used o.ns
    let w ← w.copyN o.ptr n (.stat i)
    let w ← toStatic w i n
    let o ← w.obj i
    some (w.setObj i { o with used := o.cap })
  else some (w.setObj i { o with used := o.cap })

/-- `resize`, `cxx.hpp:1312-1327`. -/
def resize (w : World α) (i n : Nat) : Option (World α) := do
  let o ← w.obj i
  if n = 0 then toStatic w i 0
  else if n > o.cap then do
    let w ← grow w i n
    let o ← w.obj i
    some (w.setObj i { o with used := n })
  else some (w.setObj i { o with used := n })

/-- `clear`, `cxx.hpp:1329-1335`. -/
def clear (w : World α) (i : Nat) : Option (World α) := toStatic w i 0

/-- Common part of both `push_back` overloads, `cxx.hpp:1337-1358`: the growth. -/
def pushGrow (w : World α) (i : Nat) : Option (World α) := do
  let o ← w.obj i
  if o.used = o.cap then reserve w i (o.cap * 2) else some w

/-- Common part of both `push_back` overloads: store and count. -/
def pushStore (w : World α) (i : Nat) (v : Cell α) : Option (World α) := do
  let o ← w.obj i
  let w ← w.store o.ptr o.used v
  let o ← w.obj i
  some (w.setObj i { o with used := o.used + 1 })

/-- `push_back(o)` where `o` does not live in this buffer, `cxx.hpp:1337-1358`. -/
def pushBack (w : World α) (i : Nat) (v : α) : Option (World α) := do
  let w ← pushGrow w i
  pushStore w i (some v)

/-- `push_back((*this)[j])`: the argument is a reference into this buffer's storage, read after the growth. -/
def pushBackRef (w : World α) (i j : Nat) : Option (World α) := do
  let o ← w.obj i
  let ref := o.ptr
  let w ← pushGrow w i
  let v ← w.load ref j
  pushStore w i v

/-- `(*this)[idx] = v`, `cxx.hpp:1226-1240`. -/
def write (w : World α) (i idx : Nat) (v : α) : Option (World α) := do
  let o ← w.obj i
  w.store o.ptr idx (some v)

/-- Choice of the storage for `n` elements, `cxx.hpp:1160-1171`, `1192-1203`: the static array if it is large enough,
else the owned block if it is large enough, else a new block. (The constructors, `cxx.hpp:1117-1127`, `1143-1152`, start
without an owned block.) -/
def storageFor (w : World α) (i n : Nat) : Option (World α) := do
  let o ← w.obj i
  if n ≤ o.ns then toStatic w i n
  else if o.dyn.map Loc.heap ≠ some o.ptr ∨ o.cap < n then do
    let w' ← (w.alloc n).free o.dyn
    some (w'.setObj i { o with dyn := some w.next, ptr := .heap w.next, cap := n, used := n })
  else some (w.setObj i { o with used := n })

/-- The copying branch shared by the copy constructor (`cxx.hpp:1117-1129`), the static branch of the move constructor
(`1143-1154`), the copy assignment (`1159-1177`) and the static branch of the move assignment (`1191-1206`): storage for
`o.size()` elements is chosen, then the elements are copied from object `j`. -/
def copyInto (w : World α) (i j : Nat) : Option (World α) := do
  let oj ← w.obj j
  let w ← storageFor w i oj.used
  let o ← w.obj i
  w.copyN oj.ptr oj.used o.ptr

/-- Copy assignment from a buffer with another `nStaticSize`, `cxx.hpp:1157-1177`. (`this != &o` because the types
differ.) -/
def copyAssign (w : World α) (i j : Nat) : Option (World α) := copyInto w i j

/-- Copy constructor from a buffer with another `nStaticSize`, `cxx.hpp:1115-1129`: all members default, then the
branch above. -/
def copyConstruct (w : World α) (i ns j : Nat) : Option (World α) := do
  let w ← construct w i ns 0
  copyInto w i j

/-- The stealing branch of move assignment and move construction, `cxx.hpp:1134-1142`, `1182-1190`. -/
def steal (w : World α) (i j : Nat) : Option (World α) := do
  let o ← w.obj i
  let w ← w.free o.dyn
  let oj ← w.obj j
  let w := w.setObj i { o with dyn := oj.dyn, ptr := oj.ptr, cap := oj.cap, used := oj.used }
  some (w.setObj j { oj with dyn := none, ptr := .stat j, cap := oj.ns, used := 0 })

/-- Move assignment from a buffer with another `nStaticSize`, `cxx.hpp:1179-1208`. -/
def moveAssign (w : World α) (i j : Nat) : Option (World α) := do
  let oj ← w.obj j
  if oj.dyn.map Loc.heap = some oj.ptr then steal w i j else copyInto w i j

/-- Move construction from a buffer with another `nStaticSize`, `cxx.hpp:1131-1155`. -/
def moveConstruct (w : World α) (i ns j : Nat) : Option (World α) := do
  let w ← construct w i ns 0
  moveAssign w i j

/-- Move assignment between buffers of the same type. The declared operators are templates, hence not the special member
functions; since no copy operation or destructor is user-declared, the compiler generates a memberwise move: the array
is copied, the `unique_ptr` moved, and `m_pBufferPtr` and the sizes are copied as plain values. -/
def implicitMoveAssign (w : World α) (i j : Nat) : Option (World α) := do
  let o ← w.obj i
  let oj ← w.obj j
  let w ← w.free o.dyn
  let w := w.setObj i { o with stat := oj.stat, dyn := oj.dyn, ptr := oj.ptr, cap := oj.cap, used := oj.used }
  some (w.setObj j { oj with dyn := none })

/-- Operations on a set of buffers named by numbers. -/
inductive Op (α : Type) where
  | construct (i ns n : Nat)
  | destroy (i : Nat)
  | resize (i n : Nat)
  | reserve (i n : Nat)
  | resizeStatic (i : Nat)
  | clear (i : Nat)
  | pushBack (i : Nat) (v : α)
  | write (i idx : Nat) (v : α)
  | copyConstruct (i ns j : Nat)
  | moveConstruct (i ns j : Nat)
  | copyAssign (i j : Nat)
  | moveAssign (i j : Nat)

/-- One operation. -/
def step (w : World α) : Op α → Option (World α)
  | .construct i ns n => AutoBuffer.construct w i ns n
  | .destroy i => AutoBuffer.destroy w i
  | .resize i n => AutoBuffer.resize w i n
  | .reserve i n => AutoBuffer.reserve w i n
  | .resizeStatic i => AutoBuffer.resizeStatic w i
  | .clear i => AutoBuffer.clear w i
  | .pushBack i v => AutoBuffer.pushBack w i v
  | .write i idx v => AutoBuffer.write w i idx v
  | .copyConstruct i ns j => AutoBuffer.copyConstruct w i ns j
  | .moveConstruct i ns j => AutoBuffer.moveConstruct w i ns j
  | .copyAssign i j => AutoBuffer.copyAssign w i j
  | .moveAssign i j => AutoBuffer.moveAssign w i j

/-- A history of operations. -/
def exec (w : World α) : List (Op α) → Option (World α)
  | [] => some w
  | op :: ops => (step w op).bind fun w' => exec w' ops

/-- `size()`, `cxx.hpp:1270-1273`. -/
def size (w : World α) (i : Nat) : Option Nat := (w.obj i).map (·.used)

/-- `capacity()`, `cxx.hpp:1280-1283`. -/
def capacity (w : World α) (i : Nat) : Option Nat := (w.obj i).map (·.cap)

/-- `operator[]` as a read, `cxx.hpp:1226-1240`. -/
def get (w : World α) (i idx : Nat) : Option (Cell α) := (w.obj i).bind fun o => w.load o.ptr idx

/-- `at(nPosIdx)` with a signed index type of `b` bits, `cxx.hpp:1210-1224`: the size is converted to the index type
and compared; the access uses the index as a pointer offset. `none`: the assertion throws; `some none`: undefined
behaviour; `some (some c)`: the cell read. The offset is relative to a block, so a negative one is outside. -/
def atSigned (w : World α) (i : Nat) {b : Nat} (idx : BitVec b) : Option (Option (Cell α)) :=
  match w.obj i with
  | none => some none
  | some o =>
    if idx.toInt < (BitVec.ofNat b o.used).toInt then
      some (if idx.toInt < 0 then none else w.load o.ptr idx.toInt.toNat)
    else none

/-- `at(nPosIdx)` with an unsigned index type of `b` bits. -/
def atUnsigned (w : World α) (i : Nat) {b : Nat} (idx : BitVec b) : Option (Option (Cell α)) :=
  match w.obj i with
  | none => some none
  | some o =>
    if idx.toNat < (BitVec.ofNat b o.used).toNat then some (w.load o.ptr idx.toNat) else none

end Litiv.AutoBuffer
