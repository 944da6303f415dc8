import Mathlib.Data.List.Basic
import Mathlib.Data.Rat.Defs
import Mathlib.Algebra.Order.Field.Rat

/-!
# Matrix views

Model of the helpers working on n-dimensional matrix headers in
modules/utils/include/litiv/utils/opencv.hpp: `getBasicMat` (605-616), `getSubMat` (618-636),
`squeeze` (699-736), `concat` (814-836), `isEqual` (1127-1141) and `isNearlyEqual` (1143-1162).

A matrix header (`cv::Mat`) is a base address, an element size and a list of dimensions with
their sizes and steps, over a shared memory.  Addresses and steps are counted in units: bytes
for `isEqual`, values of one channel otherwise.  `cv::Mat` members are modelled by their
documented behaviour.
-/

namespace Litiv.Views

/-- a `cv::Mat` header -/
structure Mat where
  base : Nat
  /-- element size in units -/
  esz : Nat
  /-- size and step of each dimension -/
  dims : List (Nat × Nat)
  deriving DecidableEq, Repr

/-- the sizes -/
def Mat.sizes (m : Mat) : List Nat := m.dims.map Prod.fst

/-- `cv::Mat::total` -/
def Mat.total (m : Mat) : Nat := if m.dims = [] then 0 else m.sizes.prod

/-- offsets of all elements in row-major order, as visited by the matrix iterators -/
def offsets : List (Nat × Nat) → List Nat
  | [] => [0]
  | (n, s) :: ds => (List.range n).flatMap (fun i => (offsets ds).map (fun o => i * s + o))

/-- the elements in row-major order, each a list of units; `copyTo` and the iterators visit
them like this -/
def Mat.elems {β : Type} (mem : Nat → β) (m : Mat) : List (List β) :=
  if m.dims = [] then []
  else (offsets m.dims).map (fun o => (List.range m.esz).map (fun c => mem (m.base + o + c)))

/-- `isContinuous` (OpenCV's `updateContinuousFlag`): leading dimensions of size one are ignored,
then every dimension must fill the step of the previous one -/
def contFrom : List (Nat × Nat) → Bool
  | [] => true
  | [_] => true
  | (_, s0) :: (n1, s1) :: ds => decide (s0 ≤ s1 * n1) && contFrom ((n1, s1) :: ds)

/-- leading singleton dimensions are skipped -/
def cont : List (Nat × Nat) → Bool
  | [] => true
  | (n, s) :: ds => if n ≤ 1 then cont ds else contFrom ((n, s) :: ds)

/-- dimensions of a continuous matrix with the given sizes: `setSize` without steps -/
def packed (esz : Nat) : List Nat → List (Nat × Nat)
  | [] => []
  | n :: ns => (n, ns.prod * esz) :: packed esz ns

/-- dimensions of a user-allocated header: `setSize` with steps, which ignores the last step -/
def header (esz : Nat) : List (Nat × Nat) → List (Nat × Nat)
  | [] => []
  | [(n, _)] => [(n, esz)]
  | d :: ds => d :: header esz ds

/-- `getBasicMat<T>` (opencv.hpp 605-616), in units of one channel value: the channels become the
last dimension of a header without steps -/
def getBasicMat (m : Mat) : Mat :=
  if m.esz = 1 then ⟨m.base, 1, packed 1 m.sizes⟩
  else ⟨m.base, 1, packed 1 (m.sizes ++ [m.esz])⟩

/-- `operator()(const Range*)` of `cv::Mat` for the dimensions: all of them unchanged but the
selected one -/
def select (base : Nat) : List (Nat × Nat) → Nat → Nat → Nat → Nat × List (Nat × Nat)
  | [], _, _, _ => (base, [])
  | (_, s) :: ds, 0, a, b => (base + a * s, (b - a, s) :: ds)
  | d :: ds, k + 1, a, b => ((select base ds k a b).1, d :: (select base ds k a b).2)

/-- `getSubMat` with a range (opencv.hpp 618-626); `none` is a failed assertion (also that of
OpenCV on reversed ranges) or, for a negative dimension index, undefined behaviour -/
def getSubMat (m : Mat) (dim : Int) (a b : Int) : Option Mat :=
  if dim < 0 then none
  else if h : dim.toNat < m.dims.length then
    if 0 ≤ a ∧ b ≤ (m.dims[dim.toNat].1 : Int) ∧ a ≤ b then
      let r := select m.base m.dims dim.toNat a.toNat b.toNat
      some ⟨r.1, m.esz, r.2⟩
    else none
  else none

/-- `getSubMat` with an index (opencv.hpp 628-636) -/
def getSubMatAt (m : Mat) (dim : Int) (i : Int) : Option Mat :=
  if dim < 0 then none
  else if h : dim.toNat < m.dims.length then
    if 0 ≤ i ∧ i < (m.dims[dim.toNat].1 : Int) then getSubMat m dim i (i + 1) else none
  else none

/-- a newly allocated matrix: its sizes and its elements in row-major order -/
structure Copy (β : Type) where
  sizes : List Nat
  data : List (List β)
  deriving DecidableEq, Repr

/-- `copyTo` a matrix without data -/
def Mat.copyTo {β : Type} (mem : Nat → β) (m : Mat) : Copy β := ⟨m.sizes, m.elems mem⟩

/-- `squeeze` (opencv.hpp 699-727) -/
def squeeze {β : Type} (mem : Nat → β) (m : Mat) : Copy β :=
  if m.dims.length ≤ 2 ∨ m.total = 0 then m.copyTo mem
  else
    match m.dims.filter (fun d => decide (1 < d.1)) with
    | [] => Mat.copyTo mem ⟨m.base, m.esz, packed m.esz [1, 1]⟩
    | [(n, s)] =>
      let c := Mat.copyTo mem ⟨m.base, m.esz, header m.esz [(n, s), (1, m.esz)]⟩
      { c with sizes := [1, n] }
    | ds =>
      let c := Mat.copyTo mem ⟨m.base, m.esz, header m.esz (ds ++ [(1, m.esz)])⟩
      { c with sizes := ds.map Prod.fst }

/-- groups of `w` units -/
def chunks {β : Type} (w : Nat) : Nat → List β → List (List β)
  | 0, _ => []
  | k + 1, l => l.take w :: chunks w k (l.drop w)

/-- `std::equal` of two sequences of the same length with a predicate -/
def equal {β : Type} (E : β → β → Bool) (x y : List β) : Bool := (x.zip y).all (fun p => E p.1 p.2)

/-- `isEqual<T>` (opencv.hpp 1127-1141) in bytes: `w` is `sizeof(T)` and `E` its `==`; `ta` and `tb` are the
types.  `none` is a failed assertion, or the undefined behaviour of traversing a buffer which is
not a whole number of `T`s. -/
def isEqual {β : Type} (w : Nat) (E : List β → List β → Bool) (mem : Nat → β) (ta tb : Nat)
    (a b : Mat) : Option Bool :=
  if a.total = 0 ∧ b.total = 0 then some true
  else if a.dims.length ≠ b.dims.length ∨ a.sizes ≠ b.sizes ∨ ta ≠ tb then some false
  else if cont a.dims && cont b.dims then
    if w ≤ a.esz then
      if a.total * a.esz % w = 0 then
        let n := a.total * a.esz
        some (equal E (chunks w (n / w) ((List.range n).map (fun i => mem (a.base + i))))
          (chunks w (n / w) ((List.range n).map (fun i => mem (b.base + i)))))
      else none
    else none
  else if a.esz = w then some (equal E (a.elems mem) (b.elems mem))
  else none

/-- `isNearlyEqual` (opencv.hpp 1143-1162): the values of all channels, read through
`getBasicMat`, differ by at most `eps` -/
def isNearlyEqual (mem : Nat → ℚ) (eps : ℚ) (ta tb : Nat) (a b : Mat) : Bool :=
  if a.total = 0 ∧ b.total = 0 then true
  else if a.dims.length ≠ b.dims.length ∨ a.sizes ≠ b.sizes ∨ ta ≠ tb then false
  else
    let x := getBasicMat a
    let y := getBasicMat b
    if cont x.dims && cont y.dims then
      equal (fun p q => decide (|p - q| ≤ eps)) ((List.range x.total).map (fun i => mem (x.base + i)))
        ((List.range x.total).map (fun i => mem (y.base + i)))
    else equal (fun p q => decide (|p - q| ≤ eps)) (x.elems mem).flatten (y.elems mem).flatten

/-- a two-dimensional image -/
structure Img (β : Type) where
  rows : Nat
  cols : Nat
  type : Nat
  px : Nat → Nat → β

/-- `m.copyTo(out(Rect))` for a block of the output -/
def blit {β : Type} (out : Img β) (y0 x0 : Nat) (m : Img β) : Img β :=
  { out with px := fun y x =>
      if y0 ≤ y ∧ y < y0 + m.rows ∧ x0 ≤ x ∧ x < x0 + m.cols then m.px (y - y0) (x - x0) else out.px y x }

/-- the loop of `concat` (opencv.hpp 829-835) -/
def concatLoop {β : Type} (resize : Img β → Nat → Nat → Img β) (h w : Nat) (horiz : Bool) :
    Nat → List (Img β) → Img β → Img β
  | _, [], out => out
  | k, m :: ms, out =>
    let y0 := if horiz then 0 else h * k
    let x0 := if horiz then w * k else 0
    let m := if m.rows = h ∧ m.cols = w then m else resize m h w
    concatLoop resize h w horiz (k + 1) ms (blit out y0 x0 m)

/-- `concat` (opencv.hpp 814-836); `resize m h w` is `cv::resize` with the chosen interpolation
and `garbage` the contents of the newly allocated output.  `none` is a failed assertion. -/
def concat {β : Type} (resize : Img β → Nat → Nat → Img β) (garbage : Nat → Nat → β)
    (ms : List (Img β)) (horiz : Bool) : Option (Img β) :=
  match ms with
  | [] => none
  | [m] => some m
  | m :: rest =>
    if rest.all (fun q => decide (q.type = m.type)) then
      let n := rest.length + 1
      let out : Img β := ⟨if horiz then m.rows else m.rows * n, if horiz then m.cols * n else m.cols,
        m.type, garbage⟩
      some (concatLoop resize m.rows m.cols horiz 1 rest (blit out 0 0 m))
    else none

end Litiv.Views
