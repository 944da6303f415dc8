import Mathlib.Data.Rat.Floor
import Mathlib.Algebra.Order.Field.Rat

/-!
# Shifting and copying image regions

Model of `lv::shift` (modules/utils/src/opencv.cpp 753-826) and `lv::copyValidPixelsTo`
(117-166).  Pixels are indexed by row and column in unbounded integers (no `int` overflow).
`cv::copyMakeBorder`, `cv::sepFilter2D`, `Mat::operator()(Rect)` and `Mat::copyTo` are given by
their documented results; a failed check is `none`.
-/

namespace Litiv.Shift

/-- a one-channel image -/
structure Img (α : Type) where
  rows : Nat
  cols : Nat
  px : Int → Int → α

/-- whether a position is inside an image -/
def Img.has {α : Type} (m : Img α) (y x : Int) : Bool :=
  decide (0 ≤ y) && decide (y < m.rows) && decide (0 ≤ x) && decide (x < m.cols)

/-- the border of `cv::copyMakeBorder`: a constant, or an index map such as those of
`cv::borderInterpolate` (coordinate, length) -/
inductive Border (α : Type) where
  | constant (v : α)
  | interp (ip : Int → Nat → Int)

/-- an image extended to the whole plane -/
def extend {α : Type} (b : Border α) (m : Img α) (y x : Int) : α :=
  if m.has y x then m.px y x
  else match b with
    | .constant v => v
    | .interp ip => m.px (ip y m.rows) (ip x m.cols)

/-- `cv::copyMakeBorder` -/
def copyMakeBorder {α : Type} (b : Border α) (m : Img α) (top bottom left right : Nat) : Img α :=
  ⟨m.rows + top + bottom, m.cols + left + right, fun y x => extend b m (y - top) (x - left)⟩

/-- `cv::sepFilter2D` with two-tap kernels, anchor (0,0) and `BORDER_CONSTANT` -/
def sepFilter2 (m : Img ℚ) (dx0 dx1 dy0 dy1 : ℚ) : Img ℚ :=
  let p := fun y x => if m.has y x then m.px y x else 0
  ⟨m.rows, m.cols, fun y x =>
    dy0 * (dx0 * p y x + dx1 * p y (x + 1)) + dy1 * (dx0 * p (y + 1) x + dx1 * p (y + 1) (x + 1))⟩

/-- `Mat::operator()(Rect)`; `none` is the failed OpenCV assertion -/
def roi {α : Type} (m : Img α) (y x h w : Int) : Option (Img α) :=
  if 0 ≤ x ∧ 0 ≤ w ∧ x + w ≤ m.cols ∧ 0 ≤ y ∧ 0 ≤ h ∧ y + h ≤ m.rows then
    some ⟨h.toNat, w.toNat, fun r c => m.px (y + r) (x + c)⟩
  else none

/-- `std::numeric_limits<float>::epsilon()` -/
def eps : ℚ := 1 / 2 ^ 23

/-- `lv::shift` (opencv.cpp 795-826) for one channel; deltas and pixel values are exact
rationals instead of floats.  The flag of the result tells whether an integer matrix became a
float matrix (816). -/
def shift (isInt : Bool) (m : Img ℚ) (dx dy : ℚ) (b : Border ℚ) : Option (Img ℚ × Bool) :=
  if |dx| < m.cols ∧ |dy| < m.rows then
    let ix : Int := ⌈dx⌉
    let iy : Int := ⌈dy⌉
    let sx := |dx - ix|
    let sy := |dy - iy|
    let top := if 0 < iy then iy else 0
    let bottom := if iy < 0 then -iy else 0
    let left := if 0 < ix then ix else 0
    let right := if ix < 0 then -ix else 0
    let padded := copyMakeBorder b m top.toNat bottom.toNat left.toNat right.toNat
    let frac := decide (eps < sx) || decide (eps < sy)
    let padded := if frac then sepFilter2 padded (1 - sx) sx (1 - sy) sy else padded
    (roi padded (max (-iy) 0) (max (-ix) 0) m.rows m.cols).map (fun o => (o, frac && isInt))
  else none

/-- `cv::Rect` -/
structure Rect where
  x : Int
  y : Int
  w : Int
  h : Int
  deriving DecidableEq

/-- the clipped rectangles (opencv.cpp 134-157): input and output -/
def clip (rows cols : Nat) (rin rout : Rect) : Rect × Rect :=
  let (i, o) := if rout.x < 0 then
      ({ rin with x := rin.x - rout.x, w := rin.w + rout.x },
       { rout with w := rout.w + rout.x, x := 0 })
    else (rin, rout)
  let (i, o) := if o.y < 0 then
      ({ i with y := i.y - o.y, h := i.h + o.y }, { o with h := o.h + o.y, y := 0 })
    else (i, o)
  let (i, o) := if o.x + o.w > cols then
      let n := o.x + o.w - cols
      ({ i with w := i.w - n }, { o with w := o.w - n })
    else (i, o)
  if o.y + o.h > rows then
    let n := o.y + o.h - rows
    ({ i with h := i.h - n }, { o with h := o.h - n })
  else (i, o)

/-- `Mat::copyTo` into a view of `dst` at `(oy,ox)`, restricted to non-zero mask positions -/
def copyTo {α : Type} (src : Img α) (mask : Int → Int → Bool) (dst : Img α) (oy ox : Int) : Img α :=
  { dst with px := fun y x =>
      if src.has (y - oy) (x - ox) && mask (y - oy) (x - ox) then src.px (y - oy) (x - ox)
      else dst.px y x }

/-- `cv::countNonZero` -/
def countNonZero (m : Img Bool) : Nat :=
  ((List.range m.rows).map (fun r => ((List.range m.cols).filter
    (fun c => m.px (r : Nat) (c : Nat))).length)).sum

/-- result of `copyValidPixelsTo`: output image, `*pValidOutputROI`, count -/
structure Copied (α : Type) where
  out : Img α
  valid : Rect
  count : Int

/-- `lv::copyValidPixelsTo` (opencv.cpp 117-166); both images have the same type.  `mask` is
`none` for the empty matrix. -/
def copyValid {α : Type} (src : Img α) (rin : Rect) (dst : Img α) (rout : Rect)
    (mask : Option (Img Bool)) : Option (Copied α) :=
  if ¬ (src.rows ≠ 0 ∧ src.cols ≠ 0 ∧ dst.rows ≠ 0 ∧ dst.cols ≠ 0) then none
  else if ¬ (rin.w = rout.w ∧ rin.h = rout.h) then none
  else if ¬ (∀ m ∈ mask, m.rows = src.rows ∧ m.cols = src.cols) then none
  else if rin.w * rin.h ≤ 0 then some ⟨dst, ⟨rout.x, rout.y, 0, 0⟩, 0⟩
  else if ¬ (0 ≤ rin.x ∧ 0 ≤ rin.y ∧ rin.x + rin.w ≤ src.cols ∧ rin.y + rin.h ≤ src.rows) then none
  else if rout.x + rout.w ≤ 0 ∨ (dst.cols : Int) ≤ rout.x ∨ rout.y + rout.h ≤ 0 ∨
      (dst.rows : Int) ≤ rout.y then some ⟨dst, ⟨rout.x, rout.y, 0, 0⟩, 0⟩
  else do
    let (i, o) := clip dst.rows dst.cols rin rout
    let s ← roi src i.y i.x i.h i.w
    let _ ← roi dst o.y o.x o.h o.w
    match mask with
    | some m => do
      let mv ← roi m i.y i.x i.h i.w
      some ⟨copyTo s mv.px dst o.y o.x, o, countNonZero mv⟩
    | none => some ⟨copyTo s (fun _ _ => true) dst o.y o.x, o, o.w * o.h⟩

end Litiv.Shift
