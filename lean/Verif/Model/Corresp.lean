import Verif.Model.Shift
import Verif.Model.Subset

/-!
# Model of the disparity ground truth of LITIV 2018 sequences

Models the evaluation of disparities in `getRawGTArray` of `modules/datasets/include/litiv/datasets/impl/
litiv-stcharles2018.hpp:1174-1300`, and the way back of the LWIR stream in `inverseRemapOutput` (414-420), at the original
size, with `DATASETS_LITIV2018_USE_LWIR_OFFSET` on (the default) and rectification on (evaluating disparities requires
it, 461). Files are the lists of their points; the depth stream, resizing and unwarping are not modelled. `none` is a
failed `lvAssert`, or the access to a pixel outside the image, which `cv::Mat::at` does not check in release builds.
-/

namespace Litiv.Corresp

open Shift (Img Border)
open Subset (gtDisparity)

/-- A point of a correspondence file: position and offset to its match, litiv-stcharles2018.hpp:1191-1198. -/
structure Pt where
  x : Int
  y : Int
  d : Int
deriving DecidableEq, Repr

/-- The two checks, litiv-stcharles2018.hpp:1199-1201. -/
def agree (r l : Pt) : Bool :=
  (r.x + r.d == l.x && r.y == l.y) && (l.x + l.d == r.x && l.y == r.y)

/-- An image of "don't care" labels, litiv-stcharles2018.hpp:1175-1179. -/
def blank (rows cols : Nat) : Img ℚ := ⟨rows, cols, fun _ _ => 255⟩

/-- `m.at<uchar>(point) = v`. -/
def put (m : Img ℚ) (p : Pt) (v : Int) : Option (Img ℚ) :=
  if m.has p.y p.x then some { m with px := fun y x => if y = p.y ∧ x = p.x then (v : ℚ) else m.px y x } else none

/-- The loop over the points, litiv-stcharles2018.hpp:1187-1212. -/
def fill (flip : Bool) (off : Int) : List (Pt × Pt) → Img ℚ → Img ℚ → Option (Img ℚ × Img ℚ)
  | [], R, L => some (R, L)
  | (r, l) :: ps, R, L =>
    if agree r l then
      match gtDisparity flip off r.d with
      | none => fill flip off ps R L
      | some v =>
        match put R r v, put L l v with
        | some R, some L => fill flip off ps R L
        | _, _ => none
    else none

/-- `cv::flip(m,m,1)`. -/
def mirror (m : Img ℚ) : Img ℚ := { m with px := fun y x => m.px y (m.cols - 1 - x) }

/-- `lv::shift` by a whole number of columns, when it is not zero. -/
def shiftBy (m : Img ℚ) (off : Int) (v : ℚ) : Option (Img ℚ) :=
  if off = 0 then some m else (Shift.shift true m off 0 (.constant v)).map (·.1)

/-- The RGB and LWIR maps of `getRawGTArray`, litiv-stcharles2018.hpp:1174-1216 and 1292-1299: `fr` and `fl` are the points
of the two files, `flip` and `off` are `m_bFlipDisparitiesInternal` and `m_nLWIRDispOffset`, `ext` is
`isFlippingDisparities()`. -/
def gtMaps (rows cols : Nat) (flip : Bool) (off : Int) (ext : Bool) (fr fl : List Pt) : Option (Img ℚ × Img ℚ) :=
  if fr.length = fl.length ∧ fl.length ≥ 1 then
    match fill flip off (fr.zip fl) (blank rows cols) (blank rows cols) with
    | none => none
    | some (R, L) =>
      match shiftBy L off 255 with
      | none => none
      | some L => if ext ^^ flip then some (mirror R, mirror L) else some (R, L)
  else none

/-- What happens to an LWIR image after rectification, litiv-stcharles2018.hpp:1056-1059 and 1146-1149. -/
def present (flip : Bool) (off : Int) (ext : Bool) (m : Img ℚ) : Option (Img ℚ) :=
  (shiftBy m off 0).map fun m => if ext ^^ flip then mirror m else m

/-- What `inverseRemapOutput` does to an LWIR output before unwarping, litiv-stcharles2018.hpp:414-420. -/
def unpresent (flip : Bool) (off : Int) (ext : Bool) (m : Img ℚ) : Option (Img ℚ) :=
  let m := if ext ^^ flip then mirror m else m
  shiftBy m (-off) 0

end Litiv.Corresp
