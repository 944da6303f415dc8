import Mathlib.Data.Int.Basic
import Mathlib.Data.List.Basic

/-!
# Matrix sizes

Model of `lv::MatSize_<Tinteger>` (modules/utils/include/litiv/utils/opencv.hpp 317-553).  The
stored dimension count is the length of the list (OpenCV allows at most 32 dimensions, which
every integer type can hold).
-/

namespace Litiv.MatSize

/-- an integer type -/
structure Ty where
  bits : Nat
  signed : Bool
  deriving DecidableEq, Repr

/-- conversion of an integer to a type -/
def Ty.cast (t : Ty) (x : Int) : Int := if t.signed then x.bmod (2 ^ t.bits) else x % 2 ^ t.bits

/-- `int` -/
def tInt : Ty := ⟨32, true⟩

/-- `size_t` -/
def tSize : Ty := ⟨64, false⟩

/-- `cvtSizes` (opencv.hpp 524-546): `none` is a failed assertion -/
def cvtSizes (t : Ty) (xs : List Int) : Option (List Int) :=
  xs.mapM (fun x => if 0 ≤ tInt.cast x then some (t.cast x) else none)

/-- constructor from `cv::Size` (opencv.hpp 327-330): height first -/
def fromSize (t : Ty) (width height : Int) : Option (List Int) :=
  if 0 ≤ width ∧ 0 ≤ height then some [t.cast height, t.cast width] else none

/-- `total` (opencv.hpp 497-504): product in `size_t` -/
def total (xs : List Int) : Int :=
  match xs with
  | [] => 0
  | x :: xs => xs.foldl (fun n y => tSize.cast (n * tSize.cast y)) (tSize.cast x)

/-- `empty` (opencv.hpp 511-513) -/
def empty (xs : List Int) : Bool := decide (total xs = 0)

/-- `operator==` for another `MatSize_` (opencv.hpp 455-467); `t` is the type of the left side -/
def equal (t : Ty) (xs ys : List Int) : Bool :=
  if empty xs && empty ys then true
  else if xs.length ≠ ys.length then false
  else (xs.zip ys).all (fun p => decide (p.1 = t.cast p.2))

/-- conversion to `cv::Size` (opencv.hpp 427-430): width and height -/
def toSize (xs : List Int) : Option (Int × Int) :=
  match xs with
  | [] => some (0, 0)
  | [n] => some (tInt.cast n, 1)
  | [h, w] => some (tInt.cast w, tInt.cast h)
  | _ => none

/-- `operator==` for `cv::Size` (opencv.hpp 432-434) -/
def equalSize (xs : List Int) (width height : Int) : Bool :=
  decide (xs.length ≤ 2) && decide (toSize xs = some (width, height))

/-- `operator==` for `cv::MatSize` (opencv.hpp 440-450) -/
def equalMatSize (t : Ty) (xs ys : List Int) : Bool :=
  decide (xs.length = ys.length) && (xs.zip ys).all (fun p => decide (p.1 = t.cast p.2))

/-- `transpose` (opencv.hpp 506-509) -/
def transpose (t : Ty) (xs : List Int) : Option (List Int) :=
  match xs with
  | [a, b] => some [t.cast b, t.cast a]
  | _ => none

end Litiv.MatSize
