import Mathlib.Data.Rat.Floor
import Mathlib.Algebra.Order.Field.Rat

/-!
# Sub-pixel sampling

Model of `lv::getSubPix` (modules/utils/include/litiv/utils/opencv.hpp 638-697) in exact
arithmetic.  Coordinates are in the range of `int`.  `cv::borderInterpolate` follows OpenCV.
-/

namespace Litiv.SubPix

/-- OpenCV's border modes for index interpolation -/
inductive Border where
  | constant | replicate | reflect | reflect101 | wrap
  deriving DecidableEq, Repr

/-- the reflection loop of `cv::borderInterpolate`, with fuel -/
def reflectLoop (len delta : Int) : Nat → Int → Int
  | 0, p => p
  | fuel + 1, p =>
    let q := if p < 0 then -p - 1 + delta else len - 1 - (p - len) - delta
    if 0 ≤ q ∧ q < len then q else reflectLoop len delta fuel q

/-- `cv::borderInterpolate` -/
def borderInterpolate (b : Border) (p len : Int) : Int :=
  if 0 ≤ p ∧ p < len then p
  else match b with
    | .constant => -1
    | .replicate => if p < 0 then 0 else len - 1
    | .reflect => if len = 1 then 0 else reflectLoop len 0 (2 * p.natAbs + 2) p
    | .reflect101 => if len = 1 then 0 else reflectLoop len 1 (2 * p.natAbs + 2) p
    | .wrap =>
      let p := if p < 0 then p - (Int.tdiv (p - len + 1) len) * len else p
      if len ≤ p then Int.tmod p len else p

/-- a one-channel image -/
structure Img where
  rows : Nat
  cols : Nat
  px : Int → Int → ℚ

/-- `oMat(y,x)`; `none` is an access outside of the matrix -/
def Img.at (m : Img) (y x : Int) : Option ℚ :=
  if 0 ≤ y ∧ y < m.rows ∧ 0 ≤ x ∧ x < m.cols then some (m.px y x) else none

/-- conversion of a float to `int` -/
def trunc (x : ℚ) : Int := if 0 ≤ x then ⌊x⌋ else ⌈x⌉

/-- `getSubPix` before the conversion of the result (opencv.hpp 674-684) -/
def sample (m : Img) (x y : ℚ) (b : Border) : Option ℚ :=
  let nX := trunc x
  let nY := trunc y
  let x0 := borderInterpolate b nX m.cols
  let x1 := borderInterpolate b (nX + 1) m.cols
  let y0 := borderInterpolate b nY m.rows
  let y1 := borderInterpolate b (nY + 1) m.rows
  let dx := x - nX
  let dy := y - nY
  match m.at y0 x0, m.at y0 x1, m.at y1 x0, m.at y1 x1 with
  | some a, some c, some d, some e =>
    let r0 := a * (1 - dx) + c * dx
    let r1 := d * (1 - dx) + e * dx
    some (r0 * (1 - dy) + r1 * dy)
  | _, _, _, _ => none

/-- `std::round` -/
def round (x : ℚ) : Int := if 0 ≤ x then ⌊x + 1 / 2⌋ else ⌈x - 1 / 2⌉

/-- `getSubPix` with an integral result type (opencv.hpp 685) -/
def sampleInt (m : Img) (x y : ℚ) (b : Border) : Option Int := (sample m x y b).map round

/-- `getSubPix` for several channels (opencv.hpp 640-657) -/
def sampleVec (ms : List Img) (x y : ℚ) (b : Border) : Option (List ℚ) := ms.mapM (fun m => sample m x y b)

end Litiv.SubPix
