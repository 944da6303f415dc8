import Verif.Model.SubPix
import Verif.Model.SlicShow

/-!
# Model of differences and remapping along an optical flow

Models `lv::computeTemporalAbsDiff` and `lv::remap_offset` (`modules/imgproc/src/imgproc.cpp:700-740`) in exact arithmetic,
on top of `SubPix` (`getSubPix`). The assertions on types, sizes and continuity hold. `cv::remap` follows OpenCV with
`INTER_NEAREST` (other interpolations are not modelled); `cv::GaussianBlur` is any function. `none` is a failed assertion or
an access outside of an image.
-/

namespace Litiv.Flow
open Litiv.SubPix (Img sample)

/-- An offset for each pixel: horizontal and vertical components. -/
abbrev Field := Nat → Nat → ℚ × ℚ

/-- One pixel of `computeTemporalAbsDiff` for single-channel images, imgproc.cpp:713-718. -/
def diffAt (i1 i2 : Img) (f : Field) (y x : Nat) : Option ℚ :=
  (sample i2 (x + (f y x).1) (y + (f y x).2) .replicate).map fun new => |i1.px y x - new|

/-- One pixel of `computeTemporalAbsDiff` for images of several channels, imgproc.cpp:720-725. -/
def diffVecAt (i1 i2 : List Img) (f : Field) (y x : Nat) : Option (List ℚ) :=
  (SubPix.sampleVec i2 (x + (f y x).1) (y + (f y x).2) .replicate).map fun new =>
    List.zipWith (fun (m : Img) v => |m.px y x - v|) i1 new

/-- `computeTemporalAbsDiff`, imgproc.cpp:700-729, for single-channel images of the same size: the value at a pixel. -/
def temporalAbsDiff (blur : Int → (Nat → Nat → ℚ) → Nat → Nat → ℚ) (i1 i2 : Img) (f : Field) (k : Int) :
    Option (Nat → Nat → ℚ) :=
  if 0 < i1.rows ∧ 0 < i1.cols ∧ 0 ≤ k ∧ (k = 0 ∨ k % 2 = 1) then
    if (List.range i1.rows).all fun y => (List.range i1.cols).all fun x => (diffAt i1 i2 f y x).isSome then
      let out := fun y x => (diffAt i1 i2 f y x).getD 0
      some (if 1 < k then blur k out else out)
    else none
  else none

/-- Border modes of `cv::remap` used by callers. -/
inductive Edge where
  | constant (v : ℚ)
  | replicate
deriving Repr

/-- `cv::remap` with `INTER_NEAREST` at one pixel, for source coordinates `u`, `v` (OpenCV: coordinates are rounded to the
nearest integers, ties to even; sizes below 32768). -/
def remapAt (m : Img) (e : Edge) (u v : ℚ) : ℚ :=
  let x := SlicShow.cvRound u
  let y := SlicShow.cvRound v
  if 0 ≤ y ∧ y < m.rows ∧ 0 ≤ x ∧ x < m.cols then m.px y x
  else match e with
    | .constant c => c
    | .replicate => m.px (max 0 (min y (m.rows - 1))) (max 0 (min x (m.cols - 1)))

/-- `remap_offset`, imgproc.cpp:731-740. -/
def remapOffset (m : Img) (f : Field) (e : Edge) : Img :=
  ⟨m.rows, m.cols, fun y x => remapAt m e (x - (f y.toNat x.toNat).1) (y - (f y.toNat x.toNat).2)⟩

end Litiv.Flow
