import Mathlib.Data.Rat.Floor

/-!
# Canny edge detector

Model of `EdgeDetectorCanny` (modules/imgproc/src/EdgeDetectorCanny.cpp 19-58). `cv::GaussianBlur` and `cv::Canny` are any
functions of the image and their parameters, except that the former refuses even and nonpositive kernel sizes. Images
are lists of pixels; numbers are exact rationals instead of `double` and `float`.
-/

namespace Litiv.Canny

/-- The pixels of an 8-bit image. -/
abbrev Img := List Nat

/-- The OpenCV functions used: smoothing with a kernel size and sigma, and edges for a lower and an upper threshold. -/
structure Lib where
  blur : Int → ℚ → Img → Img
  edges : Img → ℚ → ℚ → Nat → Bool

/-- The members (EdgeDetectorCanny.hpp 51-55). -/
structure Detector where
  factor : ℚ
  sigma : ℚ
deriving DecidableEq

/-- The constructor (EdgeDetectorCanny.cpp 19-24); `none` if an assertion fails. -/
def construct (factor sigma : ℚ) : Option Detector :=
  if 0 < factor ∧ factor < 1 then
    if 0 ≤ sigma then some ⟨factor, sigma⟩ else none
  else none

/-- `EDGCANNY_DEFAULT_THRESHOLD` with a Sobel kernel of 3 pixels (EdgeDetectorCanny.hpp 25-27). -/
def defaultThreshold : ℚ := 100

/-- The kernel size (EdgeDetectorCanny.cpp 31-32); the division truncates. -/
def kernelSize (sigma : ℚ) : Int := (8 * ⌈sigma⌉ - 1).tdiv 2

/-- `cv::GaussianBlur` (EdgeDetectorCanny.cpp 34); `none` for a refused kernel size. -/
def gaussian (lib : Lib) (size : Int) (sigma : ℚ) (img : Img) : Option Img :=
  if 0 < size ∧ size % 2 = 1 then some (lib.blur size sigma img) else none

/-- `apply_threshold` (EdgeDetectorCanny.cpp 26-43): the mask, with values 0 and 255; `none` if an assertion fails. -/
def applyThreshold (lib : Lib) (d : Detector) (img : Img) (threshold : ℚ) : Option Img :=
  if img.isEmpty then none else
  let smooth := if d.sigma > 0 then gaussian lib (kernelSize d.sigma) d.sigma img else some img
  let t := if threshold < 0 then defaultThreshold else threshold
  smooth.map fun s => (List.range img.length).map fun p => if lib.edges s (t * d.factor) t p then 255 else 0

/-- `cvRound`: to the nearest integer, halves to even. -/
def cvRound (q : ℚ) : Int :=
  let f := ⌊q⌋
  if q - f < 1 / 2 then f
  else if q - f > 1 / 2 then f + 1
  else if f % 2 = 0 then f else f + 1

/-- `saturate_cast<uchar>`. -/
def saturate (z : Int) : Nat := (max 0 (min 255 z)).toNat

/-- `oEdgeMask += oTempEdgeMask/UCHAR_MAX` (EdgeDetectorCanny.cpp 54), for one pixel. -/
def addMask (acc m : Nat) : Nat := saturate ((acc : Int) + saturate (cvRound ((m : ℚ) / 255)))

/-- The loop over thresholds (EdgeDetectorCanny.cpp 52-55), from an image of zeros. -/
def accumulate (lib : Lib) (d : Detector) (img : Img) : Option Img :=
  (List.range 255).foldl (fun (acc : Option Img) (t : Nat) =>
    acc.bind fun a => (applyThreshold lib d img (t : ℚ)).map fun m => List.zipWith addMask a m)
    (some (List.replicate img.length 0))

/-- `cv::normalize` with `NORM_MINMAX` to [0,255] (EdgeDetectorCanny.cpp 56): OpenCV uses the factor 0 if all values are
equal. -/
def normalize (img : Img) : Img :=
  let lo := img.foldl min (img.headD 0)
  let hi := img.foldl max 0
  let scale : ℚ := if hi - lo > 0 then 255 / ((hi : ℚ) - lo) else 0
  let shift : ℚ := 0 - lo * scale
  img.map fun (v : Nat) => saturate (cvRound (v * scale + shift))

/-- `apply` (EdgeDetectorCanny.cpp 45-58); `inPlace` tells that the given output is the (single-channel) input image,
whose pixels are then zeroed first (50). -/
def apply (lib : Lib) (d : Detector) (img : Img) (inPlace : Bool) : Option Img :=
  if img.isEmpty then none else
  let input := if inPlace then img.map (fun _ => 0) else img
  (accumulate lib d input).map normalize

end Litiv.Canny
