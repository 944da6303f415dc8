import Verif.Model.SlicShow

/-!
# Model of the coloured disparity error masks

Models `StereoDispErrors::getColoredMask` (`modules/datasets/src/metrics.cpp:171-229`). Maps are functions of row and column;
the assertions on types, continuity and sizes hold; numbers are exact. `cv::normalize`, `cv::dilate` and the colour map (a
function of an 8-bit level) follow OpenCV. `none` is a failed `lvAssert`.
-/

namespace Litiv.DispMask

/-- A colour. -/
abbrev Color := Nat × Nat × Nat

/-- The types of ground truth maps, metrics.cpp:174. -/
inductive Ty where
  | u8 | s8 | u16 | s16 | s32 | f32
deriving DecidableEq, Repr

/-- `std::numeric_limits<…>::max()` of the element type (`char` is signed). -/
def Ty.max : Ty → ℚ
  | .u8 => 255
  | .s8 => 127
  | .u16 => 65535
  | .s16 => 32767
  | .s32 => 2147483647
  | .f32 => (2 ^ 24 - 1) * 2 ^ 104

/-- The mask of valid ground truth pixels, metrics.cpp:190-203. -/
def valid (t : Ty) (g : ℚ) : Bool :=
  match t with
  | .u8 | .u16 => g != t.max
  | _ => g != t.max && decide (0 ≤ g)

/-- The condition at metrics.cpp:212, for an empty ROI (`none`: the pointer is the one of the mask) or a given one. -/
def counted (t : Ty) (gt : Nat → Nat → ℚ) (roi : Option (Nat → Nat → Nat)) (y x : Nat) : Bool :=
  valid t (gt y x) && match roi with
    | none => valid t (gt y x)
    | some r => r y x != 0

/-- The map of errors, metrics.cpp:205-217. -/
def errorMap (t : Ty) (disp gt : Nat → Nat → ℚ) (roi : Option (Nat → Nat → Nat)) (M : ℚ) (y x : Nat) : ℚ :=
  if counted t gt roi y x then min |disp y x - gt y x| M else 0

/-- The pixels of an image. -/
def pixels (rows cols : Nat) : List (Nat × Nat) :=
  (List.range rows).flatMap fun y => (List.range cols).map fun x => (y, x)

/-- Smallest value (`cv::minMaxIdx`). -/
def lowest (rows cols : Nat) (e : Nat → Nat → ℚ) : ℚ := (pixels rows cols).foldl (fun m p => min m (e p.1 p.2)) (e 0 0)

/-- Largest value (`cv::minMaxIdx`). -/
def highest (rows cols : Nat) (e : Nat → Nat → ℚ) : ℚ := (pixels rows cols).foldl (fun m p => max m (e p.1 p.2)) (e 0 0)

/-- `cv::normalize(e,out,255,0,cv::NORM_MINMAX,CV_8U)`, metrics.cpp:221 (OpenCV). -/
def normalize (rows cols : Nat) (e : Nat → Nat → ℚ) (y x : Nat) : Nat :=
  let lo := lowest rows cols e
  let hi := highest rows cols e
  let scale := 255 * (if hi - lo > 1 / 2 ^ 52 then 1 / (hi - lo) else 0)
  SlicShow.saturate (e y x * scale + (0 - lo * scale))

/-- The neighbours of a pixel in the image, itself included. -/
def near1 (rows cols y x : Nat) : List (Nat × Nat) :=
  (pixels rows cols).filter fun p => decide (p.1 ≤ y + 1 ∧ y ≤ p.1 + 1 ∧ p.2 ≤ x + 1 ∧ x ≤ p.2 + 1)

/-- One iteration of `cv::dilate` with the default 3x3 element (OpenCV). -/
def dilate1 (rows cols : Nat) (f : Nat → Nat → Nat) (y x : Nat) : Nat :=
  (near1 rows cols y x).foldl (fun m p => max m (f p.1 p.2)) 0

/-- The image before colours are applied, metrics.cpp:218-223. -/
def levels (rows cols : Nat) (e : Nat → Nat → ℚ) (M : ℚ) : Nat → Nat → Nat :=
  let old := e 0 0
  let e' := fun y x => if y = 0 ∧ x = 0 then M else e y x
  let out := normalize rows cols e'
  let out := fun y x => if y = 0 ∧ x = 0 then ⌊old / M * 255⌋.toNat else out y x
  dilate1 rows cols (dilate1 rows cols out)

/-- `getColoredMask`, metrics.cpp:171-229, with the colour map `hot`; an empty ground truth is `none`. -/
def coloredMask (hot : Nat → Color) (rows cols : Nat) (disp : Nat → Nat → ℚ) (gt : Option (Ty × (Nat → Nat → ℚ))) (M : ℚ)
    (roi : Option (Nat → Nat → Nat)) : Option (Nat → Nat → Color) :=
  if 0 < rows * cols ∧ 0 < M then
    match gt with
    | none => some fun _ _ => (92, 92, 92)
    | some (t, gt) =>
      let out := levels rows cols (errorMap t disp gt roi M) M
      match roi with
      | none => some fun y x => hot (out y x)
      | some r => some fun y x => if r y x = 0 then (92, 92, 92) else hot (out y x)
  else none

end Litiv.DispMask
