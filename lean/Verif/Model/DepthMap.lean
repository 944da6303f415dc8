import Mathlib.Data.Rat.Floor
import Mathlib.Algebra.Order.Round

/-!
# Depth images seen from the RGB camera

Model of the remapping of depth images in the `litiv-stcharles2018` dataset (modules/datasets/include/litiv/datasets/impl/litiv-stcharles2018.hpp
1103-1111 for inputs, 1272-1279 for ground truth masks, with `cv::flip` at 1110-1111). Coordinates in the map are exact
rationals instead of `float`; `none` stands for the values (not a number, infinities) which fail the comparisons.
Undistortion, rectification and resizing, which follow, are not modelled.
-/

namespace Litiv.DepthMap

/-- An image, by row and column. -/
abbrev Img := Nat → Nat → Nat

/-- A map entry: column, then row (`vRealPt`, litiv-stcharles2018.hpp 1106). -/
abbrev Pt := Option ℚ × Option ℚ

/-- `std::round`, halves away from zero (litiv-stcharles2018.hpp 1108, 1278). -/
def cround (q : ℚ) : Int := if 0 ≤ q then ⌊q + 1 / 2⌋ else ⌈q - 1 / 2⌉

/-- `oDepthPacket_raw.at<T>(row,column)` (litiv-stcharles2018.hpp 1108, 1278); `none` for a read outside the image. -/
def read (rows cols : Nat) (raw : Img) (r k : Int) : Option Nat :=
  if 0 ≤ r ∧ r < rows ∧ 0 ≤ k ∧ k < cols then some (raw r.toNat k.toNat) else none

/-- One iteration of the loop (litiv-stcharles2018.hpp 1106-1108, 1276-1278); untouched pixels keep the zero assigned
before (1104, 1274). `none` for a read outside the image. -/
def lookup (rows cols : Nat) (raw : Img) : Pt → Option Nat
  | (some x, some y) =>
    if x ≥ 0 ∧ x < cols ∧ y ≥ 0 ∧ y < rows then read rows cols raw (cround y) (cround x) else some 0
  | _ => some 0

/-- The loop over all pixels of the RGB image, of `area` pixels (litiv-stcharles2018.hpp 1105-1109, 1275-1279). -/
def remap (rows cols : Nat) (raw : Img) (area : Nat) (map : Nat → Pt) : Option (List Nat) :=
  (List.range area).mapM fun n => lookup rows cols raw (map n)

/-- `cv::flip` around the vertical axis (litiv-stcharles2018.hpp 1110-1111), for an image stored row by row. -/
def flipImg (w h : Nat) (img : List Nat) : List Nat :=
  (List.range (h * w)).map fun n => img.getD (n / w * w + (w - 1 - n % w)) 0

/-- The depth image given as input (litiv-stcharles2018.hpp 1103-1111); `flip` is `bFlipRGBPacket` (1018), which is set
unless calibration data is loaded. -/
def depthInput (rows cols : Nat) (raw : Img) (w h : Nat) (map : Nat → Pt) (flip : Bool) : Option (List Nat) :=
  (remap rows cols raw (h * w) map).map fun img => if flip then flipImg w h img else img

/-- The depth mask given as ground truth (litiv-stcharles2018.hpp 1273-1279). -/
def depthGT (rows cols : Nat) (raw : Img) (w h : Nat) (map : Nat → Pt) : Option (List Nat) :=
  remap rows cols raw (h * w) map

end Litiv.DepthMap
