import Mathlib.Data.Rat.Floor
import Mathlib.Algebra.Order.Field.Rat
import Mathlib.Data.Nat.Log
import Mathlib.Data.List.Sort

/-!
# HSL conversions and colour maps

Model of `lv::getBGRFromHSL` and `lv::getHSLFromBGR`
(modules/utils/include/litiv/utils/opencv.hpp 1165-1213) and `lv::getUniqueColorMap`
(1317-1362) in exact arithmetic.
-/

namespace Litiv.Color

/-- `std::round` -/
def round (x : ℚ) : Int := if 0 ≤ x then ⌊x + 1 / 2⌋ else ⌈x - 1 / 2⌉

/-- `cv::saturate_cast<uint8_t>` of an integral value -/
def sat8 (x : Int) : Int := max 0 (min 255 x)

/-- the lambda `lH2RGB` (opencv.hpp 1176-1188) -/
def h2rgb (p q t : ℚ) : ℚ :=
  let t := if t < 0 then t + 1 else t
  let t := if 1 < t then t - 1 else t
  if t < 1 / 6 then p + (q - p) * 6 * t
  else if t < 1 / 2 then q
  else if t < 2 / 3 then p + (q - p) * (2 / 3 - t) * 6
  else p

/-- `getBGRFromHSL` (opencv.hpp 1165-1193): blue, green, red -/
def toBGR (hue s l : ℚ) : Int × Int × Int :=
  if s = 0 then (sat8 (round (l * 255)), sat8 (round (l * 255)), sat8 (round (l * 255)))
  else if l = 0 then (0, 0, 0)
  else if l = 1 then (255, 255, 255)
  else
    let q := if l < 1 / 2 then l * (1 + s) else l + s - l * s
    let p := 2 * l - q
    let h := hue / 360
    (sat8 (round (h2rgb p q (h - 1 / 3) * 255)), sat8 (round (h2rgb p q h * 255)),
      sat8 (round (h2rgb p q (h + 1 / 3) * 255)))

/-- `getHSLFromBGR` after the scaling to [0,1] (opencv.hpp 1204-1212): hue, saturation,
lightness -/
def hslOf (b g r : ℚ) : ℚ × ℚ × ℚ :=
  let mx := max r (max g b)
  let mn := min r (min g b)
  let l := (mx + mn) / 2
  if mx = mn then (0, 0, l)
  else
    let d := mx - mn
    let s := max 0 (min (d / (1 - |2 * l - 1|)) 1)
    let hue := (if mx = r then (g - b) / d + (if g < b then 6 else 0)
      else if mx = g then (b - r) / d + 2 else (r - g) / d + 4) * 60
    (hue, s, l)

/-- `getHSLFromBGR` (opencv.hpp 1201-1213) -/
def toHSL (b g r : Nat) : ℚ × ℚ × ℚ := hslOf (b / 255) (g / 255) (r / 255)

/-- `nSampleCount` (opencv.hpp 1338) -/
def sampleCount (n div idx : Nat) : Nat := min (max (n / 2 ^ (div + 1)) (360 / 45 - 1)) (n - idx)

/-- `fCurrLight` (opencv.hpp 1340) -/
def light (div : Nat) : ℚ :=
  1 / 2 + (if 0 < div then (if div % 2 = 1 then -(1 / 4) else 1 / 4) / (((max div 1 + 1) / 2 : Nat) : ℚ)
    else 0)

/-- the loop looking for an unused angle (opencv.hpp 1345-1346); the fuel is larger than the
number of angles -/
def freeAngle (used : List Nat) : Nat → Nat → Nat
  | 0, a => a
  | fuel + 1, a => if a ∈ used then freeAngle used fuel ((a + 1) % 360) else a

/-- the angles of one division (opencv.hpp 1341-1350): `count` samples of `total`, starting at
`a` -/
def angles (total : Nat) : Nat → Nat → List Nat → List Nat
  | 0, _, used => used
  | count + 1, a, used =>
    let a := freeAngle used 361 a
    angles total count ((a + 360 / total) % 360) (used ++ [a])

/-- the loop over divisions (opencv.hpp 1337-1351), `left` of them to go; `start` gives the
random numbers of 1342 -/
def palette (n : Nat) (start : Nat → Nat) : Nat → Nat → Nat → List (Int × Int × Int)
  | 0, _, _ => []
  | left + 1, div, idx =>
    if idx < n then
      let k := sampleCount n div idx
      (angles k k (start div % 45) []).map (fun a : Nat => toBGR (a : ℚ) 1 (light div)) ++
        palette n start left (div + 1) (idx + k)
    else []

/-- `vColors` before shuffling (opencv.hpp 1333-1351): entries which are not written stay black.
`std::log2` is exact. -/
def colors (n : Nat) (start : Nat → Nat) : List (Int × Int × Int) :=
  let p := palette n start (Nat.clog 2 n) 0 0
  p ++ List.replicate (n - p.length) (0, 0, 0)

/-- `lv::unique` (opencv.hpp 1119-1126) -/
def unique (m : List Int) : List Int := m.dedup.insertionSort (· ≤ ·)

/-- `getUniqueColorMap` (opencv.hpp 1318-1362) on the elements of a matrix; `shuffle` is
`std::shuffle`.  `none` is the failed assertion on the number of colours. -/
def uniqueColorMap (start : Nat → Nat) (shuffle : List (Int × Int × Int) → List (Int × Int × Int))
    (m : List Int) : Option (List (Int × Int × Int)) :=
  let u := unique m
  if u.length ≤ 1 then some (m.map (fun _ => (255, 255, 255)))
  else if u.length < 720 then
    let c := shuffle (colors u.length start)
    some (m.map (fun v => c.getD (u.idxOf v) (0, 0, 0)))
  else none

end Litiv.Color
