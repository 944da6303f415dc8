/-!
# Model of the sampling helpers of modules/utils/include/litiv/utils/opencv.hpp:858-966

Coordinates are exact integers (no `int` overflow).
-/

namespace Litiv.Sampling

/-- One coordinate of `clampImageCoords`, `opencv.hpp:861-864` (x) and `865-868` (y). -/
def clampCoord (b size v : Int) : Int :=
  if v < b then b else if size - b ≤ v then size - b - 1 else v

/-- `clampImageCoords`, `opencv.hpp:858-869`. -/
def clampImageCoords (p : Int × Int) (b w h : Int) : Int × Int := (clampCoord b w p.1, clampCoord b h p.2)

/-- The inner loop of `getSamplePosition`, `opencv.hpp:880-884`, over the rest of a row starting at column `x`:
`Sum.inl x`: stopped at column `x`; `Sum.inr r`: the row ended with remainder `r`. -/
def walkRow : List Int → Nat → Int → Sum Nat Int
  | [], _, r => .inr r
  | k :: ks, x, r => if r - k ≤ 0 then .inl x else walkRow ks (x + 1) (r - k)

/-- Both loops of `getSamplePosition`, `opencv.hpp:879-885`, over the remaining rows starting at row `y`; `w` is the
kernel width, which the column counter holds after the last complete row. The result is (column, row). -/
def walk (w : Nat) : List (List Int) → Nat → Int → Nat × Nat
  | [], y, _ => (w, y)
  | row :: rows, y, r =>
    match walkRow row 0 r with
    | .inl x => (x, y)
    | .inr r' => walk w rows (y + 1) r'

/-- `getSamplePosition`, `opencv.hpp:871-890`. `%` on `int` truncates (`Int.tmod`). -/
def getSamplePosition (kernel : List (List Int)) (kw kh : Nat) (tot rnd : Int) (orig : Int × Int) (b w h : Int) : Int × Int :=
  let p := walk kw kernel 0 (1 + rnd.tmod tot)
  clampImageCoords (p.1 + (orig.1 - (kw / 2 : Nat)), p.2 + (orig.2 - (kh / 2 : Nat))) b w h

/-- The pattern of `getSamplePosition_3x3_std1`, `opencv.hpp:899-903`. -/
def kernel3 : List (List Int) := [[19, 32, 19], [32, 52, 32], [19, 32, 19]]

/-- The pattern of `getSamplePosition_7x7_std2`, `opencv.hpp:914-922`. -/
def kernel7 : List (List Int) := [
  [ 2, 4, 6, 7, 6, 4, 2],
  [ 4, 8,12,14,12, 8, 4],
  [ 6,12,21,25,21,12, 6],
  [ 7,14,25,28,25,14, 7],
  [ 6,12,21,25,21,12, 6],
  [ 4, 8,12,14,12, 8, 4],
  [ 2, 4, 6, 7, 6, 4, 2]]

/-- `getSamplePosition_3x3_std1`, `opencv.hpp:892-905`. -/
def samplePosition3 (rnd : Int) (orig : Int × Int) (b w h : Int) : Int × Int :=
  getSamplePosition kernel3 3 3 256 rnd orig b w h

/-- `getSamplePosition_7x7_std2`, `opencv.hpp:907-924`. -/
def samplePosition7 (rnd : Int) (orig : Int × Int) (b w h : Int) : Int × Int :=
  getSamplePosition kernel7 7 7 512 rnd orig b w h

/-- `getNeighborPosition`, `opencv.hpp:926-938`; `none`: access outside the pattern array (negative random index). -/
def getNeighborPosition (pattern : List (Int × Int)) (rnd : Int) (orig : Int × Int) (b w h : Int) : Option (Int × Int) :=
  let r := rnd.tmod pattern.length
  if r < 0 then none
  else pattern[r.toNat]?.map fun d => clampImageCoords (orig.1 + d.1, orig.2 + d.2) b w h

/-- The pattern of `getNeighborPosition_3x3`, `opencv.hpp:945-949`. -/
def neighbors3 : List (Int × Int) := [(-1, 1), (0, 1), (1, 1), (-1, 0), (1, 0), (-1, -1), (0, -1), (1, -1)]

/-- The pattern of `getNeighborPosition_5x5`, `opencv.hpp:958-964`. -/
def neighbors5 : List (Int × Int) := [
  (-2, 2), (-1, 2), (0, 2), (1, 2), (2, 2),
  (-2, 1), (-1, 1), (0, 1), (1, 1), (2, 1),
  (-2, 0), (-1, 0), (1, 0), (2, 0),
  (-2, -1), (-1, -1), (0, -1), (1, -1), (2, -1),
  (-2, -2), (-1, -2), (0, -2), (1, -2), (2, -2)]

/-- `getNeighborPosition_3x3`, `opencv.hpp:940-951`. -/
def neighborPosition3 (rnd : Int) (orig : Int × Int) (b w h : Int) : Option (Int × Int) :=
  getNeighborPosition neighbors3 rnd orig b w h

/-- `getNeighborPosition_5x5`, `opencv.hpp:953-966`. -/
def neighborPosition5 (rnd : Int) (orig : Int × Int) (b w h : Int) : Option (Int × Int) :=
  getNeighborPosition neighbors5 rnd orig b w h

end Litiv.Sampling
