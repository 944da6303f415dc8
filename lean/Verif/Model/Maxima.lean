/-!
# Model of non-maximum suppression and directional local maxima

`modules/imgproc/include/litiv/imgproc.hpp:121-208`. Pixel values are integers (any of the integer depths; floating-point images
without NaN behave like them, as values are only compared). Coordinates are exact integers.
-/

namespace Litiv.Maxima

/-! ## Non-maximum suppression -/

/-- Content of a single-channel matrix. -/
abbrev Vals := Nat → Nat → Int

/-- The positions `y0 ≤ y < y1`, `x0 ≤ x < x1` in row-major order: a submatrix `oInput(ic,jc)`. -/
def region (y0 y1 x0 x1 : Nat) : List (Nat × Nat) :=
  (List.range' y0 (y1 - y0)).flatMap fun (y : Nat) => (List.range' x0 (x1 - x0)).map fun (x : Nat) => (y, x)

/-- `cv::minMaxLoc` restricted to the maximum, for the list of selected positions in row-major order: the first position of the
maximum, `none` when nothing is selected. -/
def maxLoc (f : Vals) : List (Nat × Nat) → Option (Nat × Nat)
  | l => l.foldl (fun (best : Option (Nat × Nat)) (p : Nat × Nat) =>
      match best with
      | none => some p
      | some b => if f p.1 p.2 > f b.1 b.2 then some p else some b) none

/-- Value returned by `cv::minMaxLoc`: zero when nothing is selected. -/
def maxVal (f : Vals) : Option (Nat × Nat) → Int
  | none => 0
  | some p => f p.1 p.2

/-- Candidate position `cc`, imgproc.hpp:141: `cv::minMaxLoc` returns the location (-1,-1) when nothing is selected. -/
def candidate (m n : Nat) : Option (Nat × Nat) → Int × Int
  | none => ((m : Int) - 1, (n : Int) - 1)
  | some p => ((p.1 : Int), (p.2 : Int))

/-- The neighbours examined, imgproc.hpp:143-151: the window around `cc` clipped to the image without the block at `(m,n)`, selected
by the mask. -/
def others (rows cols w : Nat) (mask : Nat → Nat → Bool) (m n : Nat) (cc : Int × Int) : List (Nat × Nat) :=
  let y0 := (max (cc.1 - w) 0).toNat
  let y1 := (min (cc.1 + w + 1) rows).toNat
  let x0 := (max (cc.2 - w) 0).toNat
  let x1 := (min (cc.2 + w + 1) cols).toNat
  let iis0 := m - y0
  let iis1 := min (m - y0 + w + 1) (y1 - y0)
  let jis0 := n - x0
  let jis1 := min (n - x0 + w + 1) (x1 - x0)
  (region y0 y1 x0 x1).filter fun (p : Nat × Nat) =>
    mask p.1 p.2 && !(decide (iis0 ≤ p.1 - y0 ∧ p.1 - y0 < iis1) && decide (jis0 ≤ p.2 - x0 ∧ p.2 - x0 < jis1))

/-- What one block writes, imgproc.hpp:135-155: `none` for a write outside the matrix, otherwise the pixel marked, if any. -/
def blockMark (rows cols w : Nat) (f : Vals) (mask : Nat → Nat → Bool) (m n : Nat) : Option (Option (Nat × Nat)) :=
  let best := maxLoc f ((region m (min (m + w + 1) rows) n (min (n + w + 1) cols)).filter fun (p : Nat × Nat) => mask p.1 p.2)
  let vcmax := maxVal f best
  let cc := candidate m n best
  let vnmax := maxVal f (maxLoc f (others rows cols w mask m n cc))
  if vcmax > vnmax then
    (if 0 ≤ cc.1 ∧ 0 ≤ cc.2 then some (some (cc.1.toNat, cc.2.toNat)) else none)
  else some none

/-- `0, step, 2*step, …` below `n`: the values of `for(int m = 0; m < M; m+=nWinSize+1)`. -/
def starts (n step : Nat) : List Nat := (List.range ((n + step - 1) / step)).map fun (k : Nat) => k * step

/-- The blocks in the order visited. -/
def blocks (rows cols w : Nat) : List (Nat × Nat) :=
  (starts rows (w + 1)).flatMap fun (m : Nat) => (starts cols (w + 1)).map fun (n : Nat) => (m, n)

/-- `lv::nonMaxSuppression<w>`, imgproc.hpp:122-158: which pixels are set to 255 (all others are 0); `none` if the program writes outside
the matrix. An empty mask is represented by the mask selecting everything. -/
def nonMaxSuppression (rows cols w : Nat) (f : Vals) (mask : Nat → Nat → Bool) : Option (Nat → Nat → Bool) :=
  (blocks rows cols w).foldl (fun (acc : Option (Nat → Nat → Bool)) (b : Nat × Nat) =>
    acc.bind fun (out : Nat → Nat → Bool) =>
      (blockMark rows cols w f mask b.1 b.2).map fun (mark : Option (Nat × Nat)) =>
        match mark with
        | none => out
        | some p => fun y x => if y = p.1 ∧ x = p.2 then true else out y x) (some fun _ _ => false)

/-! ## Directional local maxima -/

/-- `lv::unroll<n>(f)` accumulating with `&=`. -/
def allOf (h : Nat) (test : Nat → Bool) : Bool := (List.range h).foldl (fun (res : Bool) (n : Nat) => res && test n) true

/-- `anMap[idx]` with `anMap` pointing to element `i` of the map `g` and `idx` a `size_t`: the address wraps around, so the index acts
as a signed 64-bit number. -/
def elem (g : Int → Int) (i : Int) (idx : BitVec 64) : Int := g (i + idx.toInt)

/-- An `int` converted to `size_t`. -/
def toSize (k : Int) : BitVec 64 := BitVec.ofInt 64 k

/-- `isLocalMaximum_Horizontal<h>`, imgproc.hpp:161-172. -/
def isLocalMaximumHorizontal (h : Nat) (g : Int → Int) (i : Int) (colStep _rowStep : BitVec 64) : Bool :=
  let nVal := elem g i 0
  allOf h (fun (n : Nat) => decide (nVal > elem g i (toSize (-(n : Int) - 1) * colStep))) &&
  allOf h (fun (n : Nat) => decide (nVal ≥ elem g i (toSize ((n : Int) + 1) * colStep)))

/-- `isLocalMaximum_Vertical<h>`, imgproc.hpp:175-186. -/
def isLocalMaximumVertical (h : Nat) (g : Int → Int) (i : Int) (_colStep rowStep : BitVec 64) : Bool :=
  let nVal := elem g i 0
  allOf h (fun (n : Nat) => decide (nVal > elem g i (toSize (-(n : Int) - 1) * rowStep))) &&
  allOf h (fun (n : Nat) => decide (nVal ≥ elem g i (toSize ((n : Int) + 1) * rowStep)))

/-- `isLocalMaximum_Diagonal<h,bInvDiag>`, imgproc.hpp:189-208. -/
def isLocalMaximumDiagonal (h : Nat) (g : Int → Int) (i : Int) (colStep rowStep : BitVec 64) (bInvDiag : Bool) : Bool :=
  let nVal := elem g i 0
  let s : Int := if bInvDiag then -1 else 1
  allOf h (fun (n : Nat) => decide (nVal > elem g i (toSize (s * (-(n : Int) - 1)) * colStep + toSize (-(n : Int) - 1) * rowStep))) &&
  allOf h (fun (n : Nat) => decide (nVal ≥ elem g i (toSize (s * ((n : Int) + 1)) * colStep + toSize ((n : Int) + 1) * rowStep)))

end Litiv.Maxima
