import Mathlib.Algebra.BigOperators.Intervals
import Mathlib.Algebra.BigOperators.Ring.Finset
import Mathlib.Data.List.Sort

/-!
# Model of integral images, histogram medians and median filters

`modules/imgproc/src/imgproc.cpp:154-359, 610-698`. Images are functions from row and column to a byte, with their size
given separately; only positions inside the image are read. Loops over pixels whose iterations write different elements
(including those marked `omp parallel for`) are modelled by the function computing one element. Input and output are assumed to be
different matrices. Index and size arithmetic in `int` is exact (rows, columns and kernel size far below `2^31`).
-/

namespace Litiv.Filters

/-- Content of a single-channel 8-bit matrix. -/
abbrev Img := Nat → Nat → BitVec 8

/-! ## Integral images -/

/-- `vextq_u16(a, b, n)`: lanes `n … n+7` of the sixteen lanes of `a` followed by `b`. -/
def vext (a b : Nat → BitVec 16) (n i : Nat) : BitVec 16 := if i + n < 8 then a (i + n) else b (i + n - 8)

/-- The three shift-and-add steps on eight 16-bit lanes, imgproc.cpp:629-631. -/
def prefix8 (v : Nat → BitVec 16) : Nat → BitVec 16 :=
  let z : Nat → BitVec 16 := fun _ => 0
  let v1 := fun (i : Nat) => v i + vext z v 7 i
  let v2 := fun (i : Nat) => v1 i + vext z v1 6 i
  fun (i : Nat) => v2 i + vext z v2 4 i

/-- `vmovl_s16(vreinterpretq_s16_u16 …)` followed by `vaddq_s32` with the carry; 32-bit wrap-around. -/
def widenAdd (v : BitVec 16) (carry : BitVec 32) : BitVec 32 := v.signExtend 32 + carry

/-- One block of sixteen columns, imgproc.cpp:626-639: returns the sixteen outputs and the last prefix sum. -/
def neonBlock (src : Nat → BitVec 8) (col : Nat) (carry : BitVec 32) : (Nat → BitVec 32) × BitVec 32 :=
  let lo := prefix8 fun (i : Nat) => (src (col + i)).zeroExtend 16
  let hi := prefix8 fun (i : Nat) => (src (col + 8 + i)).zeroExtend 16
  let carry' := widenAdd (lo 7) carry
  let carry'' := widenAdd (hi 7) carry'
  (fun (i : Nat) => if i < 8 then widenAdd (lo i) carry else widenAdd (hi (i - 8)) carry', carry'')

/-- The scalar loop over the remaining columns, imgproc.cpp:641-644: `n` columns from `col`; `none` on signed overflow. -/
def neonTail (src : Nat → BitVec 8) : Nat → Nat → BitVec 32 → (Nat → BitVec 32) → Option (Nat → BitVec 32)
  | 0, _, _, out => some out
  | n + 1, col, latest, out =>
    let s := latest.toInt + (src col).toNat
    if s < 2 ^ 31 then neonTail src n (col + 1) (BitVec.ofInt 32 s) (fun c => if c = col then BitVec.ofInt 32 s else out c) else none

/-- The prefix sums of one row, imgproc.cpp:622-644: blocks of sixteen while `nColIdx+16<cols`, then the scalar loop. `fuel` bounds the
number of blocks (`cols` always suffices). -/
def neonRow (src : Nat → BitVec 8) (cols : Nat) : Nat → Nat → BitVec 32 → (Nat → BitVec 32) → Option (Nat → BitVec 32)
  | 0, _, _, _ => none
  | fuel + 1, col, latest, out =>
    if col + 16 < cols then
      let b := neonBlock src col latest
      neonRow src cols fuel (col + 16) b.2 (fun c => if col ≤ c ∧ c < col + 16 then b.1 (c - col) else out c)
    else neonTail src (cols - col) col latest out

/-- `vqaddq_s32`: signed saturating addition. -/
def qadd (a b : BitVec 32) : BitVec 32 := BitVec.ofInt 32 (max (-(2 ^ 31)) (min (2 ^ 31 - 1) (a.toInt + b.toInt)))

/-- Number of columns handled by the blocks of sixteen: the final value of `nColIdx` in imgproc.cpp:648 (and :625). -/
def blocked (cols : Nat) : Nat := (cols - 1) / 16 * 16

/-- Adding a row to the next one, imgproc.cpp:647-656: saturating in the blocks, plain `+=` (undefined on overflow: `none`) in the
remaining columns. -/
def addRows (cols : Nat) (above cur : Nat → BitVec 32) : Option (Nat → BitVec 32) :=
  if ∀ c < cols, blocked cols ≤ c → (above c).toInt + (cur c).toInt < 2 ^ 31 then
    some fun (c : Nat) => if c < blocked cols then qadd (above c) (cur c) else above c + cur c
  else none

/-- Row `r` of `oOutput` after both passes (row `r+1` of the integral image without its first column). Simplification: the
horizontal and vertical passes are interleaved, row by row; they touch the rows in the same order. -/
def neonOut (f : Img) (cols : Nat) : Nat → Option (Nat → BitVec 32)
  | 0 => neonRow (f 0) cols (cols + 1) 0 0 (fun _ => 0)
  | r + 1 => (neonOut f cols r).bind fun above => (neonRow (f (r + 1)) cols (cols + 1) 0 0 (fun _ => 0)).bind (addRows cols above)

/-- Which implementation computes the integral image, imgproc.cpp:615-616, 661. -/
inductive Backend
  | opencv
  | neon
  deriving DecidableEq

/-- Requested output depth; `default` is the default argument -1 (imgproc.hpp:82-86). -/
inductive Depth
  | default
  | s32
  deriving DecidableEq

/-- The rows of the integral image: first row zero, first column zero (imgproc.cpp:618, 622). For the OpenCV backend this is the documented
result of `cv::integral` reduced to a 32-bit integer. Simplification: all rows are computed by `neonOut` independently. -/
def integralRows (be : Backend) (rows cols : Nat) (f : Img) : Option (Nat → Nat → BitVec 32) :=
  match be with
  | .opencv => some fun (y x : Nat) => BitVec.ofNat 32 (∑ i ∈ Finset.range y, ∑ j ∈ Finset.range x, (f i j).toNat)
  | .neon =>
    if ∀ r < rows, (neonOut f cols r).isSome then
      some fun (y x : Nat) => if y = 0 ∨ x = 0 then 0 else ((neonOut f cols (y - 1)).getD fun _ => 0) (x - 1)
    else none

/-- `lv::integral` without mask, imgproc.cpp:610-662; `none` when an assertion fails. The matrix is not empty. -/
def integral (be : Backend) (d : Depth) (rows cols : Nat) (f : Img) : Option (Nat → Nat → BitVec 32) :=
  if 0 < rows ∧ 0 < cols ∧ d = .s32 then integralRows be rows cols f else none

/-- `m.setTo(v, mask==0)`. -/
def zeroOutside (mask : Img) (f : Img) : Img := fun y x => if mask y x = 0 then 0 else f y x

/-- `lv::integral` with a mask (`none`: empty matrix), imgproc.cpp:664-675. -/
def integralMasked (be : Backend) (d : Depth) (rows cols : Nat) (f : Img) (mask : Option Img) : Option (Nat → Nat → BitVec 32) :=
  match mask with
  | none => integral be d rows cols f
  | some m => integral be d rows cols (zeroOutside m f)

/-- `lv::binaryIntegral`, imgproc.cpp:677-698. -/
def binaryIntegral (be : Backend) (d : Depth) (rows cols : Nat) (f : Img) (mask : Option Img) (force : Bool) :
    Option (Nat → Nat → BitVec 32) :=
  if force then
    let bin : Img := fun y x => if f y x ≠ 0 then 1 else 0
    match mask with
    | none => integral be d rows cols bin
    | some m => integral be d rows cols (zeroOutside m bin)
  else
    match mask with
    | none => integral be d rows cols f
    | some m => integral be d rows cols (zeroOutside m f)

/-- Four lookups in an integral image, imgproc.cpp:282-286 and :350-354. -/
def boxSum (I : Nat → Nat → BitVec 32) (y0 y1 x0 x1 : Nat) : Int :=
  let nP0 := (I y0 x0).toInt
  let nP1 := (I y0 x1).toInt
  let nP2 := (I y1 x0).toInt
  let nP3 := (I y1 x1).toInt
  nP3 - nP2 - nP1 + nP0

/-! ## Histogram median -/

/-- `lv::calcHistCounts`, imgproc.cpp:154-202: the pixels in memory order with the mask bytes (`none`: empty mask); the result is
the histogram and the number of selected pixels. -/
def histCounts (px : List Nat) (mask : Option (List (BitVec 8))) : (Nat → Nat) × Nat :=
  match mask with
  | none => (px.foldl (fun h v => fun b => if b = v then h b + 1 else h b) (fun _ => 0), px.length)
  | some m => (px.zip m).foldl (fun (s : (Nat → Nat) × Nat) (p : Nat × BitVec 8) =>
      if p.2 ≠ 0 then ((fun b => if b = p.1 then s.1 b + 1 else s.1 b), s.2 + 1) else s) ((fun _ => 0), 0)

/-- The search loop, imgproc.cpp:213-217: `none` when `vCounts[++nBinVal]` leaves the histogram of `bins` entries. `fuel` bounds the
number of iterations (`bins` always suffices). -/
def medianLoop (bins : Nat) (h : Nat → Nat) (half : Nat) : Nat → Nat → Nat → Option Nat
  | 0, _, _ => none
  | fuel + 1, bin, cnt =>
    if cnt ≤ half then (if bin + 1 < bins then medianLoop bins h half fuel (bin + 1) (cnt + h (bin + 1)) else none)
    else some bin

/-- `lv::calcMedianValue`, imgproc.cpp:204-219; `bins` is 256 or 65536. -/
def calcMedianValue (bins : Nat) (px : List Nat) (mask : Option (List (BitVec 8))) : Option Nat :=
  let h := histCounts px mask
  medianLoop bins h.1 (h.2 / 2) bins 0 (h.1 0)

/-! ## Median filters -/

/-- Rows (or columns) visited around `i`: from `max(i-off,0)` to `min(i+off,n-1)`, e.g. imgproc.cpp:241-242. -/
def span (i off n : Nat) : List Nat := (List.range n).filter fun (k : Nat) => decide (i - off ≤ k ∧ k ≤ min (i + off) (n - 1))

/-- Window positions in the order visited. -/
def window (rows cols off y x : Nat) : List (Nat × Nat) :=
  (span y off rows).flatMap fun (r : Nat) => (span x off cols).map fun (c : Nat) => (r, c)

/-- Values collected in `aKernelBuffer`, imgproc.cpp:240-247. -/
def collected (rows cols off : Nat) (f mask : Img) (y x : Nat) : List (BitVec 8) :=
  (window rows cols off y x).foldl (fun (buf : List (BitVec 8)) (p : Nat × Nat) =>
    if mask p.1 p.2 ≠ 0 then buf ++ [f p.1 p.2] else buf) []

/-- The element at position `k` after `std::nth_element` at `k`: that of the sorted sequence. -/
def nth (l : List (BitVec 8)) (k : Nat) : Option (BitVec 8) := (l.insertionSort fun (a b : BitVec 8) => a.toNat ≤ b.toNat)[k]?

/-- `lv::medianBlur` with a mask at one pixel, imgproc.cpp:221-257. The case of an empty mask is handed to `cv::medianBlur` and not
modelled. `none` when an assertion fails or the buffer of `nKernelSize*nKernelSize` elements is overrun. -/
def medianBlur (rows cols k : Nat) (f mask : Img) (dflt : BitVec 8) (y x : Nat) : Option (BitVec 8) :=
  if k > 1 ∧ k % 2 = 1 then
    let buf := collected rows cols (k / 2) f mask y x
    if buf.length ≤ k * k then
      if buf.length > 0 then nth buf ((buf.length - 1) / 2) else some dflt
    else none
  else none

/-- Corners of the clipped window, imgproc.cpp:280-281: `(top, bottom+1, left, right+1)`. -/
def corners (rows cols off y x : Nat) : Nat × Nat × Nat × Nat :=
  (y - off, min (y + off) (rows - 1) + 1, x - off, min (x + off) (cols - 1) + 1)

/-- Counts of the masked branch, imgproc.cpp:303-313: `(nKernelHits, nPositiveHits)`. -/
def maskedHits (rows cols off : Nat) (f mask : Img) (y x : Nat) : Nat × Nat :=
  (window rows cols off y x).foldl (fun (s : Nat × Nat) (p : Nat × Nat) =>
    if mask p.1 p.2 ≠ 0 then (s.1 + 1, if f p.1 p.2 ≠ 0 then s.2 + 1 else s.2) else s) (0, 0)

/-- `lv::binaryMedianBlur` at one pixel, imgproc.cpp:259-322. -/
def binaryMedianBlur (be : Backend) (rows cols k : Nat) (f : Img) (mask : Option Img) (force : Bool) (dflt : BitVec 8) (y x : Nat) :
    Option (BitVec 8) :=
  if k > 1 ∧ k % 2 = 1 then
    match mask with
    | none =>
      (binaryIntegral be .s32 rows cols f none force).map fun (I : Nat → Nat → BitVec 32) =>
        let c := corners rows cols (k / 2) y x
        let pos := boxSum I c.1 c.2.1 c.2.2.1 c.2.2.2
        let hits := (c.2.2.2 - c.2.2.1) * (c.2.1 - c.1)
        if pos > ((hits / 2 : Nat) : Int) then 255 else 0
    | some m =>
      let h := maskedHits rows cols (k / 2) f m y x
      some (if h.1 > 0 then (if h.2 > h.1 / 2 then 255 else 0) else dflt)
  else none

/-- `lv::binaryConsensus` at one pixel, imgproc.cpp:324-359; `minCount` is the optional map of minimum counts. -/
def binaryConsensus (be : Backend) (rows cols k : Nat) (f : Img) (minCount : Option (Nat → Nat → Int)) (force : Bool) (y x : Nat) :
    Option (BitVec 8) :=
  if k > 1 ∧ k % 2 = 1 then
    match minCount with
    | none => binaryMedianBlur be rows cols k f none force 0 y x
    | some t =>
      (binaryIntegral be .s32 rows cols f none force).map fun (I : Nat → Nat → BitVec 32) =>
        let c := corners rows cols (k / 2) y x
        if boxSum I c.1 c.2.1 c.2.2.1 c.2.2.2 ≥ t y x then 255 else 0
  else none

end Litiv.Filters
