import Mathlib.Data.Rat.Floor

/-!
# Superpixels: drawing

Model of `SLIC::displayMean` and `SLIC::displayBound`, `modules/imgproc/src/SLIC.cpp:247-318`.
Positions are pairs of column and row.  Labels, stored as `float`, are integers; images have three
channels of eight bits.  Sums and means of colours, computed with `float`, are exact (sums of integers
are, up to `2^24`), and `labels` has the size of `image`, which `displayMean` does not check.
-/
namespace Litiv.SlicShow

/-- A colour: blue, green and red. -/
structure Color where
  b : Nat
  g : Nat
  r : Nat
deriving DecidableEq

/-- The pixels in the order of the loops, `SLIC.cpp:255-259,296-297`. -/
def pixels (w h : Nat) : List (Nat × Nat) :=
  (List.range h).flatMap fun i => (List.range w).map fun j => (j, i)

/-- The largest label, `cv::minMaxLoc`, `SLIC.cpp:250-251`; `none` for an empty image. -/
def maxLabel (lab : Nat × Nat → ℤ) : List (Nat × Nat) → Option ℤ
  | [] => none
  | p :: ps => some (ps.foldl (fun m q => max m (lab q)) (lab p))

/-- The vectors `vLoc` and `vColor`, `SLIC.cpp:253-254`, in one; `size` is their length. -/
structure Lists where
  size : Nat
  at' : Nat → List ((Nat × Nat) × Color)

/-- One pixel of the first loop, `SLIC.cpp:259-265`; `none` is an access out of bounds. -/
def collect (img : Nat × Nat → Color) (lab : Nat × Nat → ℤ) (v : Lists) (p : Nat × Nat) : Option Lists :=
  if lab p ≥ 0 then
    let k := (lab p).toNat
    if k < v.size then
      some { v with at' := fun l => if l = k then v.at' l ++ [(p, img p)] else v.at' l }
    else none
  else some v

/-- The first loops, `SLIC.cpp:255-267`. -/
def collectAll (img : Nat × Nat → Color) (lab : Nat × Nat → ℤ) : List (Nat × Nat) → Lists → Option Lists
  | [], v => some v
  | p :: ps, v => (collect img lab v p).bind (collectAll img lab ps)

/-- `cvRound`, used by `saturate_cast<uchar>(float)`: to the nearest integer, ties to even. -/
def cvRound (q : ℚ) : ℤ :=
  let f := ⌊q⌋
  if q - f < 1 / 2 then f else if q - f > 1 / 2 then f + 1 else if f % 2 = 0 then f else f + 1

/-- `saturate_cast<uchar>(float)`. -/
def saturate (q : ℚ) : Nat := (max 0 (min 255 (cvRound q))).toNat

/-- The mean of the collected colours of a label, `SLIC.cpp:271-278`. -/
def meanColor (l : List ((Nat × Nat) × Color)) : Color :=
  let s := l.foldl (fun (s : ℚ × ℚ × ℚ) c => (s.1 + c.2.b, s.2.1 + c.2.g, s.2.2 + c.2.r)) (0, 0, 0)
  let n : ℚ := l.length
  ⟨saturate (s.1 / n), saturate (s.2.1 / n), saturate (s.2.2 / n)⟩

/-- The loop over labels, `SLIC.cpp:269-281`. -/
def paint (v : Lists) (out : Nat × Nat → Color) : Nat × Nat → Color :=
  (List.range v.size).foldl (fun out i =>
    if (v.at' i).isEmpty then out
    else (v.at' i).foldl (fun o c => fun q => if q = c.1 then meanColor (v.at' i) else o q) out) out

/-- `SLIC::displayMean`, `SLIC.cpp:247-282`; `none` is an exception for an empty image or a vector of
negative size, or an access out of bounds. -/
def displayMean (w h : Nat) (img : Nat × Nat → Color) (lab : Nat × Nat → ℤ) : Option (Nat × Nat → Color) :=
  (maxLabel lab (pixels w h)).bind fun m =>
  if m + 1 < 0 then none else
  (collectAll img lab (pixels w h) ⟨(m + 1).toNat, fun _ => []⟩).bind fun v =>
  some (paint v fun _ => ⟨0, 0, 0⟩)

/-- `dx8` and `dy8`, `SLIC.cpp:294-295`. -/
def dirs8 : List (ℤ × ℤ) := [(-1, 0), (-1, -1), (0, -1), (1, -1), (1, 0), (1, 1), (0, 1), (-1, 1)]

/-- The tested neighbour of a pixel in a direction, `SLIC.cpp:299-300`. -/
def nbr8 (w h : Nat) (p : Nat × Nat) (d : ℤ × ℤ) : Option (Nat × Nat) :=
  let x := (p.1 : ℤ) + d.1
  let y := (p.2 : ℤ) + d.2
  if x ≥ 0 ∧ x < w ∧ y ≥ 0 ∧ y < h then some (x.toNat, y.toNat) else none

/-- One neighbour of a pixel, `SLIC.cpp:298-305`; a count is at most eight. -/
def countStep (w h : Nat) (lab : Nat × Nat → ℤ) (p : Nat × Nat) (mask : Nat × Nat → Nat) (d : ℤ × ℤ) : Nat × Nat → Nat :=
  match nbr8 w h p d with
  | some q => if lab p ≠ lab q ∧ mask q < 2 then fun r => if r = p then mask p + 1 else mask r else mask
  | none => mask

/-- The masks `mask` and `segMask`, `SLIC.cpp:288,290`. -/
structure Masks where
  mask : Nat × Nat → Nat
  seg : Nat × Nat → Bool

/-- One pixel of the loops, `SLIC.cpp:298-309`. -/
def boundStep (w h : Nat) (lab : Nat × Nat → ℤ) (m : Masks) (p : Nat × Nat) : Masks :=
  let mask := dirs8.foldl (countStep w h lab p) m.mask
  if mask p ≥ 2 then ⟨mask, fun q => if q = p then true else m.seg q⟩ else ⟨mask, m.seg⟩

/-- The mask before dilation, `SLIC.cpp:288-311`. -/
def boundMask (w h : Nat) (lab : Nat × Nat → ℤ) : Nat × Nat → Bool :=
  ((pixels w h).foldl (boundStep w h lab) ⟨fun _ => 0, fun _ => false⟩).seg

/-- `cv::morphologyEx` with `MORPH_DILATE` and a full square of the given width, `SLIC.cpp:313-314`,
by contract: the anchor of the operation is the middle of the square (the anchor given to
`getStructuringElement` has no effect on full squares), and pixels out of the image do not count. -/
def dilate (w h b : Nat) (seg : Nat × Nat → Bool) : Nat × Nat → Bool := fun p =>
  (pixels w h).any fun q => seg q &&
    decide (q.1 + b / 2 ≥ p.1 ∧ q.1 + b / 2 < p.1 + b ∧ q.2 + b / 2 ≥ p.2 ∧ q.2 + b / 2 < p.2 + b)

/-- `SLIC::displayBound`, `SLIC.cpp:284-319`, for an image with three channels. -/
def displayBound (w h : Nat) (img : Nat × Nat → Color) (lab : Nat × Nat → ℤ) (colour : Color) (boundWidth : ℤ) : Nat × Nat → Color :=
  let seg := boundMask w h lab
  let seg := if boundWidth > 1 then dilate w h boundWidth.toNat seg else seg
  fun p => if seg p then colour else img p

end Litiv.SlicShow
