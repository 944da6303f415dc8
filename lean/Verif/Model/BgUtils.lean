import Verif.Model.Consensus

/-!
# Model of `modules/video/src/BackgroundSubtractionUtils.cpp:20-155`

Regions of interest are functions of row and column. Matrices are continuous (they are created, cloned or zero-filled
by this code), so the linear index of a pixel is `row*width + column`; its conversion to `int` is exact (fewer than
`2^31` pixels). Failed assertions and OpenCV exceptions are `none`. The warning about gray images stored with several
channels (lines 72-81) is not modelled. The colour frame is a function of the linear pixel index with values in an
arbitrary type (the channels of a pixel are copied together, lines 127 and 142-148).
-/

namespace Litiv.BgUtils

/-- A single-channel 8-bit image. -/
abbrev Gray := Nat → Nat → BitVec 8

/-- A new zero mask into which the rectangle at column `x0`, row `y0` of the given size is copied from `roi`, as in
`BackgroundSubtractionUtils.cpp:31-34`; OpenCV throws when the rectangle has a negative size or leaves the image. -/
def keepRect (rows cols : Nat) (x0 y0 : Nat) (w h : Int) (roi : Gray) : Option Gray :=
  if 0 ≤ w ∧ (x0 : Int) + w ≤ cols ∧ 0 ≤ h ∧ (y0 : Int) + h ≤ rows then
    some fun y x => if x0 ≤ x ∧ (x : Int) < x0 + w ∧ y0 ≤ y ∧ (y : Int) < y0 + h then roi y x else 0
  else none

/-- `IIBackgroundSubtractor::validateROI`, `BackgroundSubtractionUtils.cpp:28-36`; `b` is `m_nROIBorderSize`. The same code is
applied to each ROI by `IVideoCosegmentor_::validateROIs`, `VideoCosegmentationUtils.inl.hpp:39-46`. -/
def validateROI (b rows cols : Nat) (roi : Gray) : Option Gray :=
  if rows = 0 ∨ cols = 0 then none
  else if 0 < b then keepRect rows cols b b ((cols : Int) - b * 2) ((rows : Int) - b * 2) roi
  else some roi

/-- `LSS::validateROI`, `LSS.cpp:179-186`, with `win` the correlation window size, and `DASC::validateROI`,
`DASC.cpp:227-234`, with `win` twice the largest pattern offset. -/
def validateWin (win rows cols : Nat) (roi : Gray) : Option Gray :=
  if rows = 0 ∨ cols = 0 then none
  else keepRect rows cols (win / 2) (win / 2) ((cols : Int) - (win / 2 : Nat) * 2) ((rows : Int) - (win / 2 : Nat) * 2) roi

/-- `MutualInfo::validateROI`, `MI.cpp:156-162`, for a window of `ww` columns and `wh` rows (both odd, asserted at
construction). -/
def validateMI (ww wh rows cols : Nat) (roi : Gray) : Option Gray :=
  if rows = 0 ∨ cols = 0 then none
  else keepRect rows cols (ww / 2) (wh / 2) ((cols : Int) - ww) ((rows : Int) - wh) roi

/-- The in-image pixels of the 3x3 window around `(y, x)`. -/
def window3 (rows cols y x : Nat) : List (Nat × Nat) :=
  ((List.range 3).flatMap fun (dy : Nat) => (List.range 3).map fun (dx : Nat) => (y + dy, x + dx)).filterMap fun p =>
    if 1 ≤ p.1 ∧ p.1 - 1 < rows ∧ 1 ≤ p.2 ∧ p.2 - 1 < cols then some (p.1 - 1, p.2 - 1) else none

/-- One iteration of `cv::dilate` with the default 3x3 element and border (OpenCV): maximum over the part of the window
inside the image. -/
def dilate1 (rows cols : Nat) (f : Gray) : Gray := fun y x =>
  (window3 rows cols y x).foldl (fun m p => if m < f p.1 p.2 then f p.1 p.2 else m) 0

/-- `cv::dilate` with `it` iterations (OpenCV; line 94). -/
def dilate (rows cols : Nat) : Nat → Gray → Gray
  | 0, f => f
  | it + 1, f => dilate rows cols it (dilate1 rows cols f)

/-- `oTempROI/2` on `uchar` (OpenCV; line 95): rounded to nearest, ties to even. -/
def half (t : BitVec 8) : BitVec 8 :=
  if t.toNat % 2 = 0 then BitVec.ofNat 8 (t.toNat / 2)
  else if t.toNat / 2 % 2 = 0 then BitVec.ofNat 8 (t.toNat / 2) else BitVec.ofNat 8 (t.toNat / 2 + 1)

/-- A region of interest with its size; `m_oROI`, empty (`none`) before any ROI was set. -/
structure Roi where
  rows : Nat
  cols : Nat
  px : Gray

/-- Value of a mask at a linear index, `m_oROI.data[nPxIter]` (continuous matrix). -/
def lin {V : Type} (cols : Nat) (f : Nat → Nat → V) (i : Nat) : V := f (i / cols) (i % cols)

/-- `cv::countNonZero`. -/
def countNonZero (rows cols : Nat) (f : Gray) : Nat := (List.range (rows * cols)).countP fun i => decide (lin cols f i ≠ 0)

/-- The choice of the new ROI, `BackgroundSubtractionUtils.cpp:82-96`. `prev` is `m_oROI`, `roi` the (possibly empty)
argument, `rows × cols` the size of the initialization image. -/
def chooseROI (b rows cols : Nat) (prev roi : Option Roi) : Option Gray :=
  match roi with
  | none =>
    match prev with
    | some p => if p.rows = rows ∧ p.cols = cols then some p.px else some fun _ _ => 255
    | none => some fun _ _ => 255
  | some r =>
    if r.rows = rows ∧ r.cols = cols then
      if (List.range (rows * cols)).all fun i => lin cols r.px i == 0 || lin cols r.px i == 255 then
        some fun y x => r.px y x ||| half (dilate rows cols b r.px y x)
      else none
    else none

/-- State of the table-filling loop, `BackgroundSubtractionUtils.cpp:117-154`: `m_vnPxIdxLUT`, `nModelIdx` of
`m_voPxInfoLUT` (`none` for `SIZE_MAX`), `m_oLastColorFrame`, and `nModelIter`. -/
structure Tab (V : Type) where
  lut : List Nat
  modelIdx : Nat → Option Nat
  last : Nat → V
  iter : Nat

/-- One iteration, `BackgroundSubtractionUtils.cpp:122-131` and `137-152`; `none`: write past the end of `m_vnPxIdxLUT`. -/
def tabStep {V : Type} (cols : Nat) (roi : Gray) (img : Nat → V) (t : Tab V) (i : Nat) : Option (Tab V) :=
  if lin cols roi i ≠ 0 then
    if t.iter < t.lut.length then
      some ⟨t.lut.set t.iter i, fun j => if j = i then some t.iter else t.modelIdx j,
        fun j => if j = i then img i else t.last j, t.iter + 1⟩
    else none
  else some { t with modelIdx := fun j => if j = i then none else t.modelIdx j }

/-- `m_voPxInfoLUT[i].nImgCoord_Y` and `nImgCoord_X`, `BackgroundSubtractionUtils.cpp:122-123` and `137-138`. -/
def coords (cols i : Nat) : Nat × Nat := (i / cols, i % cols)

/-- Result of `initialize_common`: the retained ROI and the tables. -/
structure Common (V : Type) where
  roi : Gray
  lut : List Nat
  modelIdx : Nat → Option Nat
  last : Nat → V

/-- `IIBackgroundSubtractor::initialize_common`, `BackgroundSubtractionUtils.cpp:70-155`. `zero` fills the colour frame
(line 116); `img` gives the pixels of the initialization image by linear index. -/
def initCommon {V : Type} (b rows cols : Nat) (zero : V) (prev roi : Option Roi) (img : Nat → V) : Option (Common V) :=
  if rows = 0 ∨ cols = 0 then none
  else match chooseROI b rows cols prev roi with
  | none => none
  | some r0 =>
    if countNonZero rows cols r0 = 0 then none
    else match validateROI b rows cols r0 with
    | none => none
    | some r =>
      if countNonZero rows cols r = 0 then none
      else
        ((List.range (rows * cols)).foldlM (tabStep cols r img)
          ⟨List.replicate (countNonZero rows cols r) 0, fun _ => some 0, fun _ => zero, 0⟩).map fun t =>
            ⟨r, t.lut, t.modelIdx, t.last⟩

/-- `IIBackgroundSubtractor::setROI` before initialization, `BackgroundSubtractionUtils.cpp:38-40,46-47`: the validated ROI
is kept for the next initialization. -/
def setROI (b : Nat) (r : Roi) : Option Roi :=
  match validateROI b r.rows r.cols r.px with
  | none => none
  | some px => if countNonZero r.rows r.cols px = 0 then none else some ⟨r.rows, r.cols, px⟩

end Litiv.BgUtils
