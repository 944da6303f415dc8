import Mathlib.Data.List.Basic

/-!
# Bases of the cosegmentation algorithms

`modules/video/include/litiv/video/VideoCosegmentationUtils.inl.hpp:23-122` (regions of interest of a video
cosegmentation algorithm with several input streams) and
`modules/imgproc/include/litiv/imgproc/CosegmentationUtils.inl.hpp:23-63` (forms of `apply` on lists).

Images and masks are two-dimensional. `lvAssert_` throws: a function that may throw returns, next to a flag that
says whether it went through, the object as it is left behind. The warning about grayscale images in colour
format (`:89-97`) is left out.
-/

namespace Litiv.Coseg

/-- A mask (`cv::Mat_<uchar>`): its size, and its pixels by row and column. A mask with no row or no column is
empty. -/
structure Mask where
  rows : Nat
  cols : Nat
  px : Nat → Nat → Nat

/-- `cv::Mat::empty`. -/
def Mask.isEmpty (m : Mask) : Bool := m.rows == 0 || m.cols == 0

/-- `cv::Mat::total`. -/
def Mask.total (m : Mask) : Nat := m.rows * m.cols

/-- `cv::countNonZero`: the non-zero pixels, row by row. -/
def nonZero (m : Mask) : Nat :=
  ((List.range m.rows).map fun y => ((List.range m.cols).countP fun x => m.px y x != 0)).sum

/-- An input image: only its size, its type and whether it is stored in one piece matter here. -/
structure Img where
  rows : Nat
  cols : Nat
  type : Nat
  cont : Bool

/-- What the object keeps for one stream: `m_aROIs`, `m_anOrigROIPxCounts`, `m_anFinalROIPxCounts`,
`m_anTotPxCounts`, `m_anInputInfos` (size and type), `m_aLastMasks`, `m_aLastInputs` (its size; all zeros). -/
structure Slot where
  roi : Mask
  orig : Nat
  fin : Nat
  tot : Nat
  info : Nat × Nat × Nat
  lastMask : Mask
  lastInput : Nat × Nat × Nat

/-- The object, `VideoCosegmentationUtils.hpp` members in the order of the constructor. -/
structure Obj where
  init : Bool
  modelInit : Bool
  autoReset : Bool
  border : Nat
  frameIdx : Nat
  sinceReset : Nat
  cooldown : Nat
  slots : List Slot

/-- An empty mask. -/
def noMask : Mask := ⟨0, 0, fun _ _ => 0⟩

/-- The constructor, `VideoCosegmentationUtils.inl.hpp:64-78`, for `n` streams; `border` is the value that the
derived class gives to `m_nROIBorderSize`. -/
def make (n border : Nat) : Obj :=
  ⟨false, false, true, border, 2 ^ 64 - 1, 0, 0,
    List.replicate n ⟨noMask, 0, 0, 0, (0, 0, 0), noMask, (0, 0, 0)⟩⟩

/-- Lines 41-44: a black mask into which the part of the mask away from its borders is copied. `cv::Mat(m,rect)`
throws (`none`) when the rectangle has a negative size. -/
def shrink (b : Nat) (m : Mask) : Option Mask :=
  if 2 * b ≤ m.cols ∧ 2 * b ≤ m.rows then
    some ⟨m.rows, m.cols, fun y x =>
      if b ≤ y ∧ y < b + (m.rows - 2 * b) ∧ b ≤ x ∧ x < b + (m.cols - 2 * b) then m.px y x else 0⟩
  else none

/-- Lines 39-46: the second loop of `validateROIs`, on the masks of the caller, which it replaces one by one.
The flag says whether it went to the end. -/
def shrinkAll (b : Nat) : List Mask → List Mask × Bool
  | [] => ([], true)
  | m :: t =>
    match shrink b m with
    | none => (m :: t, false)
    | some m' => (m' :: (shrinkAll b t).1, (shrinkAll b t).2)

/-- `validateROIs`, lines 33-47: the masks of the caller as they are left, and whether it returned normally. -/
def validateROIs (b : Nat) (rois : List Mask) : List Mask × Bool :=
  if rois.all (fun m => !m.isEmpty && decide (0 < nonZero m)) then
    if 0 < b then shrinkAll b rois else (rois, true)
  else (rois, false)

/-- `setROIs`, lines 49-54: the object, the masks of the caller, and whether it returned normally. -/
def setROIs (o : Obj) (rois : List Mask) : Obj × List Mask × Bool :=
  let v := validateROIs o.border rois
  if v.2 then
    ({ o with slots := List.zipWith (fun (s : Slot) (m : Mask) => { s with roi := m }) o.slots v.1 }, v.1, true)
  else (o, v.1, false)

/-- `getROIsCopy`, lines 56-62. -/
def getROIsCopy (o : Obj) : List Mask := o.slots.map fun s => s.roi

/-- `setAutomaticModelReset`, lines 28-31. -/
def setAutomaticModelReset (o : Obj) (v : Bool) : Obj := { o with autoReset := v }

/-- Lines 98-103: the mask of a stream: all white when none is given, else a copy. `none`: the sizes differ. -/
def newROI (i : Img) (r : Mask) : Option Mask :=
  if r.isEmpty then some ⟨i.rows, i.cols, fun _ _ => 255⟩
  else if r.rows = i.rows ∧ r.cols = i.cols then some r
  else none

/-- The first loop of `initialize_common`, lines 87-106: the streams as they are left (the count is stored before
it is tested), and the new masks when it went to the end. -/
def gather : List (Img × Mask) → List Slot → List Slot × Option (List Mask)
  | (i, r) :: t, s :: ss =>
    if i.rows = 0 ∨ i.cols = 0 ∨ i.cont = false then (s :: ss, none)
    else
      match newROI i r with
      | none => (s :: ss, none)
      | some m =>
        if nonZero m = 0 then ({ s with orig := nonZero m } :: ss, none)
        else ({ s with orig := nonZero m } :: (gather t ss).1, (gather t ss).2.map fun l => m :: l)
  | _, ss => (ss, some [])

/-- One turn of the second loop of `initialize_common`, lines 109-120, on a stream whose count is not zero. -/
def install (i : Img) (m : Mask) (s : Slot) : Slot :=
  { s with
    roi := m, fin := nonZero m, tot := m.total, info := (i.rows, i.cols, i.type),
    lastMask := ⟨i.rows, i.cols, fun _ _ => 0⟩, lastInput := (i.rows, i.cols, i.type) }

/-- The second loop of `initialize_common`, lines 108-121. The counters of frames are reset in every turn. -/
def installAll (o : Obj) : List (Img × Mask) → List Slot → Obj × List Slot × Bool
  | (i, m) :: t, s :: ss =>
    if nonZero m = 0 then (o, { s with fin := nonZero m } :: ss, false)
    else
      let r := installAll { o with frameIdx := 0, sinceReset := 0, cooldown := 0 } t ss
      (r.1, install i m s :: r.2.1, r.2.2)
  | _, ss => (o, ss, true)

/-- `initialize_common`, lines 80-122: the object as it is left, and whether the call returned normally. -/
def initializeCommon (o : Obj) (imgs : List Img) (rois : List Mask) : Obj × Bool :=
  let o1 := { o with init := false, modelInit := false }
  let g := gather (imgs.zip rois) o1.slots
  match g.2 with
  | none => ({ o1 with slots := g.1 }, false)
  | some ms =>
    let v := validateROIs o1.border ms
    if v.2 then
      let r := installAll o1 (imgs.zip v.1) g.1
      ({ r.1 with slots := r.2.1 }, r.2.2)
    else ({ o1 with slots := g.1 }, false)

/-- `initialize(images)`, lines 23-26, up to the work of the derived class: no mask is given. -/
def initializeImages (o : Obj) (imgs : List Img) : Obj × Bool :=
  initializeCommon o imgs (List.replicate imgs.length noMask)

/-- `IICosegmentor::apply` on vectors, `CosegmentationUtils.inl.hpp:23-41`. `core` is the algorithm on arrays of
`nIn` images and `nOut` masks (the masks given to it may serve as a start). `none`: an assertion failed. -/
def applyVec {I M : Type} (nIn nOut : Nat) (core : List I → List M → List M) (dflt : M)
    (imgs : List I) (masks : List M) : Option (List M) :=
  if imgs.length = nIn then
    let arr := imgs.take nIn
    if masks.isEmpty then some ((core arr (List.replicate nOut dflt)).take nOut)
    else if masks.length = nOut then some ((core arr masks).take nOut)
    else none
  else none

end Litiv.Coseg
