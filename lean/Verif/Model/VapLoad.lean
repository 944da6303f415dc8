/-!
# Images of the VAP trimodal dataset

Model of how packets of the VAP trimodal dataset are read: the options (modules/datasets/include/litiv/datasets/impl/
vap-trimod2016.hpp 75-110), stream counts and names (157-180), image information (351-355, 647-662), `getRawInputArray`
(663-749) and `getRawGTArray` (750-815). The files of one packet are given. A pixel is one number, also in color images.
`cv::resize` and `cv::remap` give images of the requested size, and of the size of the maps, with arbitrary pixels; the maps
always have the size of the original images (376, 383, 409-431). Assertions which fail are `none`; those of debug builds are left out.
-/

namespace Litiv.VapLoad

/-- Image types. -/
inductive Ty where
  | u8c3 | u8c1 | u16c1
deriving DecidableEq

/-- An image. -/
structure Img where
  ty : Ty
  rows : Nat
  cols : Nat
  px : Nat → Nat → Nat

/-- The modalities. -/
inductive Mod where
  | rgb | thermal | depth
deriving DecidableEq

/-- Interpolations. -/
inductive Interp where
  | cubic | linear

/-- The options of the dataset (75-92), the scaled image size (347-350), the offset of the thermal images (438-451), and the
number of the scene. `masks` is the option which tells the masks to be loaded as input. -/
structure Cfg where
  undistort : Bool
  rectify : Bool
  subset : Bool
  depth : Bool
  masks : Int
  rows : Nat
  cols : Nat
  offset : Nat
  scene : Nat

/-- `m_bUndistort || m_bHorizRectify` (86, 684). -/
def Cfg.calib (cfg : Cfg) : Bool := cfg.undistort || cfg.rectify

/-- `getWorkBatchDirNames` (78, 96-110): the numbers of the scenes. -/
def batches (cfg : Cfg) : List Nat := if cfg.undistort || cfg.rectify || cfg.subset then [1, 3] else [1, 2, 3]

/-- `bUseInterlacedMasks` (272, 667). -/
def Cfg.interlaced (cfg : Cfg) : Bool := cfg.masks != 0

/-- Pixels of `cv::resize` and of `cv::remap` with the maps of the two cameras. -/
structure Ops where
  resize : Interp → Nat → Nat → Img → Nat → Nat → Nat
  remapRGB : Interp → Img → Nat → Nat → Nat
  remapThermal : Interp → Img → Nat → Nat → Nat

/-- The images of a packet: for each modality the image, its ground truth mask and its approximate mask. -/
structure Files where
  image : Mod → Img
  gt : Mod → Img
  approx : Mod → Img

/-- `bUseApproxRGBMask` and so on (273-275). -/
def useApprox (cfg : Cfg) : Mod → Bool
  | .rgb => cfg.masks / 2 % 2 == 0
  | .thermal => cfg.masks / 4 % 2 == 0
  | .depth => cfg.masks / 8 % 2 == 0

/-- The mask which is loaded as input (474-484, 520-525, 537-547, 582-587, 601-610, 637-643). -/
def maskFile (cfg : Cfg) (f : Files) (m : Mod) : Img := if useApprox cfg m then f.approx m else f.gt m

/-- The check of type and size, and the resizing (681-683, 689-691, and so on). -/
def sized (cfg : Cfg) (ops : Ops) (ty : Ty) (ip : Interp) (img : Img) : Option Img :=
  if img.ty = ty ∧ img.rows = 480 ∧ img.cols = 640 then
    if img.rows ≠ cfg.rows ∨ img.cols ≠ cfg.cols then some ⟨img.ty, cfg.rows, cfg.cols, ops.resize ip cfg.rows cfg.cols img⟩
    else some img
  else none

/-- `cv::remap` with the maps of the color camera. -/
def remapRGB (ops : Ops) (ip : Interp) (img : Img) : Img := ⟨img.ty, 480, 640, ops.remapRGB ip img⟩

/-- `cv::remap` with the maps of the thermal camera. -/
def remapThermal (ops : Ops) (ip : Interp) (img : Img) : Img := ⟨img.ty, 480, 640, ops.remapThermal ip img⟩

/-- `lv::shift` by a whole number of pixels upward, filled with zero (modules/utils/src/opencv.cpp 785-826; see `Shift`). -/
def shiftUp (d : Nat) (img : Img) : Option Img :=
  if d < img.rows then some { img with px := fun y x => if y + d < img.rows then img.px (y + d) x else 0 } else none

/-- The shift of thermal images (704-705). -/
def offsetThermal (cfg : Cfg) (img : Img) : Option Img := if cfg.offset ≠ 0 then shiftUp cfg.offset img else some img

/-- A color image or mask (681-685, 688-693, 764-770). -/
def viewRGB (cfg : Cfg) (ops : Ops) (ty : Ty) (ip : Interp) (img : Img) : Option Img :=
  (sized cfg ops ty ip img).map fun a => if cfg.calib then remapRGB ops ip a else a

/-- A thermal image or mask (698-706, 709-717). -/
def viewThermal (cfg : Cfg) (ops : Ops) (ty : Ty) (ip : Interp) (img : Img) : Option Img :=
  (sized cfg ops ty ip img).bind fun a => if cfg.calib then offsetThermal cfg (remapThermal ops ip a) else some a

/-- A depth image or mask (723-735, 798-801). -/
def viewDepth (cfg : Cfg) (ops : Ops) (ty : Ty) (ip : Interp) (img : Img) : Option Img := sized cfg ops ty ip img

/-- The comparison with 128 (694, 718, 735, 771, 794, 804). -/
def binarize (img : Img) : Img := { img with ty := .u8c1, px := fun y x => if img.px y x > 128 then 255 else 0 }

/-- `cv::transpose`. -/
def transpose (img : Img) : Img := ⟨img.ty, img.cols, img.rows, fun y x => img.px x y⟩

/-- `cv::flip` with code 1. -/
def flip (img : Img) : Img := { img with px := fun y x => img.px y (img.cols - 1 - x) }

/-- The rotation of rectified images (743-744, 809-810). -/
def rotate (img : Img) : Img := flip (transpose img)

/-- All images, if none is missing. -/
def allSome : List (Option Img) → Option (List Img)
  | [] => some []
  | none :: _ => none
  | some a :: r => (allSome r).map fun l => a :: l

/-- The last part of both functions (739-748, 805-813). -/
def finish (cfg : Cfg) (l : List (Option Img)) : Option (List Img) :=
  (allSome l).bind fun l =>
    if cfg.rectify then (if cfg.depth then none else some (l.map rotate)) else some l

/-- The input images of a packet before the rotation (679-738). -/
def inputViews (cfg : Cfg) (ops : Ops) (f : Files) : List (Option Img) :=
  let rgb := viewRGB cfg ops .u8c3 .cubic (f.image .rgb)
  let thermal := viewThermal cfg ops .u8c1 .cubic (f.image .thermal)
  let depth := viewDepth cfg ops .u16c1 .cubic (f.image .depth)
  let rgbMask := (viewRGB cfg ops .u8c1 .linear (maskFile cfg f .rgb)).map binarize
  let thermalMask := (viewThermal cfg ops .u8c1 .linear (maskFile cfg f .thermal)).map binarize
  let depthMask := (viewDepth cfg ops .u8c1 .linear (maskFile cfg f .depth)).map binarize
  if cfg.interlaced then [rgb, rgbMask, thermal, thermalMask] ++ (if cfg.depth then [depth, depthMask] else [])
  else [rgb, thermal] ++ (if cfg.depth then [depth] else [])

/-- `getRawInputArray` for an existing packet (663-749). -/
def rawInputs (cfg : Cfg) (ops : Ops) (f : Files) : Option (List Img) := finish cfg (inputViews cfg ops f)

/-- The translation of thermal masks in scene 3 by 13 columns and 4 rows (775-781). -/
def fixScene3 (cfg : Cfg) (img : Img) : Img :=
  if cfg.scene = 3 then { img with px := fun y x => if 4 ≤ y ∧ 13 ≤ x then img.px (y - 4) (x - 13) else 0 } else img

/-- The thermal ground truth (772-795); the check of the image (774) is the same before and after the translation. -/
def viewThermalGT (cfg : Cfg) (ops : Ops) (img : Img) : Option Img :=
  (sized cfg ops .u8c1 .linear (fixScene3 cfg img)).bind fun a =>
    let b := if cfg.scene ≠ 2 then (if cfg.calib then remapThermal ops .linear a else a) else a
    if cfg.calib then offsetThermal cfg b else some b

/-- The ground truth of a packet before the rotation (764-805). -/
def gtViews (cfg : Cfg) (ops : Ops) (f : Files) : List (Option Img) :=
  [(viewRGB cfg ops .u8c1 .linear (f.gt .rgb)).map binarize, (viewThermalGT cfg ops (f.gt .thermal)).map binarize] ++
    (if cfg.depth then [(viewDepth cfg ops .u8c1 .linear (f.gt .depth)).map binarize] else [])

/-- `getRawGTArray` for a packet with ground truth (750-815). -/
def rawGT (cfg : Cfg) (ops : Ops) (f : Files) : Option (List Img) := finish cfg (gtViews cfg ops f)

/-- `getInputStreamCount` (157-159). -/
def inputCount (cfg : Cfg) : Nat := (if cfg.depth then 3 else 2) * (if cfg.interlaced then 2 else 1)

/-- `getGTStreamCount` (161-163). -/
def gtCount (cfg : Cfg) : Nat := if cfg.depth then 3 else 2

/-- The base of stream names (168, 172, 177). -/
def baseName (i : Nat) : String := if i = 0 then "RGB" else if i = 1 then "THERMAL" else if i = 2 then "DEPTH" else "UNKNOWN"

/-- `getInputStreamName` (165-173). -/
def inputName (cfg : Cfg) (i : Nat) : String :=
  if cfg.interlaced then baseName (i / 2) ++ (if i % 2 ≠ 0 then "_MASK" else "") else baseName i

/-- `getGTStreamName` (175-179). -/
def gtName (i : Nat) : String := baseName i ++ "_GT"

/-- Announced information: type and size. -/
structure Info where
  ty : Ty
  rows : Nat
  cols : Nat
deriving DecidableEq

/-- The announced size (351-355, 652-660). -/
def announcedSize (cfg : Cfg) (ty : Ty) : Info := if cfg.rectify then ⟨ty, cfg.cols, cfg.rows⟩ else ⟨ty, cfg.rows, cfg.cols⟩

/-- `m_vInputInfos` (351-353, 647-655). -/
def inputInfo (cfg : Cfg) (i : Nat) : Info := announcedSize cfg (if i = 0 then .u8c3 else .u8c1)

/-- `m_vGTInfos` (354-355, 656-660). -/
def gtInfo (cfg : Cfg) (_i : Nat) : Info := announcedSize cfg .u8c1

end Litiv.VapLoad
