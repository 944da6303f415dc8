/-!
# Matrix element types

Model of `MatType` and `MatRawType_` (modules/utils/include/litiv/utils/opencv.hpp 54-63, 111-124, 158-191, 194-307). OpenCV's
macros `CV_MAT_DEPTH`, `CV_MAT_CN` and `CV_MAKETYPE` are modelled by their definitions: the lowest three bits, the nine bits
above, plus one, and their combination. `int` codes are unbounded integers in two's complement.
-/

namespace Litiv.MatType

/-- The data types accepted by `isDataTypeCompat` (opencv.hpp 91-107). -/
inductive Data where
  | u8 | s8 | u16 | s16 | s32 | f32 | f64
deriving DecidableEq

/-- `getCVDepthFromDataType` (opencv.hpp 111-123). -/
def Data.depth : Data → Int
  | .u8 => 0
  | .s8 => 1
  | .u16 => 2
  | .s16 => 3
  | .s32 => 4
  | .f32 => 5
  | .f64 => 6

/-- An element type: a data type, or `cv::Vec` of several. -/
inductive Elem where
  | scalar (d : Data)
  | vec (d : Data) (n : Nat)
deriving DecidableEq

/-- `CV_MAT_DEPTH`. -/
def cvDepth (code : Int) : Int := code % 8

/-- `CV_MAT_CN`. -/
def cvCn (code : Int) : Int := code / 8 % 512 + 1

/-- `CV_MAKETYPE`. -/
def cvMake (depth cn : Int) : Int := depth % 8 + (cn - 1) * 8

/-- `CV_MAT_DEPTH_BYTES` (opencv.hpp 54-57). -/
def depthBytes (code : Int) : Nat :=
  if cvDepth code ≤ 1 then 1 else if cvDepth code < 4 then 2 else if cvDepth code < 6 then 4 else 8

/-- `CV_MAT_DEPTH_STR` (opencv.hpp 59-63). -/
def depthStr (code : Int) : String :=
  if cvDepth code = 0 then "CV_8U" else if cvDepth code = 1 then "CV_8S" else if cvDepth code = 2 then "CV_16U"
  else if cvDepth code = 3 then "CV_16S" else if cvDepth code = 4 then "CV_32S" else if cvDepth code = 5 then "CV_32F"
  else "CV_64F"

/-- `MatType`: the code it holds (opencv.hpp 305). -/
structure MType where
  code : Int
deriving DecidableEq

/-- The constructor and the assignment from a code (opencv.hpp 198-201, 215-220); `none` if an assertion fails. -/
def ofCode (code : Int) : Option MType :=
  if 0 ≤ cvDepth code ∧ cvDepth code ≤ 6 then
    if 0 < cvCn code ∧ cvCn code ≤ 4 then some ⟨code⟩ else none
  else none

/-- The constructor and the assignment from a matrix of the given type (opencv.hpp 203-213, 221-234), whose assertions are
only checked in debug builds. -/
def ofMat (debug : Bool) (code : Int) : Option MType := if debug then ofCode code else some ⟨code⟩

/-- `channels` (opencv.hpp 236). -/
def MType.channels (t : MType) : Int := cvCn t.code

/-- `depth` (opencv.hpp 238). -/
def MType.depth (t : MType) : Int := cvDepth t.code

/-- `depthBytes` (opencv.hpp 240). -/
def MType.bytes (t : MType) : Nat := depthBytes t.code

/-- `elemSize` (opencv.hpp 242). -/
def MType.elemSize (t : MType) : Nat := depthBytes t.code * (cvCn t.code).toNat

/-- The conversion to a string (opencv.hpp 250, 256). -/
def MType.str (t : MType) : String := depthStr t.code ++ "C" ++ toString (cvCn t.code).toNat

/-- `operator==` (opencv.hpp 252). -/
def MType.same (a b : MType) : Bool := a.code == b.code

/-- The test of a depth against a data type (opencv.hpp 294-301, and likewise in 270-292). -/
def depthIs (depth : Int) (d : Data) : Bool :=
  depth == 0 && d == .u8 || depth == 1 && d == .s8 || depth == 2 && d == .u16 || depth == 3 && d == .s16 ||
  depth == 4 && d == .s32 || depth == 5 && d == .f32 || depth == 6 && d == .f64

/-- `isTypeCompat<T,bCheckWithChannels>` (opencv.hpp 258-302). -/
def MType.compat (t : MType) (withChannels : Bool) (e : Elem) : Bool :=
  if withChannels && decide (t.channels > 1) then
    if t.channels == 2 then match e with
      | .vec d n => n == 2 && depthIs t.depth d
      | .scalar _ => false
    else if t.channels == 3 then match e with
      | .vec d n => n == 3 && depthIs t.depth d
      | .scalar _ => false
    else match e with
      | .vec d n => n == 4 && depthIs t.depth d
      | .scalar _ => false
  else match e with
    | .scalar d => depthIs t.depth d
    | .vec _ _ => false

/-- `MatRawType_<T,n>::type` (opencv.hpp 181). -/
def rawType (d : Data) (n : Nat) : Int := cvMake d.depth n

end Litiv.MatType
