import Verif.Model.MatType

/-!
# What matrix element types should be
-/

namespace Litiv.MatType

/-- The size of a data type in bytes. -/
def Data.size : Data → Nat
  | .u8 | .s8 => 1
  | .u16 | .s16 => 2
  | .s32 | .f32 => 4
  | .f64 => 8

/-- OpenCV's name of a data type. -/
def Data.name : Data → String
  | .u8 => "CV_8U"
  | .s8 => "CV_8S"
  | .u16 => "CV_16U"
  | .s16 => "CV_16S"
  | .s32 => "CV_32S"
  | .f32 => "CV_32F"
  | .f64 => "CV_64F"

/-- The element type with `n` values of type `d`. -/
def elemOf (d : Data) (n : Nat) : Elem := if n = 1 then .scalar d else .vec d n

/-- The data types in the order of OpenCV's depth codes. -/
def order : List Data := [.u8, .s8, .u16, .s16, .s32, .f32, .f64]

/-- The code denotes `n` values of type `d`: its lowest three bits are the place of `d` in the order of data types, and the
next nine bits are `n - 1`. -/
def Denotes (code : Int) (d : Data) (n : Nat) : Prop :=
  ∃ i : Nat, order[i]? = some d ∧ 1 ≤ n ∧ n ≤ 512 ∧ ∃ high : Int, code = i + 8 * ((n : Int) - 1) + 4096 * high

end Litiv.MatType
