import Verif.Model.TextIO

/-!
# Specification vocabulary for plain text archives
-/

namespace Litiv.TextIO.Spec

/-- Numbers with at most six significant decimal digits. -/
def Short (q : ℚ) : Prop := ∃ m k : Int, |m| < 10 ^ 6 ∧ q = (m : ℚ) * (10 : ℚ) ^ k

/-- The numbers a matrix of a given depth can hold: whole numbers in a range, or numbers with a significand of 24 or 53 bits. -/
def Holds (d : Depth) (q : ℚ) : Prop :=
  match d with
  | .u8 => ∃ n : Int, q = n ∧ 0 ≤ n ∧ n ≤ 255
  | .s8 => ∃ n : Int, q = n ∧ -128 ≤ n ∧ n ≤ 127
  | .u16 => ∃ n : Int, q = n ∧ 0 ≤ n ∧ n ≤ 65535
  | .s16 => ∃ n : Int, q = n ∧ -32768 ≤ n ∧ n ≤ 32767
  | .s32 => ∃ n : Int, q = n ∧ -2147483648 ≤ n ∧ n ≤ 2147483647
  | .f32 => ∃ m k : Int, |m| < 2 ^ 24 ∧ q = (m : ℚ) * (2 : ℚ) ^ k
  | .f64 => ∃ m k : Int, |m| < 2 ^ 53 ∧ q = (m : ℚ) * (2 : ℚ) ^ k

/-- A matrix: at least one channel, and as many elements and values as its sizes say. -/
structure WellFormed (m : Mat) : Prop where
  channels : 0 < m.channels
  elems : m.elems.length = m.sizes.prod
  values : ∀ e ∈ m.elems, e.length = m.channels

/-- All values are numbers with a given property. -/
def AllNumbers (P : ℚ → Prop) (m : Mat) : Prop := ∀ e ∈ m.elems, ∀ v ∈ e, ∃ q, v = Val.num q ∧ P q

/-- `v` is a nearest whole number to `x`, or the limit of the range beyond which `x` lies. -/
def Whole (lo hi : Int) (x : ℚ) (v : Val) : Prop :=
  ∃ n : Int, v = .num n ∧ lo ≤ n ∧ n ≤ hi ∧ (|(n : ℚ) - x| ≤ 1 / 2 ∨ (n = lo ∧ x ≤ lo) ∨ (n = hi ∧ (hi : ℚ) ≤ x))

/-- What a number `x` may become in a matrix of depth `d`. -/
def Converted (d : Depth) (x : ℚ) (v : Val) : Prop :=
  match d with
  | .u8 => Whole 0 255 x v
  | .s8 => Whole (-128) 127 x v
  | .u16 => Whole 0 65535 x v
  | .s16 => Whole (-32768) 32767 x v
  | .s32 => Whole (-2147483648) 2147483647 x v
  | .f32 => v = .num (IEEE.fl 24 x)
  | .f64 => v = .num x

/-- What may be read for a number `q` written into a matrix of depth `d`: a decimal number at most `5e-6 |q|` away, converted to
`double` and then to the depth. -/
def Close (d : Depth) (v v' : Val) : Prop :=
  ∃ q dec : ℚ, v = .num q ∧ |dec - q| ≤ |q| / 200000 ∧ Converted d (IEEE.fl 53 dec) v'

end Litiv.TextIO.Spec
