import Verif.Model.Lut

/-!
# Floating-point rounding

Rounding of rationals to the nearest number with a `p`-bit significand, ties to even: the result of an IEEE 754
operation on `float` (`p = 24`) or `double` (`p = 53`). The exponent is unbounded: overflow to infinity and subnormal
numbers are not modelled. The models of floating-point code take an arbitrary rounding function with the properties
`Rounds` (all of them hold for exact arithmetic and for this rounding, `Verif/Lemmas/IEEE.lean`).
-/

namespace Litiv.IEEE

/-- Nearest number with a `p`-bit significand, ties to even (the default rounding mode of every `float` and `double`
operation of the library). -/
def fl (p : Nat) (x : ℚ) : ℚ :=
  if x = 0 then 0
  else (Lut.roundEven (x * (2 : ℚ) ^ ((p : Int) - 1 - Lut.ilog |x|)) : ℚ) * (2 : ℚ) ^ (Lut.ilog |x| - ((p : Int) - 1))

/-- Rounding of `float` operations. -/
def float32 : ℚ → ℚ := fl 24

/-- What the proofs use about the rounding of `float` operations: monotone, does not change its own results, exact on
whole numbers up to `2^24` and on `1/64`, and a weight with its rounded complement never sums to more than one. -/
structure Rounds (rd : ℚ → ℚ) : Prop where
  mono : ∀ x y, x ≤ y → rd x ≤ rd y
  idem : ∀ x, rd (rd x) = rd x
  nat : ∀ n : Nat, n ≤ 2 ^ 24 → rd n = n
  dyad : rd (1 / 64) = 1 / 64
  compl : ∀ f, 0 ≤ f → f ≤ 1 → rd (rd (1 - f) + f) ≤ 1

end Litiv.IEEE
