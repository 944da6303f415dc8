import Mathlib.Data.Rat.Defs
import Mathlib.Algebra.Order.Ring.Rat

/-!
# Specification for the random selection helper
-/

namespace Litiv.KofN.Spec

/-- `l` lists `k` different integers of `[0, n)` in increasing order. -/
def Choice (k n : Nat) (l : List Nat) : Prop :=
  l.length = k ∧ (∀ x ∈ l, x < n) ∧ ∀ (i j : Nat) (x y : Nat), i < j → l[i]? = some x → l[j]? = some y → x < y

/-- Every number of the stream is in `[0, 1)`. -/
def HalfOpen (rr : Nat → ℚ) : Prop := ∀ i, 0 ≤ rr i ∧ rr i < 1

/-- Every number of the stream is in `[0, 1]`. -/
def Closed (rr : Nat → ℚ) : Prop := ∀ i, 0 ≤ rr i ∧ rr i ≤ 1

end Litiv.KofN.Spec
