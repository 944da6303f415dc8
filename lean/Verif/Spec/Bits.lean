/-!
# Specification notions for the bit-level helpers

Nothing here refers to the model.
-/

namespace Litiv.Bits.Spec

/-- The number of set bits of `x`. -/
def ones {w : Nat} (x : BitVec w) : Nat := (List.range w).countP fun i => x.getLsbD i

/-- The number of positions at which `a` and `b` differ. -/
def differing {w : Nat} (a b : BitVec w) : Nat := (List.range w).countP fun i => a.getLsbD i != b.getLsbD i

/-- `r` is the least power of two that is at least `x`. -/
def LeastPow2 (x r : Nat) : Prop := (∃ k, r = 2 ^ k) ∧ x ≤ r ∧ ∀ k, x ≤ 2 ^ k → r ≤ 2 ^ k

/-- The distance of two natural numbers. -/
def dist (a b : Nat) : Nat := (a - b) + (b - a)

end Litiv.Bits.Spec
