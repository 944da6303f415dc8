/-!
# Specification vocabulary for the sample-consensus background subtractors

Pixels are (row, column) pairs.
-/

namespace Litiv.Consensus.Spec

/-- `p` and `q` differ by at most `d` rows and at most `d` columns. -/
def Near (d : Nat) (p q : Nat × Nat) : Prop :=
  p.1 ≤ q.1 + d ∧ q.1 ≤ p.1 + d ∧ p.2 ≤ q.2 + d ∧ q.2 ≤ p.2 + d

/-- The pixel belongs to an image of `h` rows and `w` columns. -/
def InImg (h w : Nat) (p : Nat × Nat) : Prop := p.1 < h ∧ p.2 < w

/-- The pixel belongs to the image and is at least `b` pixels away from its four sides. -/
def Inner (b h w : Nat) (p : Nat × Nat) : Prop := b ≤ p.1 ∧ p.1 + b < h ∧ b ≤ p.2 ∧ p.2 + b < w

/-- How many of the `n` samples `m 0, …, m (n-1)` satisfy a test. -/
def count (n : Nat) (test : Nat → Bool) : Nat := ((List.range n).filter test).length

/-- Squared Euclidean distance of two colours. -/
def sqDist (a b : BitVec 8 × BitVec 8 × BitVec 8) : Nat :=
  ((a.1.toNat : Int) - b.1.toNat).natAbs ^ 2 + ((a.2.1.toNat : Int) - b.2.1.toNat).natAbs ^ 2 +
    ((a.2.2.toNat : Int) - b.2.2.toNat).natAbs ^ 2

end Litiv.Consensus.Spec
