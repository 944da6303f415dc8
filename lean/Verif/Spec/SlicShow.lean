import Verif.Model.SlicShow
import Mathlib.Algebra.BigOperators.Group.Finset.Basic
import Mathlib.Data.Finset.Prod

/-!
# Specification of the drawing of superpixels
-/
namespace Litiv.SlicShow

/-- The pixels of the image. -/
def frame (w h : Nat) : Finset (Nat × Nat) := Finset.range w ×ˢ Finset.range h

/-- The pixels with label `l`. -/
def members (w h : Nat) (lab : Nat × Nat → ℤ) (l : ℤ) : Finset (Nat × Nat) := (frame w h).filter fun p => lab p = l

/-- The mean of a channel over the pixels with label `l`. -/
def meanOf (w h : Nat) (lab : Nat × Nat → ℤ) (channel : Nat × Nat → Nat) (l : ℤ) : ℚ :=
  (∑ p ∈ members w h lab l, (channel p : ℚ)) / (members w h lab l).card

/-- `n` is the integer nearest to `q`, the even one of two equally near. -/
def Rounded (n : Nat) (q : ℚ) : Prop := |(n : ℚ) - q| ≤ 1 / 2 ∧ (|(n : ℚ) - q| = 1 / 2 → n % 2 = 0)

/-- Different pixels that share an edge or a corner. -/
def Touch (p q : Nat × Nat) : Prop :=
  p ≠ q ∧ p.1 ≤ q.1 + 1 ∧ q.1 ≤ p.1 + 1 ∧ p.2 ≤ q.2 + 1 ∧ q.2 ≤ p.2 + 1

/-- `q` is in an earlier row, or earlier in the same row. -/
def Before (q p : Nat × Nat) : Prop := q.2 < p.2 ∨ (q.2 = p.2 ∧ q.1 < p.1)

open Classical in
/-- The pixels that touch `p`, have another label, and satisfy a condition. -/
noncomputable def others (w h : Nat) (lab : Nat × Nat → ℤ) (p : Nat × Nat) (cond : Nat × Nat → Prop) : Finset (Nat × Nat) :=
  (frame w h).filter fun q => Touch p q ∧ lab q ≠ lab p ∧ cond q

end Litiv.SlicShow
