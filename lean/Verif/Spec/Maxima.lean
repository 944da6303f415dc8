import Verif.Model.Maxima

/-!
# Vocabulary for local maxima
-/

namespace Litiv.Maxima.Spec

/-- A pixel of the image selected by the mask. -/
def Selected (rows cols : Nat) (mask : Nat → Nat → Bool) (p : Nat × Nat) : Prop :=
  p.1 < rows ∧ p.2 < cols ∧ mask p.1 p.2 = true

/-- At most `w` rows and `w` columns apart. -/
def Near (w : Nat) (p q : Nat × Nat) : Prop := p.1 ≤ q.1 + w ∧ q.1 ≤ p.1 + w ∧ p.2 ≤ q.2 + w ∧ q.2 ≤ p.2 + w

/-- The two pixels belong to the same tile of `w+1` rows and columns. -/
def SameTile (w : Nat) (p q : Nat × Nat) : Prop := p.1 / (w + 1) = q.1 / (w + 1) ∧ p.2 / (w + 1) = q.2 / (w + 1)

/-- Row-major order. -/
def Before (p q : Nat × Nat) : Prop := p.1 < q.1 ∨ (p.1 = q.1 ∧ p.2 < q.2)

/-- `p` is selected and strictly larger than every other selected pixel within `w` of it. -/
def StrictMax (rows cols w : Nat) (f : Vals) (mask : Nat → Nat → Bool) (p : Nat × Nat) : Prop :=
  Selected rows cols mask p ∧ ∀ q, Selected rows cols mask q → Near w p q → q ≠ p → f q.1 q.2 < f p.1 p.2

/-- There is no mask, or the selected pixels are not negative (always true for unsigned images). -/
def Plain (rows cols : Nat) (f : Vals) (mask : Nat → Nat → Bool) : Prop :=
  (∀ y x, mask y x = true) ∨ ∀ p, Selected rows cols mask p → 0 ≤ f p.1 p.2

/-- `a` is larger than the `h` values before it and not smaller than the `h` values after it, on the line through `i` with step `d`. -/
def PeakAlong (h : Nat) (g : Int → Int) (i d : Int) : Prop :=
  ∀ k : Nat, 1 ≤ k → k ≤ h → g (i - k * d) < g i ∧ g (i + k * d) ≤ g i

end Litiv.Maxima.Spec
