import Mathlib.Data.Int.Interval
import Mathlib.Data.Finset.Prod
import Mathlib.Order.Interval.Finset.Nat

/-!
# Specification of the preloaded window, of the median of a binary image, and of neighbours
-/

namespace Litiv.GLPreload

/-- The quotient `x*h/w` truncated with floats is right in the first and the last column of a work group, and nowhere
larger than the height (in the other columns it may be off). -/
structure Truncated (w h : Nat) (t : Nat → Nat) : Prop where
  first : t 0 = 0
  last : t (w - 1) = (w - 1) * h / w
  le : ∀ x < w, t x ≤ h

/-- Number of foreground pixels in the square of radius `r` around a pixel. -/
def foreground (img : Int → Int → Nat) (r : Nat) (x y : Int) : Nat :=
  ((Finset.Icc (x - r) (x + r) ×ˢ Finset.Icc (y - r) (y + r)).filter fun p => 128 < img p.1 p.2).card

/-- The median of a binary image (foreground 255, background 0) over a square of side `2r+1`: the majority. -/
def median (img : Int → Int → Nat) (r : Nat) (x y : Int) : Nat :=
  if (2 * r + 1) * (2 * r + 1) < 2 * foreground img r x y then 255 else 0

/-- The eight neighbours of a position. -/
def adjacent (p q : Int × Int) : Prop := q ≠ p ∧ |q.1 - p.1| ≤ 1 ∧ |q.2 - p.2| ≤ 1

/-- A position of the frame at least `b` pixels away from its border. -/
def insideFrame (b fw fh : Nat) (p : Int × Int) : Prop := b ≤ p.1 ∧ p.1 ≤ fw - b - 1 ∧ b ≤ p.2 ∧ p.2 ≤ fh - b - 1

end Litiv.GLPreload
