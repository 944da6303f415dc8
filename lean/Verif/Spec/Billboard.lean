import Verif.Model.Billboard

namespace Litiv.Billboard.Spec

open Litiv.Billboard

/-- The triangle `q` covers the point `(x, y)` of the screen and shows the point `(s, t)` of the texture there. -/
def Shows (q : Tri) (x y s t : ℚ) : Prop :=
  ∃ a b c : ℚ, (0 ≤ a ∧ 0 ≤ b ∧ 0 ≤ c) ∧ a + b + c = 1 ∧
    x = a * q.1.x + b * q.2.1.x + c * q.2.2.x ∧ y = a * q.1.y + b * q.2.1.y + c * q.2.2.y ∧
    s = a * q.1.s + b * q.2.1.s + c * q.2.2.s ∧ t = a * q.1.t + b * q.2.1.t + c * q.2.2.t

/-- A point of the screen. -/
def OnScreen (x y : ℚ) : Prop := (-1 ≤ x ∧ x ≤ 1) ∧ -1 ≤ y ∧ y ≤ 1

/-- The centre of the pixel `i` (from the left, or from the bottom) of a window with `n` pixels in that
direction. -/
def centre (n i : Nat) : ℚ := (2 * i + 1) / n - 1

/-- Texture coordinate of the middle of texel `i` (from the left, or from the first row) out of `n`. -/
def texel (n i : Nat) : ℚ := (i + 1 / 2) / n

end Litiv.Billboard.Spec
