import Verif.Model.DepthMap

/-!
# What remapped depth images should be
-/

namespace Litiv.DepthMap

/-- The map entry lies in the depth image, whose coordinates are below its numbers of columns and rows. -/
def Inside (rows cols : Nat) (p : Pt) : Prop := ∃ x y : ℚ, p = (some x, some y) ∧ 0 ≤ x ∧ x < cols ∧ 0 ≤ y ∧ y < rows

/-- `v` is the value of the pixel of the depth image closest to the map entry. -/
def Closest (rows cols : Nat) (raw : Img) (p : Pt) (v : Nat) : Prop :=
  ∃ x y : ℚ, p = (some x, some y) ∧ ∃ r < rows, ∃ k < cols,
    (r : ℚ) - 1 / 2 ≤ y ∧ y < r + 1 / 2 ∧ (k : ℚ) - 1 / 2 ≤ x ∧ x < k + 1 / 2 ∧ v = raw r k

/-- The map entry is in the image but closer to a place past its last row or column than to any of its pixels. -/
def PastEdge (rows cols : Nat) (p : Pt) : Prop :=
  ∃ x y : ℚ, p = (some x, some y) ∧ Inside rows cols p ∧ ((cols : ℚ) - 1 / 2 ≤ x ∨ (rows : ℚ) - 1 / 2 ≤ y)

end Litiv.DepthMap
