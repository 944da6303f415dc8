import Verif.Spec.ResegmGraph
import Verif.Model.ResegmCost

/-!
# Specification of temporal links and costs of the segmentation graph
-/

namespace Litiv.ResegmCost
open ResegmGraph

/-- `n` is the element of `0, ..., size - 1` which is closest to `x`. -/
def Closest (size : Nat) (x : ℚ) (n : Nat) : Prop := n < size ∧ ∀ k < size, |(n : ℚ) - x| ≤ |(k : ℚ) - x|

/-- Positions by layer, from the oldest layer's pixel along the flows to each newer layer, in the image. -/
structure Path (c : Cfg) (flow : Nat → Nat → Nat → ℚ × ℚ) (row col : Nat) (pos : Nat → Nat × Nat) : Prop where
  start : pos (c.layers - 1) = (row, col)
  row : ∀ l, l + 1 < c.layers → Closest c.rows ((pos (l + 1)).1 + (flow l (pos (l + 1)).1 (pos (l + 1)).2).2) (pos l).1
  col : ∀ l, l + 1 < c.layers → Closest c.cols ((pos (l + 1)).2 + (flow l (pos (l + 1)).1 (pos (l + 1)).2).1) (pos l).2

/-- The price of a labelling of the frames: for each change between a frame and the next older one, the factor of the
temporal difference at the older frame's pixel. -/
def changes (fact : Nat → ℚ) (diff : Nat → Nat → Nat) (at_ : Nat → Nat) (x : Nat → Bool) : Nat → ℚ
  | 0 => 0
  | n + 1 => changes fact diff at_ x n + if x (n + 1) = x n then 0 else fact (diff n (at_ (n + 1)))

end Litiv.ResegmCost
