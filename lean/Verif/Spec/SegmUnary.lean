import Verif.Model.SegmUnary

/-!
# Vocabulary for the costs of stereo labels
-/

namespace Litiv.SegmUnary.Spec
open Litiv.SegmUnary Litiv.SegmProj

/-- the cost of a disparity seen by both cameras -/
def matchCost (c : Cfg) (p : Px) (l : Nat) : Nat :=
  (if p.shape = 0 ∨ c.nReal ≤ p.median then 0 else 20 * (if p.median ≤ l then l - p.median else p.median - l)) +
    (p.img l + p.shp l)

/-- The match of a disparity label lies in the other image, in its region of interest: to the left by the disparity if the
labels are those of the left camera, to the right otherwise. -/
def Visible (c : Cfg) (roi : Nat → Bool) (k l : Nat) : Prop :=
  ∃ j, j < c.cols ∧ roi j = true ∧
    if c.baseRight then j = k + (c.dmin + l * c.step) else j + (c.dmin + l * c.step) = k

/-- the smaller disparities that both cameras see -/
def seenBefore (c : Cfg) (roi : Nat → Bool) (k l : Nat) : List Nat := (List.range l).filter (inView c roi k)

/-- the cheapest label, the smallest one of them -/
def Best (costs : List Nat) (l : Nat) : Prop :=
  l < costs.length ∧ (∀ j, j < costs.length → costs.getD l 0 ≤ costs.getD j 0) ∧
  ∀ j, j < l → costs.getD l 0 < costs.getD j 0

/-- a rounding: monotone, and 0 is a float -/
def Rounding (fl : ℚ → ℚ) : Prop := (∀ x y, x ≤ y → fl x ≤ fl y) ∧ fl 0 = 0

end Litiv.SegmUnary.Spec
