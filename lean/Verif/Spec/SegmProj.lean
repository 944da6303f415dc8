import Verif.Model.SegmProj

/-!
# Vocabulary for the projection of disparities
-/

namespace Litiv.SegmProj.Spec
open Litiv.SegmProj

/-- the disparity of a label, in pixels -/
def disparity (c : Cfg) (l : Nat) : Nat := c.dmin + l * c.step

/-- In a row of base labels, a pixel with disparity label `l` is matched with column `k` of the other image: a pixel of
camera 1 is matched with the column that many pixels to its right, one of camera 0 to its left. -/
def Sees (c : Cfg) (base : Nat → Nat) (k l : Nat) : Prop :=
  l < c.nReal ∧ ∃ k', k' < c.cols ∧ base k' = l ∧
    (if c.baseRight then k = k' + disparity c l else k' = k + disparity c l)

/-- the pixel of the base image that a pixel of the other image with label `l` points to, if inside of the image -/
def backCol (c : Cfg) (k l : Nat) : Option Nat :=
  if c.baseRight then (if disparity c l ≤ k then some (k - disparity c l) else none)
  else (if k + disparity c l < c.cols then some (k + disparity c l) else none)

/-- a pixel of a row that already has a label, within the ROI -/
def Usable (c : Cfg) (roi : Nat → Bool) (row : Nat → Nat) (k : Nat) : Prop :=
  k < c.cols ∧ roi k = true ∧ row k ≠ c.dontCare

/-- no label can be taken from the pixels at distance `o`: none of the ROI to the right, none of the ROI with a label to
the left -/
def NoneAt (c : Cfg) (roi : Nat → Bool) (row : Nat → Nat) (k o : Nat) : Prop :=
  ¬(k + o < c.cols ∧ roi (k + o) = true) ∧ ¬(o ≤ k ∧ Usable c roi row (k - o))

end Litiv.SegmProj.Spec
