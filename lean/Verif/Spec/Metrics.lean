import Verif.Model.Metrics

/-!
# Specification vocabulary for the evaluation metrics (C34-C36, C61-C63)

Written in terms of pixels and textbook formulas only; the definitions of the code are not used, except for the data
types holding inputs and results.
-/

namespace Litiv.Metrics

/-- Pixel `k` (row-major) of an image. -/
def px (m : Mat8) (k : Nat) : UInt8 := m.data.getD k 0

/-- The image holds exactly its pixels. -/
def Mat8.Valid (m : Mat8) : Prop := m.data.length = m.rows * m.cols

/-- `a` has the size of `b`. -/
def SameSize (a b : Mat8) : Prop := a.rows = b.rows ∧ a.cols = b.cols

/-- Absent optional argument: an image without pixels. -/
def Absent (m : Mat8) : Prop := m.rows * m.cols = 0

/-- Admissible arguments: a non-empty classification and a ground truth and region of interest which are absent or of
the same size. -/
structure Admissible (classif gt roi : Mat8) : Prop where
  classif_valid : classif.Valid
  gt_valid : gt.Valid
  roi_valid : roi.Valid
  nonempty : ¬ Absent classif
  gt_size : Absent gt ∨ SameSize classif gt
  roi_size : Absent roi ∨ SameSize classif roi

/-- A pixel is evaluated when the ground truth is neither "out of scope" (85) nor "unknown" (170), and it is inside the
region of interest, if one is given. -/
def Evaluated (gt roi : Mat8) (k : Nat) : Prop := px gt k ≠ 85 ∧ px gt k ≠ 170 ∧ (Absent roi ∨ px roi k ≠ 0)

open Classical in
/-- The number of pixels of an `n`-pixel image with property `P`. -/
noncomputable def numPx (n : Nat) (P : Nat → Prop) : Nat := ((Finset.range n).filter P).card

/-- The number of pixels of an image. -/
def Mat8.area (m : Mat8) : Nat := m.rows * m.cols

end Litiv.Metrics
