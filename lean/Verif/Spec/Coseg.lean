import Verif.Model.Coseg

/-! # What the bases of the cosegmentation algorithms promise -/

namespace Litiv.Coseg.Spec

open Litiv.Coseg

/-- All the pixel positions of an image. -/
def cells (rows cols : Nat) : List (Nat × Nat) :=
  (List.range rows).flatMap fun y => (List.range cols).map fun x => (y, x)

/-- How many pixels of an image are not black. -/
def count (rows cols : Nat) (px : Nat → Nat → Nat) : Nat :=
  (cells rows cols).countP fun c => px c.1 c.2 != 0

/-- A pixel with at least `b` pixels between it and each border of the image. -/
def Inner (b rows cols y x : Nat) : Prop := b ≤ y ∧ y + b < rows ∧ b ≤ x ∧ x + b < cols

instance (b rows cols y x : Nat) : Decidable (Inner b rows cols y x) := by unfold Inner; infer_instance

/-- The caller gives no mask. -/
def NotGiven (r : Mask) : Prop := r.rows = 0 ∨ r.cols = 0

instance (r : Mask) : Decidable (NotGiven r) := by unfold NotGiven; infer_instance

/-- The mask that the caller asks for: everything when none is given. -/
def wanted (r : Mask) (y x : Nat) : Nat := if NotGiven r then 255 else r.px y x

/-- A stream that can be worked on: an image in one piece, a mask of its size or none, and at least one useful
pixel away from the borders. -/
def Usable (b : Nat) (i : Img) (r : Mask) : Prop :=
  i.cont = true ∧ (NotGiven r ∨ (r.rows = i.rows ∧ r.cols = i.cols)) ∧
    ∃ y x, Inner b i.rows i.cols y x ∧ wanted r y x ≠ 0

/-- What the object holds for a stream after a successful start on the image `i` with the mask `r`. -/
def Ready (b : Nat) (i : Img) (r : Mask) (s : Slot) : Prop :=
  (s.roi.rows = i.rows ∧ s.roi.cols = i.cols) ∧
  (∀ y x, y < i.rows → x < i.cols →
    s.roi.px y x = if Inner b i.rows i.cols y x then wanted r y x else 0) ∧
  s.orig = count i.rows i.cols (wanted r) ∧
  s.fin = count i.rows i.cols s.roi.px ∧
  s.tot = i.rows * i.cols ∧
  (0 < s.fin ∧ s.fin ≤ s.orig ∧ s.orig ≤ s.tot) ∧
  (s.info = (i.rows, i.cols, i.type) ∧ s.lastInput = (i.rows, i.cols, i.type)) ∧
  (s.lastMask.rows = i.rows ∧ s.lastMask.cols = i.cols ∧ ∀ y x, s.lastMask.px y x = 0)

end Litiv.Coseg.Spec
