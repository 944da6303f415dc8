import Verif.Model.Filters

/-!
# Vocabulary for integral images and median filters
-/

namespace Litiv.Filters.Spec

/-- Sum of the pixel values in rows `y0 ≤ y < y1` and columns `x0 ≤ x < x1`. -/
def sumBox (f : Img) (y0 y1 x0 x1 : Nat) : Nat := ∑ y ∈ Finset.Ico y0 y1, ∑ x ∈ Finset.Ico x0 x1, (f y x).toNat

/-- The pixels of the box that are set and, if there is a mask, selected by it. -/
def countBox (f : Img) (mask : Option Img) (y0 y1 x0 x1 : Nat) : Nat :=
  ((Finset.Ico y0 y1 ×ˢ Finset.Ico x0 x1).filter fun p => f p.1 p.2 ≠ 0 ∧ ∀ m ∈ mask, m p.1 p.2 ≠ 0).card

/-- The sum over the box of the pixels selected by the mask. -/
def sumBoxMasked (f : Img) (mask : Option Img) (y0 y1 x0 x1 : Nat) : Nat :=
  ∑ p ∈ (Finset.Ico y0 y1 ×ˢ Finset.Ico x0 x1).filter (fun p => ∀ m ∈ mask, m p.1 p.2 ≠ 0), (f p.1 p.2).toNat

/-- The sum of all pixels is representable. -/
def Fits (rows cols : Nat) (f : Img) : Prop := sumBox f 0 rows 0 cols < 2 ^ 31

/-- `v` is the lower median of the values in `l`: fewer than half of them are smaller, at least half are not larger. -/
def IsLowerMedian (l : List (BitVec 8)) (v : BitVec 8) : Prop :=
  v ∈ l ∧ 2 * l.countP (fun (a : BitVec 8) => decide (a.toNat < v.toNat)) < l.length ∧
    l.length ≤ 2 * l.countP (fun (a : BitVec 8) => decide (a.toNat ≤ v.toNat))

/-- The pixels of the image at most `off` rows and columns away from `(y, x)`. -/
def Near (rows cols off y x : Nat) (p : Nat × Nat) : Prop :=
  p.1 < rows ∧ p.2 < cols ∧ p.1 ≤ y + off ∧ y ≤ p.1 + off ∧ p.2 ≤ x + off ∧ x ≤ p.2 + off

instance (rows cols off y x : Nat) (p : Nat × Nat) : Decidable (Near rows cols off y x p) := by unfold Near; infer_instance

/-- The positions of the image in row-major order. -/
def positions (rows cols : Nat) : List (Nat × Nat) :=
  (List.range rows).flatMap fun (y : Nat) => (List.range cols).map fun (x : Nat) => (y, x)

/-- The values of the selected pixels in the window around `(y, x)`. -/
def neighbours (rows cols off : Nat) (f : Img) (sel : Nat × Nat → Bool) (y x : Nat) : List (BitVec 8) :=
  ((positions rows cols).filter fun (p : Nat × Nat) => decide (Near rows cols off y x p) && sel p).map
    fun (p : Nat × Nat) => f p.1 p.2

/-- Only the values 0 and 255 occur. -/
def Binary (f : Img) : Prop := ∀ y x, f y x = 0 ∨ f y x = 255

/-- The pixel values selected by the mask. -/
def selected (px : List Nat) (mask : Option (List (BitVec 8))) : List Nat :=
  match mask with
  | none => px
  | some m => ((px.zip m).filter fun (p : Nat × BitVec 8) => decide (p.2 ≠ 0)).map Prod.fst

end Litiv.Filters.Spec
