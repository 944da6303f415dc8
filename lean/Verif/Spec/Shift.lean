import Verif.Model.Shift
import Mathlib.Data.Int.Interval
import Mathlib.Order.Interval.Finset.Basic

/-!
# Specification of shifts and region copies
-/

namespace Litiv.Shift

/-- bilinear interpolation of a function on the integer grid -/
def bilinear (E : Int → Int → ℚ) (v u : ℚ) : ℚ :=
  (1 - Int.fract v) * ((1 - Int.fract u) * E ⌊v⌋ ⌊u⌋ + Int.fract u * E ⌊v⌋ (⌊u⌋ + 1)) +
  Int.fract v * ((1 - Int.fract u) * E (⌊v⌋ + 1) ⌊u⌋ + Int.fract u * E (⌊v⌋ + 1) (⌊u⌋ + 1))

/-- a position in a rectangle -/
def Rect.Contains (r : Rect) (y x : Int) : Prop :=
  r.x ≤ x ∧ x < r.x + r.w ∧ r.y ≤ y ∧ y < r.y + r.h

instance (r : Rect) (y x : Int) : Decidable (r.Contains y x) := by
  unfold Rect.Contains; infer_instance

/-- a mask selects a position; without a mask all positions are selected -/
def selected (mask : Option (Img Bool)) (y x : Int) : Bool :=
  match mask with
  | none => true
  | some m => m.px y x

/-- the positions of the output image which a region copy should write -/
def written {α : Type} (dst : Img α) (rin rout : Rect) (mask : Option (Img Bool)) :
    Finset (Int × Int) :=
  (Finset.Ico (0 : Int) dst.rows ×ˢ Finset.Ico (0 : Int) dst.cols).filter (fun p =>
    rout.Contains p.1 p.2 ∧ selected mask (p.1 - rout.y + rin.y) (p.2 - rout.x + rin.x) = true)

end Litiv.Shift
