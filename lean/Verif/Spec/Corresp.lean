import Verif.Model.Corresp

/-!
# Specification of the disparity ground truth of LITIV 2018 sequences
-/

namespace Litiv.Corresp

/-- A pair of corresponding points: an RGB position, and how far to the right the LWIR point is. -/
structure Pair where
  x : Int
  y : Int
  d : Int
deriving DecidableEq, Repr

/-- The two points of a pair, as the two files record them. -/
def Pair.rgb (p : Pair) : Pt := ⟨p.x, p.y, p.d⟩
def Pair.lwir (p : Pair) : Pt := ⟨p.x + p.d, p.y, -p.d⟩

/-- The disparity shown for a pair, counted from the offset. -/
def Pair.value (p : Pair) (flip : Bool) (off : Int) : Int := (if flip then p.d else -p.d) + off

/-- Whether the disparity of a pair can be stored: 255 is "don't care". -/
def Pair.Shown (p : Pair) (flip : Bool) (off : Int) : Prop := 0 ≤ p.value flip off ∧ p.value flip off ≤ 254

instance (p : Pair) (flip : Bool) (off : Int) : Decidable (p.Shown flip off) := by unfold Pair.Shown; infer_instance

/-- Whether both points of a pair are in an image. -/
def Pair.Inside (p : Pair) (rows cols : Nat) : Prop :=
  (0 ≤ p.y ∧ p.y < rows) ∧ (0 ≤ p.x ∧ p.x < cols) ∧ (0 ≤ p.x + p.d ∧ p.x + p.d < cols)

/-- The value of the last shown pair with a given property, 255 without one. -/
def lastOf (flip : Bool) (off : Int) (ps : List Pair) (q : Pair → Bool) : Int :=
  match (ps.filter fun p => decide (p.Shown flip off) && q p).getLast? with
  | none => 255
  | some p => p.value flip off

/-- Where a column goes when an image is mirrored, or not. -/
def column (cols : Nat) (mirrored : Bool) (x : Int) : Int := if mirrored then cols - 1 - x else x

end Litiv.Corresp
