import Verif.Model.LBSP

/-!
# Specification vocabulary for LBSP descriptors
-/

namespace Litiv.LBSP.Spec

/-- A matrix header whose pixels all lie in its buffer, the buffer being less than half the address space. -/
structure WF (m : Img) : Prop where
  step : m.cols * m.ch ≤ m.step
  len : m.rows * m.step ≤ m.data.length
  small : m.data.length < 2 ^ 63

/-- Channel `c` of the pixel in row `y`, column `x`. -/
def px (m : Img) (y x c : Nat) : Option (BitVec 8) := m.data[y * m.step + x * m.ch + c]?

/-- Two byte values differ by more than `t`. -/
def Differs (a b t : BitVec 8) : Prop := (t.toNat : Int) < |(a.toNat : Int) - b.toNat|

instance (a b t : BitVec 8) : Decidable (Differs a b t) := by unfold Differs; infer_instance

/-- Pixel `(y, x)` is at least two pixels away from each border of an image of that size. -/
def Inner (rows cols : Nat) (y x : Int) : Prop := 2 ≤ y ∧ y < (rows : Int) - 2 ∧ 2 ≤ x ∧ x < (cols : Int) - 2

instance (rows cols : Nat) (y x : Int) : Decidable (Inner rows cols y x) := by unfold Inner; infer_instance

/-- The pattern of the class documentation (`LBSP.hpp:264-268`), row by row: bit number and position relative to the
centre; the first row of the drawing is `y = 2`. -/
def drawing : List (Nat × Int × Int) := [
  (4, -2, 2), (3, 0, 2), (6, 2, 2),
  (15, -1, 1), (8, 0, 1), (13, 1, 1),
  (0, -2, 0), (9, -1, 0), (11, 1, 0), (1, 2, 0),
  (12, -1, -1), (10, 0, -1), (14, 1, -1),
  (7, -2, -2), (2, 0, -2), (5, 2, -2)]

/-- `d` is the descriptor of channel `c` at `(y, x)`: for each entry of the pattern, the bit says whether that neighbour
differs from the reference value by more than the threshold given for the reference value. -/
def IsDesc (m ref : Img) (thr : BitVec 8 → BitVec 8) (y x : Int) (c : Nat) (d : BitVec 16) : Prop :=
  ∃ r, px ref y.toNat x.toNat c = some r ∧
    ∀ e ∈ drawing, ∃ v, px m (y + e.2.2).toNat (x + e.2.1).toNat c = some v ∧
      (d.getLsbD e.1 = true ↔ Differs v r (thr r))

/-- What the extractor requires of the image and of the optional reference image: non-empty, one or three channels,
continuous, same size and type. -/
def Accepts (m : Img) (ref : Option Img) : Prop :=
  (m.rows ≠ 0 ∧ m.cols ≠ 0 ∧ (m.ch = 1 ∨ m.ch = 3) ∧ m.step = m.cols * m.ch) ∧
    ∀ r, ref = some r → r.rows = m.rows ∧ r.cols = m.cols ∧ r.ch = m.ch ∧ r.step = r.cols * r.ch

/-- A keypoint at integer coordinates. -/
def Integral (k : KP) : Prop := ∃ x y : Int, k = ⟨x, y⟩

/-- The number of neighbours that satisfy `p` on their position and differ from the reference by more than `t`. -/
def countSide (p : Int → Int → Bool) (patch : Int → Int → BitVec 8) (ref t : BitVec 8) : Nat :=
  drawing.countP fun e => p e.2.1 e.2.2 && decide (Differs (patch e.2.1 e.2.2) ref t)

end Litiv.LBSP.Spec
