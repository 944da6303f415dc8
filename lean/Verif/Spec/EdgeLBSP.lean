import Verif.Spec.LBSP
import Mathlib.Logic.Relation
import Mathlib.Data.Rat.Floor
import Mathlib.Algebra.Order.Ring.Abs
import Mathlib.Algebra.Order.Group.Int

/-!
# Specification vocabulary for the LBSP edge detector
-/

namespace Litiv.EdgeLBSP.Spec
open LBSP.Spec (Inner drawing)

/-! ## Image pyramid -/

/-- Size of level `l`: halved `l` times, rounding up. -/
def size (n : Nat) : Nat → Nat
  | 0 => n
  | l + 1 => (size n l + 1) / 2

/-- The next level of an image of `h × w` pixels keeps the pixels of even coordinates; those at least two pixels away from each
border are replaced by the mean of the sixteen neighbours of the LBSP pattern, rounded down. -/
def reduce (h w : Nat) (img : Nat → Nat → Nat → BitVec 8) (y x c : Nat) : BitVec 8 :=
  if Inner h w (2 * y : Nat) (2 * x : Nat) then
    BitVec.ofNat 8 ((drawing.map fun e => (img (((2 * y : Nat) : Int) + e.2.2).toNat (((2 * x : Nat) : Int) + e.2.1).toNat c).toNat).sum / 16)
  else img (2 * y) (2 * x) c

/-- The image of level `l`. -/
def levelImg (R C : Nat) (img : Nat → Nat → Nat → BitVec 8) : Nat → Nat → Nat → Nat → BitVec 8
  | 0 => img
  | l + 1 => reduce (size R l) (size C l) (levelImg R C img l)

/-- The LBSP gradient (x, y, magnitude) of pixel `(y, x)` of an image of `h × w` pixels, property C40; zero less than two pixels away
from a border. -/
def grad (impl : LBSP.Impl) (ch h w : Nat) (img : Nat → Nat → Nat → BitVec 8) (y x : Nat) : BitVec 8 × BitVec 8 × BitVec 8 :=
  if Inner h w y x then
    LBSP.gradient impl 20 2 ch (fun c n => img ((y : Int) + LBSP.offY n).toNat ((x : Int) + LBSP.offX n).toNat c) (img y x)
  else (0, 0, 0)

/-- The gradient, at level `l` of the pyramid, of the pixel that covers pixel `(y, x)` of the image. -/
def gradAt (impl : LBSP.Impl) (ch R C : Nat) (img : Nat → Nat → Nat → BitVec 8) (y x l : Nat) : BitVec 8 × BitVec 8 × BitVec 8 :=
  grad impl ch (size R l) (size C l) (levelImg R C img l) (y / 2 ^ l) (x / 2 ^ l)

/-- `v` is the least of `f 0, …, f (n-1)`. -/
def Least (f : Nat → Nat) (n v : Nat) : Prop := (∃ l < n, f l = v) ∧ ∀ l < n, v ≤ f l

/-- `v` is the one of smallest absolute value among `f 0, …, f (n-1)`, the first of them in case of a tie. -/
def Weakest (f : Nat → Int) (n : Nat) (v : Int) : Prop :=
  ∃ l < n, f l = v ∧ (∀ k < n, |v| ≤ |f k|) ∧ ∀ k < l, |v| < |f k|

/-- One level of an image of `h × w` pixels can be processed: at least two rows, and two columns unless there are at most four rows. -/
def Fits (h w : Nat) : Prop := 2 ≤ h ∧ (2 ≤ w ∨ h ≤ 4)

instance (h w : Nat) : Decidable (Fits h w) := by unfold Fits; infer_instance

/-! ## Hysteresis -/

/-- Two different pixels that touch, by a side or by a corner. -/
def Touch (p q : Nat × Nat) : Prop :=
  p ≠ q ∧ p.1 ≤ q.1 + 1 ∧ q.1 ≤ p.1 + 1 ∧ p.2 ≤ q.2 + 1 ∧ q.2 ≤ p.2 + 1

/-- From a candidate to a candidate that touches it. -/
def Step (cand : Nat × Nat → Prop) (p q : Nat × Nat) : Prop := cand p ∧ cand q ∧ Touch p q

/-- The candidates connected to a strong candidate by a chain of candidates. -/
def Hysteresis (cand strong : Nat × Nat → Prop) (p : Nat × Nat) : Prop :=
  ∃ q, cand q ∧ strong q ∧ Relation.ReflTransGen (Step cand) q p

/-! ## Local maxima -/

/-- A function on the image, zero outside. -/
def around (R C : Nat) (f : Nat → Nat → Nat) (y x : Int) : Int :=
  if 0 ≤ y ∧ y < R ∧ 0 ≤ x ∧ x < C then (f y.toNat x.toNat : Int) else 0

/-- Larger than the two values before it and not smaller than the two after it, in direction `(dy, dx)`. -/
def Peak (f : Int → Int → Int) (y x dy dx : Int) : Prop :=
  (f (y - dy) (x - dx) < f y x ∧ f (y + dy) (x + dx) ≤ f y x) ∧
  (f (y - 2 * dy) (x - 2 * dx) < f y x ∧ f (y + 2 * dy) (x + 2 * dx) ≤ f y x)

/-- A gradient whose angle to the horizontal axis is below 22.5 degrees: `|gy| < (√2 - 1) |gx|`. -/
def Flat (gx gy : Int) : Prop := (|gx| + |gy|) ^ 2 < 2 * gx ^ 2

instance (gx gy : Int) : Decidable (Flat gx gy) := by unfold Flat; infer_instance

/-- Local maximum along the axis of the gradient, among the four axes: horizontal, vertical, and the two diagonals (both are tried when
there is no gradient). The signs of `gx` and `gy` tell the diagonals apart: `gx` counts differing neighbours on the left as positive,
`gy` those in the rows below. -/
def Thin (f : Int → Int → Int) (gx gy y x : Int) : Prop :=
  if Flat gx gy then Peak f y x 0 1
  else if Flat gy gx then Peak f y x 1 0
  else if gx ≠ 0 ∨ gy ≠ 0 then (if (gx < 0 ↔ gy < 0) then Peak f y x 1 (-1) else Peak f y x 1 1)
  else Peak f y x 1 (-1) ∨ Peak f y x 1 1

end Litiv.EdgeLBSP.Spec
