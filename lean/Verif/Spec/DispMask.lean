import Verif.Model.DispMask

/-!
# Specification of coloured disparity error masks
-/

namespace Litiv.DispMask

/-- A pixel of an image. -/
def InImage (rows cols : Nat) (p : Nat × Nat) : Prop := p.1 < rows ∧ p.2 < cols

/-- Pixels at most `k` rows and columns apart. -/
def Within (k : Nat) (p q : Nat × Nat) : Prop := p.1 ≤ q.1 + k ∧ q.1 ≤ p.1 + k ∧ p.2 ≤ q.2 + k ∧ q.2 ≤ p.2 + k

/-- The value of unknown ground truth: the largest one of the type. -/
def unknown : Ty → ℚ
  | .u8 => 2 ^ 8 - 1
  | .s8 => 2 ^ 7 - 1
  | .u16 => 2 ^ 16 - 1
  | .s16 => 2 ^ 15 - 1
  | .s32 => 2 ^ 31 - 1
  | .f32 => (2 - 1 / 2 ^ 23) * 2 ^ 127

/-- The pixel is evaluated: the ground truth is known there (not the largest value of its type, not negative), and it is in
the region of interest, if any. -/
def Evaluated (t : Ty) (gt : Nat → Nat → ℚ) (roi : Option (Nat → Nat → Nat)) (p : Nat × Nat) : Prop :=
  gt p.1 p.2 ≠ unknown t ∧ (t ≠ .u8 → t ≠ .u16 → 0 ≤ gt p.1 p.2) ∧ ∀ r, roi = some r → r p.1 p.2 ≠ 0

/-- The error to show at a pixel, at most `M`, and 0 where it is not evaluated. -/
def Shown (t : Ty) (disp gt : Nat → Nat → ℚ) (roi : Option (Nat → Nat → Nat)) (M : ℚ) (p : Nat × Nat) (e : ℚ) : Prop :=
  (Evaluated t gt roi p → e = min |disp p.1 p.2 - gt p.1 p.2| M) ∧ (¬ Evaluated t gt roi p → e = 0)

/-- `v` is the largest value of `f` within 2 pixels. -/
def LargestNear (rows cols : Nat) (f : Nat × Nat → Nat) (p : Nat × Nat) (v : Nat) : Prop :=
  (∃ q, InImage rows cols q ∧ Within 2 p q ∧ f q = v) ∧ ∀ q, InImage rows cols q → Within 2 p q → f q ≤ v

end Litiv.DispMask
