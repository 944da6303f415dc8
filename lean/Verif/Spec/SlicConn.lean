import Mathlib.Logic.Relation
import Mathlib.Data.Finset.Prod

/-!
# Specification of connected regions
-/
namespace Litiv.SlicConn

/-- The pixels of the frame. -/
def frame (w h : Nat) : Finset (Nat × Nat) := Finset.range w ×ˢ Finset.range h

/-- Pixels of the frame that share an edge. -/
def Adj (w h : Nat) (p q : Nat × Nat) : Prop :=
  p ∈ frame w h ∧ q ∈ frame w h ∧
    ((p.1 = q.1 ∧ (p.2 + 1 = q.2 ∨ q.2 + 1 = p.2)) ∨ (p.2 = q.2 ∧ (p.1 + 1 = q.1 ∨ q.1 + 1 = p.1)))

/-- Pixels joined by a path of adjacent pixels with the same label. -/
def Joined (w h : Nat) (lab : Nat × Nat → ℤ) : Nat × Nat → Nat × Nat → Prop :=
  Relation.ReflTransGen fun p q => Adj w h p q ∧ lab p = lab q

open Classical in
/-- The connected region of a pixel. -/
noncomputable def region (w h : Nat) (lab : Nat × Nat → ℤ) (p : Nat × Nat) : Finset (Nat × Nat) :=
  (frame w h).filter (Joined w h lab p)

end Litiv.SlicConn
