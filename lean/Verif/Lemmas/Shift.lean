import Verif.Spec.Shift
import Mathlib.Algebra.BigOperators.Group.Finset.Basic
import Mathlib.Algebra.BigOperators.Intervals
import Mathlib.Tactic.Linarith

namespace Litiv.Shift

theorem has_iff {α : Type} (m : Img α) (y x : Int) :
    m.has y x = true ↔ (0 ≤ y ∧ y < m.rows) ∧ 0 ≤ x ∧ x < m.cols := by
  simp [Img.has, and_assoc]

theorem roi_some {α : Type} {m : Img α} {y x h w : Int} {o : Img α} (e : roi m y x h w = some o) :
    (0 ≤ x ∧ 0 ≤ w ∧ x + w ≤ m.cols ∧ 0 ≤ y ∧ 0 ≤ h ∧ y + h ≤ m.rows) ∧
    o = ⟨h.toNat, w.toNat, fun r c => m.px (y + r) (x + c)⟩ := by
  unfold roi at e
  split at e
  · rename_i hc
    exact ⟨hc, (Option.some.inj e).symm⟩
  · exact absurd e (by simp)

theorem clip_spec (rows cols : Nat) (i o : Rect) (hw : i.w = o.w) (hh : i.h = o.h)
    (w0 : 0 < o.w) (h0 : 0 < o.h) (hr : rows ≠ 0) (hc : cols ≠ 0)
    (hx0 : 0 < o.x + o.w) (hx1 : o.x < cols) (hy0 : 0 < o.y + o.h) (hy1 : o.y < rows) :
    ∀ i' o', clip rows cols i o = (i', o') →
    o'.x = max o.x 0 ∧ o'.x + o'.w = min (o.x + o.w) cols ∧
    o'.y = max o.y 0 ∧ o'.y + o'.h = min (o.y + o.h) rows ∧
    i'.x - o'.x = i.x - o.x ∧ i'.y - o'.y = i.y - o.y ∧ i'.w = o'.w ∧ i'.h = o'.h ∧
    0 < o'.w ∧ 0 < o'.h := by
  intro i' o' e
  obtain ⟨ix, iy, iw, ih⟩ := i
  obtain ⟨ox, oy, ow, oh⟩ := o
  unfold clip at e
  dsimp only at *
  by_cases c1 : ox < 0 <;> by_cases c2 : oy < 0 <;> simp only [c1, c2, if_true, if_false] at e
  all_goals
    split_ifs at e <;>
    · obtain ⟨rfl, rfl⟩ := Prod.mk.inj e
      dsimp only at *
      omega

theorem countNonZero_card (m : Img Bool) :
    countNonZero m = ((Finset.range m.rows ×ˢ Finset.range m.cols).filter
      (fun p => m.px (p.1 : Nat) (p.2 : Nat) = true)).card := by
  rw [Finset.card_filter, Finset.sum_product]
  unfold countNonZero
  have row : ∀ (r n : Nat), ((List.range n).filter (fun c : Nat => m.px (r : Nat) (c : Nat))).length
      = ∑ c ∈ Finset.range n, if m.px (r : Nat) (c : Nat) = true then 1 else 0 := by
    intro r n
    induction n with
    | zero => rfl
    | succ n ih =>
      rw [List.range_succ, List.filter_append, List.length_append, ih, Finset.sum_range_succ]
      congr 1
      by_cases h : m.px (r : Nat) (n : Nat) = true <;> simp [h]
  generalize m.rows = k
  induction k with
  | zero => rfl
  | succ k ih =>
    rw [List.range_succ, List.map_append, List.sum_append, ih, Finset.sum_range_succ]
    congr 1
    simp [row]

end Litiv.Shift
