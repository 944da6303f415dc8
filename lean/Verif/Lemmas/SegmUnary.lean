import Verif.Spec.SegmUnary
import Mathlib.Algebra.BigOperators.Group.List.Basic
import Mathlib.Algebra.Order.BigOperators.Group.List
import Mathlib.Algebra.Order.Field.Rat
import Mathlib.Tactic.SplitIfs
import Mathlib.Tactic.Ring
import Mathlib.Algebra.Order.Floor.Ring

/-!
# Lemmas about the costs of stereo labels
-/

namespace Litiv.SegmUnary
open Spec Litiv.SegmProj

theorem seen_succ (c : Cfg) (roi : Nat → Bool) (k l : Nat) :
    seenBefore c roi k (l + 1) = seenBefore c roi k l ++ (if inView c roi k l then [l] else []) := by
  unfold seenBefore
  rw [List.range_succ, List.filter_append]
  congr 1
  by_cases h : inView c roi k l = true
  · rw [if_pos h, List.filter_cons_of_pos h, List.filter_nil]
  · rw [if_neg h, List.filter_cons_of_neg h, List.filter_nil]

theorem cost_sum (c : Cfg) (p : Px) (l : Nat) : medianTerm c p l + p.img l + p.shp l = matchCost c p l := by
  unfold medianTerm matchCost
  rw [Nat.add_assoc]
  congr 1
  by_cases h : p.shape ≠ 0 ∧ p.median < c.nReal
  · rw [if_pos h, if_neg (by omega)]
    split_ifs <;> omega
  · rw [if_neg h, if_pos (by omega)]

theorem view_iff (c : Cfg) (roi : Nat → Bool) (k l : Nat) : inView c roi k l = true ↔ Visible c roi k l := by
  unfold inView Visible offsetCol
  dsimp only
  rw [decide_eq_true_iff]
  generalize c.dmin + l * c.step = d
  cases c.baseRight with
  | true =>
    rw [if_pos rfl]
    constructor
    · intro ⟨h1, h2, h3⟩
      have e : ((k : Int) + (d : Nat)).toNat = k + d := by omega
      exact ⟨k + d, by omega, by rw [← e]; exact h3, by rw [if_pos rfl]⟩
    · intro ⟨j, h1, h2, h3⟩
      rw [if_pos rfl] at h3
      have e : ((k : Int) + (d : Nat)).toNat = j := by omega
      exact ⟨by omega, by omega, by rw [e]; exact h2⟩
  | false =>
    rw [if_neg Bool.false_ne_true]
    constructor
    · intro ⟨h1, h2, h3⟩
      have e : ((k : Int) - (d : Nat)).toNat = k - d := by omega
      exact ⟨k - d, by omega, by rw [← e]; exact h3, by rw [if_neg Bool.false_ne_true]; omega⟩
    · intro ⟨j, h1, h2, h3⟩
      rw [if_neg Bool.false_ne_true] at h3
      have e : ((k : Int) - (d : Nat)).toNat = j := by omega
      exact ⟨by omega, by omega, by rw [e]; exact h2⟩

/-- the state after `m` labels -/
theorem fold_spec (c : Cfg) (roi : Nat → Bool) (k : Nat) (p : Px) (m : Nat) :
    let a := (List.range m).foldl (unaryStep c roi k p) ⟨0, 0, []⟩
    a.tot = ((seenBefore c roi k m).map (matchCost c p)).sum ∧ a.valid = (seenBefore c roi k m).length ∧
    a.costs.length = m ∧
    ∀ l, l < m → a.costs.getD l 0 = if inView c roi k l then matchCost c p l
      else ((seenBefore c roi k l).map (matchCost c p)).sum / ((seenBefore c roi k l).length + 1) := by
  induction m with
  | zero => exact ⟨rfl, rfl, rfl, fun l h => absurd h (Nat.not_lt_zero l)⟩
  | succ m ih =>
    rw [List.range_succ, List.foldl_append, List.foldl_cons, List.foldl_nil]
    obtain ⟨h1, h2, h3, h4⟩ := ih
    generalize (List.range m).foldl (unaryStep c roi k p) ⟨0, 0, []⟩ = a at *
    have hget : ∀ (v l : Nat), l < m + 1 → (a.costs ++ [v]).getD l 0 = if l = m then v else a.costs.getD l 0 := by
      intro v l hl
      rw [List.getD_eq_getElem?_getD, List.getD_eq_getElem?_getD]
      by_cases e : l = m
      · rw [if_pos e, e, ← h3, List.getElem?_append_right (Nat.le_refl _), Nat.sub_self]
        rfl
      · rw [if_neg e, List.getElem?_append_left (by omega)]
    rw [seen_succ]
    unfold unaryStep
    rw [cost_sum]
    by_cases hv : inView c roi k m = true
    · rw [if_pos hv, if_pos hv]
      refine ⟨?_, ?_, ?_, ?_⟩
      · show a.tot + matchCost c p m = _
        rw [h1, List.map_append, List.sum_append]
        simp
      · show a.valid + 1 = _
        rw [h2, List.length_append]
        rfl
      · show (a.costs ++ [_]).length = _
        rw [List.length_append, h3]
        rfl
      · intro l hl
        show (a.costs ++ [matchCost c p m]).getD l 0 = _
        rw [hget _ l hl]
        by_cases e : l = m
        · rw [if_pos e, e, if_pos hv]
        · rw [if_neg e, h4 l (by omega)]
    · rw [if_neg hv, if_neg hv, List.append_nil]
      refine ⟨h1, h2, ?_, ?_⟩
      · show (a.costs ++ [_]).length = _
        rw [List.length_append, h3]
        rfl
      · intro l hl
        show (a.costs ++ [a.tot / (a.valid + 1)]).getD l 0 = _
        rw [hget _ l hl]
        by_cases e : l = m
        · rw [if_pos e, e, if_neg hv, h1, h2]
        · rw [if_neg e, h4 l (by omega)]

theorem unary_length (c : Cfg) (roi : Nat → Bool) (k : Nat) (p : Px) : (unary c roi k p).length = c.nReal + 2 := by
  unfold unary
  rw [List.length_append, (fold_spec c roi k p c.nReal).2.2.1]
  rfl

theorem unary_real (c : Cfg) (roi : Nat → Bool) (k : Nat) (p : Px) (l : Nat) (hl : l < c.nReal) :
    (unary c roi k p).getD l 0 = if inView c roi k l then matchCost c p l
      else ((seenBefore c roi k l).map (matchCost c p)).sum / ((seenBefore c roi k l).length + 1) := by
  obtain ⟨-, -, h3, h4⟩ := fold_spec c roi k p c.nReal
  rw [← h4 l hl]
  unfold unary
  rw [List.getD_eq_getElem?_getD, List.getD_eq_getElem?_getD, List.getElem?_append_left (by rw [h3]; exact hl)]

theorem unary_reserved (c : Cfg) (roi : Nat → Bool) (k : Nat) (p : Px) (l : Nat) (h1 : c.nReal ≤ l) (h2 : l < c.nReal + 2) :
    (unary c roi k p).getD l 0 = 10000 := by
  obtain ⟨-, -, h3, -⟩ := fold_spec c roi k p c.nReal
  unfold unary
  rw [List.getD_eq_getElem?_getD, List.getElem?_append_right (by rw [h3]; exact h1), h3]
  have : l - c.nReal = 0 ∨ l - c.nReal = 1 := by omega
  rcases this with e | e <;> rw [e] <;> rfl

theorem wta_fold (costs : List Nat) (m : Nat) :
    let b := (List.range' 1 m).foldl (fun b i => if costs.getD b 0 > costs.getD i 0 then i else b) 0
    b ≤ m ∧ (∀ j, j ≤ m → costs.getD b 0 ≤ costs.getD j 0) ∧ ∀ j, j < b → costs.getD b 0 < costs.getD j 0 := by
  induction m with
  | zero =>
    refine ⟨Nat.le_refl _, fun j hj => ?_, fun j hj => absurd hj (Nat.not_lt_zero j)⟩
    have : j = 0 := by omega
    subst this
    exact Nat.le_refl _
  | succ m ih =>
    rw [List.range'_concat, List.foldl_append, List.foldl_cons, List.foldl_nil, Nat.one_mul]
    obtain ⟨h1, h2, h3⟩ := ih
    generalize (List.range' 1 m).foldl (fun b i => if costs.getD b 0 > costs.getD i 0 then i else b) 0 = b at *
    dsimp only
    by_cases h : costs.getD b 0 > costs.getD (1 + m) 0
    · rw [if_pos h]
      refine ⟨by omega, fun j hj => ?_, fun j hj => ?_⟩
      · by_cases e : j = 1 + m
        · rw [e]
        · have := h2 j (by omega)
          omega
      · have := h2 j (by omega)
        omega
    · rw [if_neg h]
      refine ⟨by omega, fun j hj => ?_, h3⟩
      by_cases e : j = 1 + m
      · rw [e]
        omega
      · exact h2 j (by omega)

theorem wta_spec (costs : List Nat) (h : 0 < costs.length) : Best costs (wta costs) := by
  obtain ⟨h1, h2, h3⟩ := wta_fold costs (costs.length - 1)
  refine ⟨?_, ?_, h3⟩
  · have : wta costs ≤ costs.length - 1 := h1
    omega
  · intro j hj
    exact h2 j (by omega)

theorem sum_le (l : List Nat) (f : Nat → Nat) (b : Nat) (h : ∀ x, x ∈ l → f x ≤ b) : (l.map f).sum ≤ l.length * b := by
  induction l with
  | nil => exact Nat.zero_le _
  | cons x xs ih =>
    rw [List.map_cons, List.sum_cons, List.length_cons, Nat.succ_mul]
    have h1 := h x (List.mem_cons_self ..)
    have h2 := ih (fun y hy => h y (List.mem_cons_of_mem _ hy))
    omega

theorem mem_seen (c : Cfg) (roi : Nat → Bool) (k l x : Nat) (h : x ∈ seenBefore c roi k l) :
    x < l ∧ inView c roi k x = true := by
  unfold seenBefore at h
  rw [List.mem_filter] at h
  exact ⟨List.mem_range.1 h.1, h.2⟩

/-- out of view: at most the share of the largest cost -/
theorem out_le (c : Cfg) (roi : Nat → Bool) (k : Nat) (p : Px) (l b : Nat) (hl : l < c.nReal) (ho : inView c roi k l = false)
    (hb : ∀ x, x < l → inView c roi k x = true → matchCost c p x ≤ b) :
    (unary c roi k p).getD l 0 ≤ (seenBefore c roi k l).length * b / ((seenBefore c roi k l).length + 1) := by
  rw [unary_real c roi k p l hl, if_neg (by rw [ho]; exact Bool.false_ne_true)]
  apply Nat.div_le_div_right
  apply sum_le
  intro x hx
  obtain ⟨h1, h2⟩ := mem_seen c roi k l x hx
  exact hb x h1 h2

theorem share_lt (n b : Nat) (hb : 0 < b) : n * b / (n + 1) < b := by
  apply Nat.div_lt_of_lt_mul
  rw [Nat.succ_mul]
  omega

end Litiv.SegmUnary
