import Verif.Model.BgUtils
import Verif.Spec.Consensus
import Verif.Lemmas.Consensus
import Mathlib.Tactic.Tauto

namespace Litiv.BgUtils
open Consensus.Spec Consensus

theorem window3_mem (rows cols y x : Nat) (p : Nat × Nat) :
    p ∈ window3 rows cols y x ↔ InImg rows cols p ∧ Near 1 (y, x) p := by
  obtain ⟨a, b⟩ := p
  simp only [window3, List.mem_filterMap, List.mem_flatMap, List.mem_map, List.mem_range, InImg, Near]
  constructor
  · rintro ⟨q, ⟨dy, hdy, dx, hdx, rfl⟩, h⟩
    split at h
    · rename_i hc
      injection h with h
      injection h with h1 h2
      dsimp only at hc h1 h2 ⊢
      omega
    · exact absurd h (by simp)
  · rintro ⟨⟨h1, h2⟩, h3, h4, h5, h6⟩
    refine ⟨(a + 1, b + 1), ⟨a + 1 - y, by omega, b + 1 - x, by omega, by congr 1 <;> omega⟩, ?_⟩
    rw [if_pos (by dsimp only; omega)]
    rfl

theorem foldmax_ne {α : Type} (f : α → BitVec 8) (l : List α) : ∀ m : BitVec 8,
    ((l.foldl (fun m p => if m < f p then f p else m) m) ≠ 0 ↔ m ≠ 0 ∨ ∃ p ∈ l, f p ≠ 0) ∧
    ((m = 0 ∨ m = 255) → (∀ p ∈ l, f p = 0 ∨ f p = 255) →
      (l.foldl (fun m p => if m < f p then f p else m) m = 0 ∨ l.foldl (fun m p => if m < f p then f p else m) m = 255)) := by
  induction l with
  | nil => intro m; simp
  | cons a l ih =>
    intro m
    rw [List.foldl_cons]
    constructor
    · rw [(ih _).1]
      by_cases hlt : m < f a
      · rw [if_pos hlt]
        have : f a ≠ 0 := by intro h; rw [h] at hlt; simp at hlt
        rw [List.exists_mem_cons_iff]; tauto
      · rw [if_neg hlt]
        by_cases ha : f a = 0
        · rw [List.exists_mem_cons_iff]; tauto
        · have : m ≠ 0 := by
            intro h; rw [h] at hlt
            apply hlt
            rw [BitVec.lt_def]
            have : (f a).toNat ≠ 0 := fun h => ha (BitVec.eq_of_toNat_eq h)
            simp; omega
          rw [List.exists_mem_cons_iff]; tauto
    · intro hm hl
      refine (ih _).2 ?_ (fun p hp => hl p (List.mem_cons_of_mem _ hp))
      split
      · exact hl a List.mem_cons_self
      · exact hm

theorem dilate1_ne (rows cols : Nat) (f : Gray) (y x : Nat) :
    dilate1 rows cols f y x ≠ 0 ↔ ∃ p, InImg rows cols p ∧ Near 1 (y, x) p ∧ f p.1 p.2 ≠ 0 := by
  unfold dilate1
  rw [(foldmax_ne (fun p : Nat × Nat => f p.1 p.2) _ 0).1]
  simp only [ne_eq, not_true_eq_false, false_or, window3_mem, and_assoc]

theorem dilate1_bin (rows cols : Nat) (f : Gray) (hf : ∀ y x, InImg rows cols (y, x) → f y x = 0 ∨ f y x = 255) (y x : Nat) :
    dilate1 rows cols f y x = 0 ∨ dilate1 rows cols f y x = 255 :=
  (foldmax_ne (fun p : Nat × Nat => f p.1 p.2) _ 0).2 (Or.inl rfl) fun p hp => hf p.1 p.2 ((window3_mem _ _ _ _ _).1 hp).1

theorem near_split (rows cols it : Nat) (a b : Nat × Nat) (ha : InImg rows cols a) (hb : InImg rows cols b)
    (h : Near (it + 1) a b) : ∃ r, InImg rows cols r ∧ Near it a r ∧ Near 1 r b := by
  obtain ⟨a1, a2⟩ := a
  obtain ⟨b1, b2⟩ := b
  obtain ⟨h1, h2, h3, h4⟩ := h
  obtain ⟨i1, i2⟩ := ha
  obtain ⟨j1, j2⟩ := hb
  dsimp only at *
  let g : Nat → Nat → Nat := fun u v => if u < v then v - 1 else if v < u then v + 1 else v
  have hg : ∀ u v d n : Nat, u < n → v < n → u ≤ v + (d + 1) → v ≤ u + (d + 1) →
      g u v < n ∧ u ≤ g u v + d ∧ g u v ≤ u + d ∧ g u v ≤ v + 1 ∧ v ≤ g u v + 1 := by
    intro u v d n hu hv h h'
    simp only [g]
    split <;> [skip; split] <;> refine ⟨?_, ?_, ?_, ?_, ?_⟩ <;> omega
  have g1 := hg a1 b1 it rows i1 j1 h1 h2
  have g2 := hg a2 b2 it cols i2 j2 h3 h4
  exact ⟨(g a1 b1, g a2 b2), ⟨g1.1, g2.1⟩, ⟨g1.2.1, g1.2.2.1, g2.2.1, g2.2.2.1⟩, ⟨g1.2.2.2.1, g1.2.2.2.2, g2.2.2.2.1, g2.2.2.2.2⟩⟩

theorem near_trans (d e : Nat) (a b c : Nat × Nat) (h : Near d a b) (h' : Near e b c) : Near (d + e) a c := by
  obtain ⟨h1, h2, h3, h4⟩ := h
  obtain ⟨g1, g2, g3, g4⟩ := h'
  exact ⟨by omega, by omega, by omega, by omega⟩

theorem dilate_ne (rows cols : Nat) : ∀ (it : Nat) (f : Gray) (y x : Nat), InImg rows cols (y, x) →
    (dilate rows cols it f y x ≠ 0 ↔ ∃ p, InImg rows cols p ∧ Near it (y, x) p ∧ f p.1 p.2 ≠ 0) := by
  intro it
  induction it with
  | zero =>
    intro f y x hi
    rw [dilate]
    constructor
    · intro h; exact ⟨(y, x), hi, ⟨by dsimp only; omega, by dsimp only; omega, by dsimp only; omega, by dsimp only; omega⟩, h⟩
    · rintro ⟨⟨a, b⟩, h1, ⟨n1, n2, n3, n4⟩, h3⟩
      dsimp only at n1 n2 n3 n4
      obtain ⟨rfl, rfl⟩ : a = y ∧ b = x := ⟨by omega, by omega⟩
      exact h3
  | succ it ih =>
    intro f y x hi
    rw [dilate, ih _ y x hi]
    constructor
    · rintro ⟨p, h1, h2, h3⟩
      obtain ⟨q, g1, g2, g3⟩ := (dilate1_ne rows cols f p.1 p.2).1 h3
      exact ⟨q, g1, near_trans it 1 _ _ _ h2 g2, g3⟩
    · rintro ⟨p, h1, h2, h3⟩
      obtain ⟨r, g1, g2, g3⟩ := near_split rows cols it (y, x) p hi h1 h2
      exact ⟨r, g1, g2, (dilate1_ne rows cols f r.1 r.2).2 ⟨p, h1, g3, h3⟩⟩

theorem dilate_bin (rows cols : Nat) : ∀ (it : Nat) (f : Gray), (∀ y x, InImg rows cols (y, x) → f y x = 0 ∨ f y x = 255) →
    ∀ y x, InImg rows cols (y, x) → dilate rows cols it f y x = 0 ∨ dilate rows cols it f y x = 255 := by
  intro it
  induction it with
  | zero => intro f hf; exact hf
  | succ it ih => intro f hf; exact ih _ fun y x _ => dilate1_bin rows cols f hf y x

theorem lin_px {V : Type} (rows cols : Nat) (f : Nat → Nat → V) (y x : Nat) (h : InImg rows cols (y, x)) :
    y * cols + x < rows * cols ∧ lin cols f (y * cols + x) = f y x := by
  obtain ⟨h1, h2⟩ := h
  dsimp only at h1 h2
  have hc : 0 < cols := by omega
  refine ⟨?_, ?_⟩
  · calc y * cols + x < y * cols + cols := by omega
      _ = (y + 1) * cols := by rw [Nat.add_mul, Nat.one_mul]
      _ ≤ rows * cols := Nat.mul_le_mul_right _ h1
  · unfold lin
    rw [Nat.add_comm, Nat.add_mul_div_right _ _ hc, Nat.div_eq_of_lt h2, Nat.zero_add, Nat.add_mul_mod_self_right, Nat.mod_eq_of_lt h2]

theorem idx_px (rows cols i : Nat) (h : i < rows * cols) : InImg rows cols (i / cols, i % cols) ∧ i / cols * cols + i % cols = i := by
  have hc : 0 < cols := by
    rcases Nat.eq_zero_or_pos cols with h0 | h0
    · rw [h0] at h; omega
    · exact h0
  refine ⟨⟨?_, Nat.mod_lt _ hc⟩, ?_⟩
  · rw [Nat.div_lt_iff_lt_mul hc]; exact h
  · rw [Nat.mul_comm]; exact Nat.div_add_mod i cols

theorem bin_lin (rows cols : Nat) (f : Gray) :
    ((List.range (rows * cols)).all fun i => lin cols f i == 0 || lin cols f i == 255) = true ↔
      ∀ y x, InImg rows cols (y, x) → f y x = 0 ∨ f y x = 255 := by
  rw [List.all_eq_true]
  simp only [List.mem_range, Bool.or_eq_true, beq_iff_eq]
  constructor
  · intro h y x hi
    obtain ⟨h1, h2⟩ := lin_px rows cols f y x hi
    have := h _ h1
    rwa [h2] at this
  · intro h i hi
    exact h _ _ (idx_px rows cols i hi).1

theorem countNonZero_pos (rows cols : Nat) (f : Gray) :
    countNonZero rows cols f ≠ 0 ↔ ∃ y x, InImg rows cols (y, x) ∧ f y x ≠ 0 := by
  unfold countNonZero
  rw [← Nat.pos_iff_ne_zero, List.countP_pos_iff]
  simp only [List.mem_range, decide_eq_true_eq]
  constructor
  · rintro ⟨i, hi, h⟩
    exact ⟨_, _, (idx_px rows cols i hi).1, h⟩
  · rintro ⟨y, x, hi, h⟩
    obtain ⟨h1, h2⟩ := lin_px rows cols f y x hi
    exact ⟨_, h1, by rw [h2]; exact h⟩

theorem chosen_values (roi t : BitVec 8) (hr : roi = 0 ∨ roi = 255) (ht : t = 0 ∨ t = 255) :
    roi ||| half t = if roi = 255 then 255 else if t = 0 then 0 else 128 := by
  rcases hr with rfl | rfl <;> rcases ht with rfl | rfl <;> decide

/-- Invariant of the table loop after the pixels `0 … k-1`. -/
structure TInv {V : Type} (total cols : Nat) (roi : Gray) (img : Nat → V) (zero : V) (k : Nat) (t : Tab V) : Prop where
  iter : t.iter = (List.range k).countP fun i => decide (lin cols roi i ≠ 0)
  len : t.lut.length = (List.range total).countP fun i => decide (lin cols roi i ≠ 0)
  take : t.lut.take t.iter = (List.range k).filter fun i => decide (lin cols roi i ≠ 0)
  idx : ∀ i < k, t.modelIdx i = if lin cols roi i ≠ 0 then some ((List.range i).countP fun j => decide (lin cols roi j ≠ 0)) else none
  last : ∀ i, t.last i = if i < k ∧ lin cols roi i ≠ 0 then img i else zero

theorem tabStep_spec {V : Type} (total cols : Nat) (roi : Gray) (img : Nat → V) (zero : V) (k : Nat) (hk : k < total) (t : Tab V)
    (h : TInv total cols roi img zero k t) :
    ∃ t', tabStep cols roi img t k = some t' ∧ TInv total cols roi img zero (k + 1) t' := by
  unfold tabStep
  by_cases hz : lin cols roi k ≠ 0
  · have hlt : t.iter < t.lut.length := by
      rw [h.iter, h.len]
      have : (List.range (k + 1)).countP (fun i => decide (lin cols roi i ≠ 0)) ≤ (List.range total).countP fun i => decide (lin cols roi i ≠ 0) :=
        List.Sublist.countP_le ((List.range_sublist).2 (by omega))
      rw [List.range_succ, List.countP_append, List.countP_singleton] at this
      simp only [decide_eq_true hz, if_true] at this
      omega
    rw [if_pos hz, if_pos hlt]
    refine ⟨_, rfl, ⟨?_, ?_, ?_, fun i hi => ?_, fun i => ?_⟩⟩
    · dsimp only
      rw [List.range_succ, List.countP_append, List.countP_singleton, h.iter]
      simp only [decide_eq_true hz, if_true]
    · dsimp only; rw [List.length_set]; exact h.len
    · dsimp only
      rw [List.range_succ, List.filter_append, ← h.take]
      have e : ([k].filter fun i => decide (lin cols roi i ≠ 0)) = [k] := by
        rw [List.filter_cons, if_pos (decide_eq_true hz)]; rfl
      rw [e, List.take_set, List.take_succ_eq_append_getElem (i := t.iter) (h := hlt), List.set_append_right _ _ (by rw [List.length_take]; omega)]
      congr 1
      rw [List.length_take, Nat.min_eq_left (by omega), Nat.sub_self]
      rfl
    · dsimp only
      by_cases he : i = k
      · subst he
        rw [if_pos rfl, if_pos hz, h.iter]
      · rw [if_neg he]; exact h.idx i (by omega)
    · dsimp only
      by_cases he : i = k
      · subst he
        rw [if_pos rfl, if_pos ⟨by omega, hz⟩]
      · rw [if_neg he, h.last i]
        refine if_congr ?_ rfl rfl
        constructor <;> rintro ⟨h1, h2⟩ <;> exact ⟨by omega, h2⟩
  · rw [if_neg hz]
    have hd : (decide (lin cols roi k ≠ 0)) = false := decide_eq_false hz
    refine ⟨_, rfl, ⟨?_, h.len, ?_, fun i hi => ?_, fun i => ?_⟩⟩
    · dsimp only
      rw [List.range_succ, List.countP_append, List.countP_singleton, h.iter, hd]; simp
    · dsimp only
      rw [List.range_succ, List.filter_append, ← h.take, List.filter_cons, hd]; simp
    · dsimp only
      by_cases he : i = k
      · subst he
        rw [if_pos rfl, if_neg hz]
      · rw [if_neg he]; exact h.idx i (by omega)
    · dsimp only
      rw [h.last i]
      refine if_congr ?_ rfl rfl
      constructor
      · rintro ⟨h1, h2⟩; exact ⟨by omega, h2⟩
      · rintro ⟨h1, h2⟩
        refine ⟨?_, h2⟩
        rcases Nat.lt_or_eq_of_le (Nat.le_of_lt_succ h1) with h | h
        · exact h
        · subst h; exact absurd h2 hz

theorem tab_spec {V : Type} (rows cols : Nat) (roi : Gray) (img : Nat → V) (zero : V) :
    ∃ t, (List.range (rows * cols)).foldlM (tabStep cols roi img)
      ⟨List.replicate (countNonZero rows cols roi) 0, fun _ => some 0, fun _ => zero, 0⟩ = some t ∧
      TInv (rows * cols) cols roi img zero (rows * cols) t := by
  obtain ⟨t, e, h⟩ := foldlM_inv (tabStep cols roi img) (List.range (rows * cols))
    (fun pre t => pre = List.range pre.length ∧ TInv (rows * cols) cols roi img zero pre.length t)
    (fun pre a post t hl hP => by
      have hlen := congrArg List.length hl
      rw [List.length_range, List.length_append, List.length_cons] at hlen
      have ha : a = pre.length := by
        have : (List.range (rows * cols))[pre.length]? = some a := by rw [hl]; simp
        rw [List.getElem?_range (by omega)] at this
        exact (Option.some.inj this).symm
      subst ha
      obtain ⟨t', e, h'⟩ := tabStep_spec (rows * cols) cols roi img zero pre.length (by omega) t hP.2
      refine ⟨t', e, ?_, ?_⟩
      · rw [List.length_append, List.length_singleton, List.range_succ, ← hP.1]
      · rw [List.length_append, List.length_singleton]; exact h')
    ⟨List.replicate (countNonZero rows cols roi) 0, fun _ => some 0, fun _ => zero, 0⟩
    ⟨rfl, ⟨rfl, by rw [List.length_replicate]; rfl, rfl, fun i hi => absurd hi (by simp), fun i => by simp⟩⟩
  refine ⟨t, e, ?_⟩
  have := h.2
  rwa [List.length_range] at this

end Litiv.BgUtils
