import Verif.Model.KofN
import Verif.Spec.KofN
import Mathlib.Algebra.Order.Field.Rat
import Mathlib.Algebra.Order.Field.Basic
import Mathlib.Tactic.Linarith
import Mathlib.Tactic.SplitIfs
import Mathlib.Tactic.Positivity
import Mathlib.Data.List.Perm.Subperm

namespace Litiv.KofN
open Spec

theorem choice_iff (k n : Nat) (l : List Nat) :
    Choice k n l ↔ l.length = k ∧ (∀ x ∈ l, x < n) ∧ l.Pairwise (· < ·) := by
  unfold Choice
  refine and_congr_right fun _ => and_congr_right fun _ => ?_
  rw [List.pairwise_iff_getElem]
  constructor
  · intro h i j hi hj hij
    exact h i j _ _ hij (List.getElem?_eq_getElem hi) (List.getElem?_eq_getElem hj)
  · intro h i j x y hij hx hy
    obtain ⟨hi, rfl⟩ := List.getElem?_eq_some_iff.1 hx
    obtain ⟨hj, rfl⟩ := List.getElem?_eq_some_iff.1 hy
    exact h i j hi hj hij

/-- Bounds of the split: `lk` of the draws so far went left. -/
theorem splitK_bounds (ri : Nat → Nat) (n leftN k s : Nat) (hk : k ≤ n) (hl : leftN ≤ n) :
    ∀ m lk, m ≤ k → lk ≤ k - m → lk ≤ leftN → (k - m) - lk ≤ n - leftN →
      splitK ri n leftN k s m lk ≤ leftN ∧ splitK ri n leftN k s m lk ≤ k ∧
        k - splitK ri n leftN k s m lk ≤ n - leftN := by
  intro m
  induction m with
  | zero => intro lk _ h1 h2 h3; simp only [splitK]; omega
  | succ m ih =>
    intro lk hm h1 h2 h3
    have hlt : ri (s + (k - (m + 1))) % (n - (k - (m + 1))) < n - (k - (m + 1)) := Nat.mod_lt _ (by omega)
    rw [splitK]
    split
    · exact ih _ (by omega) (by omega) (by omega) (by omega)
    · exact ih _ (by omega) (by omega) (by omega) (by omega)

theorem append_choice {a b n m : Nat} {l r : List Nat} (hl : Choice a n l) (hr : Choice b m r) :
    Choice (a + b) (n + m) (l ++ r.map (· + n)) := by
  rw [choice_iff] at hl hr ⊢
  refine ⟨by simp [hl.1, hr.1], ?_, ?_⟩
  · intro x hx
    rcases List.mem_append.1 hx with h | h
    · have := hl.2.1 x h; omega
    · obtain ⟨y, hy, rfl⟩ := List.mem_map.1 h
      have := hr.2.1 y hy; omega
  · rw [List.pairwise_append]
    refine ⟨hl.2.2, ?_, ?_⟩
    · rw [List.pairwise_map]
      exact hr.2.2.imp (by intro a b h; omega)
    · intro x hx y hy
      obtain ⟨z, hz, rfl⟩ := List.mem_map.1 hy
      have := hl.2.1 x hx; omega

theorem nil_choice (n : Nat) : Choice 0 n [] := by rw [choice_iff]; simp

theorem smallK_choice (ri : Nat → Nat) (n : Nat) : ∀ k s, 0 < k → k ≤ n →
    ∃ l s', smallK ri k n s = some (l, s') ∧ Choice k n l := by
  induction n using Nat.strongRecOn with
  | _ n ih =>
    intro k s hk hn
    rw [smallK, dif_pos ⟨hk, hn⟩]
    by_cases h1 : k = 1
    · rw [if_pos h1]
      refine ⟨_, _, rfl, ?_⟩
      rw [choice_iff]
      have := Nat.mod_lt (ri s) (show 0 < n by omega)
      simp [h1, this]
    · rw [if_neg h1]
      dsimp only
      obtain ⟨b1, b2, b3⟩ := splitK_bounds ri n (n / 2) k s hn (Nat.div_le_self _ _) k 0 (le_refl _) (by omega) (by omega) (by omega)
      generalize splitK ri n (n / 2) k s k 0 = lk at b1 b2 b3
      have left : ∃ l s', (if 0 < lk then smallK ri lk (n / 2) (s + k) else some ([], s + k)) = some (l, s') ∧
          Choice lk (n / 2) l := by
        by_cases h : 0 < lk
        · rw [if_pos h]; exact ih (n / 2) (by omega) lk _ h b1
        · rw [if_neg h]
          refine ⟨_, _, rfl, ?_⟩
          obtain rfl : lk = 0 := by omega
          exact nil_choice _
      obtain ⟨l, s1, e1, c1⟩ := left
      have right : ∃ r s', (if 0 < k - lk then smallK ri (k - lk) (n - n / 2) s1 else some ([], s1)) = some (r, s') ∧
          Choice (k - lk) (n - n / 2) r := by
        by_cases h : 0 < k - lk
        · rw [if_pos h]; exact ih (n - n / 2) (by omega) (k - lk) _ h b3
        · rw [if_neg h]
          refine ⟨_, _, rfl, ?_⟩
          rw [show k - lk = 0 by omega]
          exact nil_choice _
      obtain ⟨r, s2, e2, c2⟩ := right
      rw [e1]
      simp only [Option.bind_some]
      rw [e2]
      refine ⟨_, _, rfl, ?_⟩
      have := append_choice c1 c2
      rwa [show lk + (k - lk) = k by omega, show n / 2 + (n - n / 2) = n by omega] at this

theorem largeLoop_choice (rr : Nat → ℚ) (h : HalfOpen rr) (n s : Nat) : ∀ m need, m ≤ n → need ≤ m →
    ∃ l, largeLoop rr n s m need = some l ∧ l.length = need ∧ (∀ x ∈ l, n - m ≤ x ∧ x < n) ∧ l.Pairwise (· < ·) := by
  intro m
  induction m with
  | zero => intro need _ h2; exact ⟨[], by simp [largeLoop]; omega, by simp; omega, by simp, List.Pairwise.nil⟩
  | succ m ih =>
    intro need hm hn
    rw [largeLoop, if_pos hn]
    by_cases hx : rr (s + (n - (m + 1))) < (need : ℚ) / ((m + 1 : Nat) : ℚ)
    · rw [if_pos hx]
      have hpos : ¬ need ≤ 0 ∨ need = 0 := by omega
      by_cases h0 : need = 0
      · -- a draw below zero: excluded below by the caller; the count is kept anyway
        subst h0
        obtain ⟨l, e, a, b, c⟩ := ih 0 (by omega) (by omega)
        exact absurd hx (by simpa using (h _).1)
      · obtain ⟨l, e, a, b, c⟩ := ih (need - 1) (by omega) (by omega)
        rw [e]
        refine ⟨_, rfl, by simp [a]; omega, ?_, ?_⟩
        · intro x hx
          rcases List.mem_cons.1 hx with rfl | hx
          · omega
          · have := b x hx; omega
        · rw [List.pairwise_cons]
          exact ⟨fun x hx => by have := b x hx; omega, c⟩
    · rw [if_neg hx]
      have hlt : need < m + 1 := by
        rcases Nat.lt_or_ge need (m + 1) with h' | h'
        · exact h'
        · exfalso
          have e : need = m + 1 := by omega
          subst e
          apply hx
          rw [div_self (by positivity)]
          exact (h _).2
      obtain ⟨l, e, a, b, c⟩ := ih need (by omega) (by omega)
      exact ⟨l, e, a, fun x hx => by have := b x hx; omega, c⟩

/-! ## Every choice can be drawn -/

/-- The draws that send exactly the first `a` of `k` values to the left. -/
def splitDraws (n k a : Nat) : List Nat := (List.range k).map fun i => if i < a then 0 else n - i - 1

theorem splitK_draws (ri : Nat → Nat) (n leftN k s a : Nat) (hk : k ≤ n) (ha : a ≤ leftN) (hak : a ≤ k)
    (hb : k - a ≤ n - leftN) (hl : leftN ≤ n)
    (h : ∀ i, i < k → ri (s + i) = if i < a then 0 else n - i - 1) :
    ∀ m lk, m ≤ k → lk = min (k - m) a → splitK ri n leftN k s m lk = a := by
  intro m
  induction m with
  | zero => intro lk _ h1; simp only [splitK]; omega
  | succ m ih =>
    intro lk hm h1
    rw [splitK, h _ (by omega)]
    by_cases hi : k - (m + 1) < a
    · rw [if_pos hi, Nat.zero_mod, if_pos (by omega)]
      exact ih _ (by omega) (by omega)
    · rw [if_neg hi, Nat.mod_eq_of_lt (by omega), if_neg (by omega)]
      exact ih _ (by omega) (by omega)

theorem split_sorted (N : Nat) : ∀ l : List Nat, l.Pairwise (· < ·) →
    ∃ a b : List Nat, l = a ++ b.map (· + N) ∧ (∀ x ∈ a, x < N) ∧ a.Pairwise (· < ·) ∧ b.Pairwise (· < ·) := by
  intro l
  induction l with
  | nil => intro _; exact ⟨[], [], rfl, by simp, List.Pairwise.nil, List.Pairwise.nil⟩
  | cons x l ih =>
    intro h
    rw [List.pairwise_cons] at h
    obtain ⟨a, b, e, h1, h2, h3⟩ := ih h.2
    by_cases hx : x < N
    · refine ⟨x :: a, b, by rw [e]; rfl, ?_, ?_, h3⟩
      · intro y hy
        rcases List.mem_cons.1 hy with rfl | hy
        · exact hx
        · exact h1 y hy
      · rw [List.pairwise_cons]
        exact ⟨fun y hy => h.1 y (by rw [e]; exact List.mem_append_left _ hy), h2⟩
    · have ha : a = [] := by
        rcases a with _ | ⟨y, a⟩
        · rfl
        · exfalso
          have h4 := h1 y List.mem_cons_self
          have h5 := h.1 y (by rw [e]; simp)
          omega
      subst ha
      refine ⟨[], (x - N) :: b, ?_, by simp, List.Pairwise.nil, ?_⟩
      · rw [e]; simp; omega
      · rw [List.pairwise_cons]
        refine ⟨fun y hy => ?_, h3⟩
        have := h.1 (y + N) (by rw [e]; simp; exact hy)
        omega

/-- The stream `ri` has the numbers of `L` from position `s` on. -/
def Reads (ri : Nat → Nat) (s : Nat) (L : List Nat) : Prop := ∀ i x, L[i]? = some x → ri (s + i) = x

theorem reads_append {ri : Nat → Nat} {s : Nat} {L M : List Nat} (h : Reads ri s (L ++ M)) :
    Reads ri s L ∧ Reads ri (s + L.length) M := by
  constructor
  · intro i x hx
    refine h i x ?_
    rw [List.getElem?_append_left (List.getElem?_eq_some_iff.1 hx).1]
    exact hx
  · intro i x hx
    have := h (L.length + i) x (by rw [List.getElem?_append_right (by omega)]; simpa using hx)
    rwa [Nat.add_assoc]

theorem smallK_reach (n : Nat) : ∀ k l, 0 < k → Choice k n l →
    ∃ L : List Nat, ∀ ri s, Reads ri s L → smallK ri k n s = some (l, s + L.length) := by
  induction n using Nat.strongRecOn with
  | _ n ih =>
    intro k l hk hc
    have hkn : k ≤ n := by
      rw [choice_iff] at hc
      have h1 : l.Nodup := hc.2.2.imp (fun h => Nat.ne_of_lt h)
      have h2 : l ⊆ List.range n := fun x hx => List.mem_range.2 (hc.2.1 x hx)
      have h3 := (List.Nodup.subperm h1 h2).length_le
      rw [List.length_range] at h3
      omega
    by_cases h1 : k = 1
    · subst h1
      rw [choice_iff] at hc
      match l, hc with
      | [x], hc =>
        refine ⟨[x], ?_⟩
        intro ri s hr
        rw [smallK, dif_pos ⟨hk, hkn⟩, if_pos rfl]
        have e := hr 0 x rfl
        rw [Nat.add_zero] at e
        rw [e, Nat.mod_eq_of_lt (hc.2.1 x (by simp))]
        rfl
    · obtain ⟨a, b, e, ha, pa, pb⟩ := split_sorted (n / 2) l ((choice_iff _ _ _).1 hc).2.2
      have hc' := (choice_iff _ _ _).1 hc
      have hlen : a.length + b.length = k := by rw [← hc'.1, e]; simp
      have ca : Choice a.length (n / 2) a := by rw [choice_iff]; exact ⟨rfl, ha, pa⟩
      have cb : Choice b.length (n - n / 2) b := by
        rw [choice_iff]
        refine ⟨rfl, fun x hx => ?_, pb⟩
        have := hc'.2.1 (x + n / 2) (by rw [e]; simp; right; exact hx)
        omega
      have bound : ∀ (c m : Nat) (t : List Nat), Choice c m t → c ≤ m := by
        intro c m t ht
        rw [choice_iff] at ht
        have h1 : t.Nodup := ht.2.2.imp (fun h => Nat.ne_of_lt h)
        have h2 : t ⊆ List.range m := fun x hx => List.mem_range.2 (ht.2.1 x hx)
        have h3 := (List.Nodup.subperm h1 h2).length_le
        rw [List.length_range] at h3
        omega
      have hal := bound _ _ _ ca
      have hbl := bound _ _ _ cb
      have left : ∃ L : List Nat, ∀ ri s, Reads ri s L →
          (if 0 < a.length then smallK ri a.length (n / 2) s else some ([], s)) = some (a, s + L.length) := by
        by_cases h : 0 < a.length
        · obtain ⟨L, hL⟩ := ih (n / 2) (by omega) _ a h ca
          exact ⟨L, fun ri s hr => by rw [if_pos h]; exact hL ri s hr⟩
        · refine ⟨[], fun ri s _ => ?_⟩
          rw [if_neg h, List.length_eq_zero_iff.1 (show a.length = 0 by omega)]
          rfl
      have right : ∃ L : List Nat, ∀ ri s, Reads ri s L →
          (if 0 < b.length then smallK ri b.length (n - n / 2) s else some ([], s)) = some (b, s + L.length) := by
        by_cases h : 0 < b.length
        · obtain ⟨L, hL⟩ := ih (n - n / 2) (by omega) _ b h cb
          exact ⟨L, fun ri s hr => by rw [if_pos h]; exact hL ri s hr⟩
        · refine ⟨[], fun ri s _ => ?_⟩
          rw [if_neg h, List.length_eq_zero_iff.1 (show b.length = 0 by omega)]
          rfl
      obtain ⟨L, hL⟩ := left
      obtain ⟨R, hR⟩ := right
      refine ⟨splitDraws n k a.length ++ (L ++ R), fun ri s hr => ?_⟩
      obtain ⟨r1, r2⟩ := reads_append hr
      obtain ⟨r2, r3⟩ := reads_append r2
      have hsd : (splitDraws n k a.length).length = k := by simp [splitDraws]
      rw [hsd] at r2 r3
      have hs : splitK ri n (n / 2) k s k 0 = a.length := by
        refine splitK_draws ri n (n / 2) k s a.length hkn hal (by omega) (by omega) (Nat.div_le_self _ _) ?_ k 0
          (le_refl _) (by omega)
        intro i hi
        refine r1 i _ ?_
        simp [splitDraws, hi]
      rw [smallK, dif_pos ⟨hk, hkn⟩, if_neg h1]
      dsimp only
      rw [hs, hL ri _ r2]
      simp only [Option.bind_some]
      rw [show k - a.length = b.length by omega, hR ri _ r3]
      simp only [Option.bind_some, List.length_append, hsd]
      rw [← e]
      congr 2
      omega

/-- A stream of reals in `[0, 1)` for which the indices of `l` are kept. -/
def keepDraws (n s : Nat) (l : List Nat) (t : Nat) : ℚ :=
  if t - s ∈ l then 0 else ((n - (t - s) - 1 : Nat) : ℚ) / ((n - (t - s) : Nat) : ℚ)

theorem keepDraws_halfOpen (n s : Nat) (l : List Nat) : HalfOpen (keepDraws n s l) := by
  intro t
  unfold keepDraws
  split
  · norm_num
  · refine ⟨by positivity, ?_⟩
    rcases Nat.eq_zero_or_pos (n - (t - s)) with h | h
    · rw [h]; norm_num
    · rw [div_lt_one (by exact_mod_cast h)]
      exact_mod_cast (by omega : n - (t - s) - 1 < n - (t - s))

theorem largeLoop_reach (n s : Nat) (l0 : List Nat) : ∀ m l, m ≤ n → (∀ x ∈ l, n - m ≤ x ∧ x < n) →
    l.Pairwise (· < ·) → (∀ x, n - m ≤ x → (x ∈ l0 ↔ x ∈ l)) →
    largeLoop (keepDraws n s l0) n s m l.length = some l := by
  intro m
  induction m with
  | zero =>
    intro l _ h _ _
    rcases l with _ | ⟨x, l⟩
    · simp [largeLoop]
    · have := h x List.mem_cons_self; omega
  | succ m ih =>
    intro l hm h hp h0
    have hle : l.length ≤ m + 1 := by
      have h1 : l.Nodup := hp.imp (fun h => Nat.ne_of_lt h)
      have h2 : l ⊆ List.range' (n - (m + 1)) (m + 1) := by
        intro x hx
        have := h x hx
        rw [List.mem_range'_1]
        omega
      have h3 := (List.Nodup.subperm h1 h2).length_le
      rwa [List.length_range'] at h3
    rw [largeLoop, if_pos hle]
    have hpos : (0 : ℚ) < ((m + 1 : Nat) : ℚ) := by exact_mod_cast Nat.succ_pos m
    by_cases hx : n - (m + 1) ∈ l
    · rcases l with _ | ⟨x, l⟩
      · simp at hx
      · rw [List.pairwise_cons] at hp
        have hxe : x = n - (m + 1) := by
          rcases List.mem_cons.1 hx with e | e
          · exact e.symm
          · have h1 := hp.1 _ e
            have h2 := h x List.mem_cons_self
            omega
        have hd : keepDraws n s l0 (s + (n - (m + 1))) = 0 := by
          unfold keepDraws
          rw [Nat.add_sub_cancel_left, if_pos ((h0 _ (le_refl _)).2 hx)]
        rw [hd, if_pos (div_pos (Nat.cast_pos.2 (by simp)) hpos)]
        have := ih l (by omega) (fun y hy => by
            have h1 := h y (List.mem_cons_of_mem _ hy)
            have h2 := hp.1 y hy
            omega) hp.2 (fun y hy => by
            rw [h0 y (by omega), List.mem_cons]
            exact ⟨fun hh => hh.resolve_left (by omega), Or.inr⟩)
        rw [List.length_cons, Nat.add_sub_cancel, this, hxe]
        rfl
    · have hd : keepDraws n s l0 (s + (n - (m + 1))) = ((m : Nat) : ℚ) / ((m + 1 : Nat) : ℚ) := by
        unfold keepDraws
        rw [Nat.add_sub_cancel_left, if_neg (fun hh => hx ((h0 _ (le_refl _)).1 hh)),
          show n - (n - (m + 1)) - 1 = m by omega, show n - (n - (m + 1)) = m + 1 by omega]
      have hlm : ∀ y ∈ l, n - m ≤ y ∧ y < n := by
        intro y hy
        have h1 := h y hy
        have h2 : y ≠ n - (m + 1) := fun e => hx (e ▸ hy)
        omega
      have hle' : l.length ≤ m := by
        have h1 : l.Nodup := hp.imp (fun h => Nat.ne_of_lt h)
        have h2 : l ⊆ List.range' (n - m) m := by
          intro x hx
          have := hlm x hx
          rw [List.mem_range'_1]
          omega
        have h3 := (List.Nodup.subperm h1 h2).length_le
        rwa [List.length_range'] at h3
      rw [hd, if_neg (by
        rw [not_lt, div_le_div_iff_of_pos_right hpos]
        exact_mod_cast hle')]
      exact ih l (by omega) hlm hp (fun y hy => h0 y (by omega))

end Litiv.KofN
