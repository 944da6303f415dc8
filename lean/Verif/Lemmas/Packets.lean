import Verif.Model.Packets
import Mathlib.Data.Finset.Card
import Mathlib.Data.List.Lex
import Mathlib.Tactic.Ring

/-! # Auxiliary lemmas for packet counting and naming -/

namespace Litiv.Packets

/-! ### Counter -/

theorem insertIdx_mem (l : List Nat) (i j : Nat) : j ∈ insertIdx l i ↔ j ∈ l ∨ j = i := by
  unfold insertIdx
  split
  · constructor
    · exact Or.inl
    · rintro (h | rfl)
      · exact h
      · assumption
  · simp

theorem insertIdx_nodup (l : List Nat) (i : Nat) (h : l.Nodup) : (insertIdx l i).Nodup := by
  unfold insertIdx
  split
  · exact h
  · rw [List.nodup_append]
    exact ⟨h, by simp, by rintro a ha b hb rfl; simp at hb; subst hb; contradiction⟩

theorem resetCount_some (c d : Counter) (h : c.resetCount = some d) :
    c.promise = none ∧ d = { c with seen := [], promise := none, futureValid := true, final := 0 } := by
  unfold Counter.resetCount Counter.setPromise at h
  cases hp : c.promise with
  | none => rw [hp] at h; simp at h; exact ⟨rfl, h.symm⟩
  | some n => rw [hp] at h; simp at h

theorem resetCount_none (c : Counter) : c.resetCount = none ↔ c.promise ≠ none := by
  unfold Counter.resetCount Counter.setPromise
  cases c.promise <;> simp

theorem run_append (c : Counter) (a b : List Op) :
    c.run (a ++ b) = (((c.run a).1.run b).1, (c.run a).2 ++ ((c.run a).1.run b).2) := by
  induction a generalizing c with
  | nil => rfl
  | cons o a ih => simp only [List.cons_append, Counter.run, ih]

/-! ### Names -/

/-- Value of a decimal string. -/
def val (s : List Char) : Nat := s.foldl (fun n c => n * 10 + (c.toNat - 48)) 0

theorem val_append (s : List Char) (c : Char) : val (s ++ [c]) = val s * 10 + (c.toNat - 48) := by simp [val]

theorem val_toDigits (n : Nat) : val (Nat.toDigits 10 n) = n := by
  induction n using Nat.strong_induction_on with
  | _ n ih =>
    rw [Nat.toDigits_eq_if (by norm_num)]
    split
    · rename_i h
      simp [val, Nat.toNat_digitChar_of_lt_ten h]
    · rename_i h
      rw [val_append, ih _ (by omega), Nat.toNat_digitChar_of_lt_ten (by omega)]
      omega

theorem foldl_zeros (k : Nat) (s : List Char) : val (List.replicate k '0' ++ s) = val s := by
  unfold val
  rw [List.foldl_append]
  congr 1
  induction k with
  | zero => rfl
  | succ k ih => rw [List.replicate_succ, List.foldl_cons]; exact ih

theorem val_padded (w n : Nat) : val (padded w n) = n := by
  unfold padded
  rw [foldl_zeros, val_toDigits]

theorem toDigits_length (n k : Nat) (hk : 0 < k) (h : n < 10^k) : (Nat.toDigits 10 n).length ≤ k := by
  induction k generalizing n with
  | zero => omega
  | succ k ih =>
    rw [Nat.toDigits_eq_if (by norm_num)]
    split
    · simp
    · rename_i h'
      have hk' : 0 < k := by
        rcases Nat.eq_zero_or_pos k with rfl | h0
        · omega
        · exact h0
      rw [List.length_append, List.length_singleton]
      have := ih (n / 10) hk' (by rw [Nat.div_lt_iff_lt_mul (by norm_num), ← Nat.pow_succ]; exact h)
      omega

theorem padded_succ (w n : Nat) (hw : 0 < w) : padded (w + 1) n = padded w (n / 10) ++ [Nat.digitChar (n % 10)] := by
  unfold padded
  rw [Nat.toDigits_eq_if (b := 10) (n := n) (by norm_num)]
  split
  · rename_i h
    rw [Nat.div_eq_of_lt h, Nat.mod_eq_of_lt h, Nat.toDigits_of_lt_base (n := 0) (by norm_num)]
    simp only [List.length_singleton, Nat.add_sub_cancel]
    congr 1
    rw [show ['0'.toNat |> fun _ => Nat.digitChar 0] = List.replicate 1 '0' by rfl, ← List.replicate_add]
    congr 1; omega
  · rw [← List.append_assoc]
    congr 2
    rw [List.length_append, List.length_singleton]
    congr 1; omega

theorem padded_length (w n : Nat) (hw : 0 < w) (h : n < 10^w) : (padded w n).length = w := by
  unfold padded
  have := toDigits_length n w hw h
  rw [List.length_append, List.length_replicate]
  omega

theorem padded_le (w n : Nat) (h : n < 2^64) (hw : w ≤ 20) : (padded w n).length ≤ 20 := by
  unfold padded
  have := toDigits_length n 20 (by norm_num) (by omega)
  rw [List.length_append, List.length_replicate]
  omega

theorem lex_append {s t u v : List Char} (hl : s.length = t.length) (h : s < t) : s ++ u < t ++ v := by
  induction s generalizing t with
  | nil =>
    have : t = [] := List.length_eq_zero_iff.1 hl.symm
    subst this
    exact absurd h (List.lt_irrefl [])
  | cons a s ih =>
    cases t with
    | nil => simp at hl
    | cons b t =>
      rw [List.cons_append, List.cons_append]
      rw [List.cons_lt_cons_iff] at h ⊢
      rcases h with h | ⟨rfl, h⟩
      · exact Or.inl h
      · exact Or.inr ⟨rfl, ih (by simpa using hl) h⟩

theorem lex_append_left {s u v : List Char} (h : u < v) : s ++ u < s ++ v := by
  induction s with
  | nil => exact h
  | cons a s ih => rw [List.cons_append, List.cons_append, List.cons_lt_cons_iff]; exact Or.inr ⟨rfl, ih⟩

theorem digitChar_lt {a b : Nat} (hb : b < 10) (h : a < b) : Nat.digitChar a < Nat.digitChar b := by
  have h1 := Nat.toNat_digitChar_of_lt_ten (n := a) (by omega)
  have h2 := Nat.toNat_digitChar_of_lt_ten hb
  rw [Char.lt_def, UInt32.lt_iff_toNat_lt]
  show (Nat.digitChar a).toNat < (Nat.digitChar b).toNat
  omega

theorem padded_lt (w i j : Nat) (hw : 0 < w) (hj : j < 10^w) (h : i < j) : padded w i < padded w j := by
  induction w generalizing i j with
  | zero => omega
  | succ w ih =>
    rcases Nat.eq_zero_or_pos w with rfl | hw'
    · have e : ∀ n, n < 10 → padded 1 n = [Nat.digitChar n] := by
        intro n hn
        unfold padded
        rw [Nat.toDigits_of_lt_base hn]; rfl
      rw [e i (by omega), e j (by omega), List.cons_lt_cons_iff]
      exact Or.inl (digitChar_lt (by omega) h)
    · rw [padded_succ w i hw', padded_succ w j hw']
      have hj' : j / 10 < 10^w := by rw [Nat.div_lt_iff_lt_mul (by norm_num), ← Nat.pow_succ]; exact hj
      by_cases hd : i / 10 < j / 10
      · have hi' : i / 10 < 10^w := by omega
        exact lex_append (by rw [padded_length w _ hw' hi', padded_length w _ hw' hj']) (ih _ _ hw' hj' hd)
      · have : i / 10 = j / 10 := by omega
        rw [this]
        refine lex_append_left ?_
        rw [List.cons_lt_cons_iff]
        exact Or.inl (digitChar_lt (by omega) (by omega))

theorem toDigits_no_underscore (n : Nat) : '_' ∉ Nat.toDigits 10 n := by
  intro h
  have := Nat.isDigit_of_mem_toDigits (by norm_num) (by norm_num) h
  exact absurd this (by decide)

theorem padded_no_underscore (w n : Nat) : '_' ∉ padded w n := by
  unfold padded
  rw [List.mem_append]
  rintro (h | h)
  · exact absurd (List.eq_of_mem_replicate h) (by decide)
  · exact toDigits_no_underscore n h

theorem split_underscore {a b u v : List Char} (ha : '_' ∉ a) (hb : '_' ∉ b) (h : a ++ '_' :: u = b ++ '_' :: v) :
    a = b ∧ u = v := by
  induction a generalizing b with
  | nil =>
    cases b with
    | nil => simp at h; exact ⟨rfl, h⟩
    | cons c b =>
      simp at h
      exact absurd (by rw [← h.1]; simp) hb
  | cons c a ih =>
    cases b with
    | nil =>
      simp at h
      exact absurd (by rw [h.1]; simp) ha
    | cons d b =>
      rw [List.cons_append, List.cons_append, List.cons.injEq] at h
      obtain ⟨h1, h2⟩ := ih (fun hm => ha (List.mem_cons_of_mem _ hm)) (fun hm => hb (List.mem_cons_of_mem _ hm)) h.2
      exact ⟨by rw [h.1, h1], h2⟩

end Litiv.Packets
