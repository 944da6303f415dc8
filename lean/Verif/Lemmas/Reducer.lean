import Verif.Model.Reducer
import Mathlib.Algebra.BigOperators.Intervals
import Mathlib.Algebra.BigOperators.Ring.Finset
import Mathlib.Tactic.Ring
import Mathlib.Tactic.Abel

/-!
# Lemmas for term reduction
-/

namespace Litiv.Reducer
open Finset

variable {R L : Type} [Ring R]

theorem bit_eq (a i : Nat) : bit a i = a.testBit i := by
  unfold bit
  rw [Nat.shiftLeft_eq, Nat.one_mul]
  cases h : a.testBit i
  · have : a &&& 2 ^ i = 0 := by
      apply Nat.eq_of_testBit_eq
      intro j
      rw [Nat.testBit_and, Nat.testBit_two_pow]
      by_cases hj : i = j
      · subst hj; simp [h]
      · simp [hj]
    simp [this]
  · have : a &&& 2 ^ i ≠ 0 := by
      intro c
      have := congrArg (fun x => x.testBit i) c
      simp [Nat.testBit_and, h] at this
    simp [this]

/-- bitwise inclusion below `n` -/
def Sub (n a s : Nat) : Prop := ∀ i, i < n → a.testBit i = true → s.testBit i = true

instance (n a s : Nat) : Decidable (Sub n a s) := by unfold Sub; infer_instance

theorem isSub_iff (n a s : Nat) (hn : n ≤ 64) (ha : a < 2 ^ n) (hs : s < 2 ^ n) :
    isSub a s = true ↔ Sub n a s := by
  have h64 : 2 ^ n ≤ 2 ^ 64 := Nat.pow_le_pow_right (by omega) hn
  unfold isSub Sub
  rw [beq_iff_eq]
  have tb : ∀ i, (2 ^ 64 - 1 - s).testBit i = (decide (i < 64) && !s.testBit i) := by
    intro i
    rw [Nat.sub_sub, Nat.add_comm]
    exact Nat.testBit_two_pow_sub_succ (by omega) i
  constructor
  · intro h i hi hai
    have := congrArg (fun x => x.testBit i) h
    simp only [Nat.testBit_and, tb, hai, Nat.zero_testBit, Bool.true_and] at this
    have hi64 : i < 64 := by omega
    simpa [hi64] using this
  · intro h
    apply Nat.eq_of_testBit_eq
    intro i
    simp only [Nat.testBit_and, tb, Nat.zero_testBit]
    by_cases hai : a.testBit i = true
    · have hi : i < n := by
        by_contra hc
        have : a.testBit i = false :=
          Nat.testBit_lt_two_pow (Nat.lt_of_lt_of_le ha (Nat.pow_le_pow_right (by omega) (by omega)))
        rw [this] at hai; cases hai
      simp [h i hi hai]
    · simp at hai; simp [hai]

theorem parity_succ (n a s : Nat) :
    parity (n + 1) a s = (parity n a s ^^ (a.testBit n ^^ s.testBit n)) := by
  unfold parity
  rw [List.range_succ, List.foldl_append]
  simp [bit_eq, Nat.testBit_xor]

/-- sign of an assignment in a coefficient -/
def sg (n a s : Nat) : R := if parity n a s then -1 else 1

theorem hi_testBit (n a i : Nat) (_ : a < 2 ^ n) (hi : i < n) :
    (2 ^ n + a).testBit i = a.testBit i := Nat.testBit_two_pow_add_gt hi a

theorem hi_testBit_top (n a : Nat) (ha : a < 2 ^ n) : (2 ^ n + a).testBit n = true := by
  rw [Nat.testBit_two_pow_add_eq, Nat.testBit_lt_two_pow ha]; rfl

theorem parity_congr (n a s a' s' : Nat) (h : ∀ i, i < n → a.testBit i = a'.testBit i)
    (h' : ∀ i, i < n → s.testBit i = s'.testBit i) : parity n a s = parity n a' s' := by
  induction n with
  | zero => rfl
  | succ n ih =>
    rw [parity_succ, parity_succ, ih (fun i hi => h i (by omega)) (fun i hi => h' i (by omega)),
      h n (by omega), h' n (by omega)]

theorem sub_succ (n a s : Nat) :
    Sub (n + 1) a s ↔ Sub n a s ∧ (a.testBit n = true → s.testBit n = true) := by
  unfold Sub
  constructor
  · intro h; exact ⟨fun i hi => h i (by omega), h n (by omega)⟩
  · rintro ⟨h1, h2⟩ i hi
    rcases Nat.lt_succ_iff_lt_or_eq.mp hi with h | h
    · exact h1 i h
    · subst h; exact h2

theorem sub_congr (n a s a' s' : Nat) (h : ∀ i, i < n → a.testBit i = a'.testBit i)
    (h' : ∀ i, i < n → s.testBit i = s'.testBit i) : Sub n a s ↔ Sub n a' s' := by
  unfold Sub
  constructor
  · intro g i hi; rw [← h i hi, ← h' i hi]; exact g i hi
  · intro g i hi; rw [h i hi, h' i hi]; exact g i hi

/-- Möbius inversion over the subsets of a bit mask -/
theorem mobius (n : Nat) (x : Nat) (E : Nat → R) (hx : x < 2 ^ n) :
    (∑ s ∈ range (2 ^ n), if Sub n s x then
      ∑ a ∈ range (2 ^ n), if Sub n a s then (sg n a s : R) * E a else 0 else 0) = E x := by
  induction n generalizing x E with
  | zero =>
    have : x = 0 := by simpa using hx
    subst this
    simp [Sub, sg, parity]
  | succ n ih =>
    have hp : 2 ^ (n + 1) = 2 ^ n + 2 ^ n := by rw [Nat.pow_succ]; omega
    -- low and high masks
    have lowbit : ∀ a, a < 2 ^ n → a.testBit n = false := fun a ha => Nat.testBit_lt_two_pow ha
    have T : ∀ s, (∑ a ∈ range (2 ^ (n + 1)), if Sub (n + 1) a s then
        (sg (n + 1) a s : R) * E a else 0) =
        (∑ a ∈ range (2 ^ n), if Sub n a s then (if s.testBit n then - (sg n a s : R)
          else sg n a s) * E a else 0) +
        (if s.testBit n then ∑ a ∈ range (2 ^ n), (if Sub n a s then
          (sg n a s : R) * E (2 ^ n + a) else 0) else 0) := by
      intro s
      rw [hp, Finset.sum_range_add]
      congr 1
      · apply Finset.sum_congr rfl
        intro a ha
        have ha' := Finset.mem_range.mp ha
        have hS : Sub (n + 1) a s ↔ Sub n a s := by
          rw [sub_succ]; simp [lowbit a ha']
        by_cases h : Sub n a s
        · rw [if_pos (hS.mpr h), if_pos h]
          congr 1
          unfold sg
          rw [parity_succ, lowbit a ha']
          cases parity n a s <;> cases s.testBit n <;> simp
        · rw [if_neg (fun c => h (hS.mp c)), if_neg h]
      · by_cases hs : s.testBit n = true
        · rw [if_pos hs]
          apply Finset.sum_congr rfl
          intro a ha
          have ha' := Finset.mem_range.mp ha
          have hS : Sub (n + 1) (2 ^ n + a) s ↔ Sub n a s := by
            rw [sub_succ]
            simp only [hs, implies_true, and_true]
            exact sub_congr n _ _ _ _ (fun i hi => hi_testBit n a i ha' hi) (fun _ _ => rfl)
          by_cases h : Sub n a s
          · rw [if_pos (hS.mpr h), if_pos h]
            congr 1
            unfold sg
            rw [parity_succ, hi_testBit_top n a ha', hs, parity_congr n (2 ^ n + a) s a s
              (fun i hi => hi_testBit n a i ha' hi) (fun _ _ => rfl)]
            simp
          · rw [if_neg (fun c => h (hS.mp c)), if_neg h]
        · rw [if_neg hs]
          apply Finset.sum_eq_zero
          intro a ha
          have ha' := Finset.mem_range.mp ha
          rw [if_neg]
          rw [sub_succ]
          intro c
          exact hs (c.2 (hi_testBit_top n a ha'))
    have reS : ∀ (s : Nat) (F : Nat → R), s < 2 ^ n →
        (∑ a ∈ range (2 ^ n), if Sub n a (2 ^ n + s) then (sg n a (2 ^ n + s) : R) * F a else 0) =
        ∑ a ∈ range (2 ^ n), if Sub n a s then (sg n a s : R) * F a else 0 := by
      intro s F hs
      apply Finset.sum_congr rfl
      intro a _
      have h1 : Sub n a (2 ^ n + s) ↔ Sub n a s :=
        sub_congr n _ _ _ _ (fun _ _ => rfl) (fun i hi => hi_testBit n s i hs hi)
      have h2 : parity n a (2 ^ n + s) = parity n a s :=
        parity_congr n _ _ _ _ (fun _ _ => rfl) (fun i hi => hi_testBit n s i hs hi)
      simp only [h1, sg, h2]
    rw [hp, Finset.sum_range_add]
    by_cases hxt : x < 2 ^ n
    · -- top variable not moved
      have e2 : (∑ s ∈ range (2 ^ n), if Sub (n + 1) (2 ^ n + s) x then
          ∑ a ∈ range (2 ^ n + 2 ^ n), (if Sub (n + 1) a (2 ^ n + s) then
            (sg (n + 1) a (2 ^ n + s) : R) * E a else 0) else 0) = 0 := by
        apply Finset.sum_eq_zero
        intro s hs
        rw [if_neg]
        rw [sub_succ]
        intro c
        have := c.2 (hi_testBit_top n s (Finset.mem_range.mp hs))
        rw [lowbit x hxt] at this; cases this
      rw [e2, add_zero, ← ih x E hxt]
      apply Finset.sum_congr rfl
      intro s hs
      have hs' := Finset.mem_range.mp hs
      have hS : Sub (n + 1) s x ↔ Sub n s x := by rw [sub_succ]; simp [lowbit s hs']
      by_cases h : Sub n s x
      · rw [if_pos (hS.mpr h), if_pos h, ← hp, T s, lowbit s hs']
        simp
      · rw [if_neg (fun c => h (hS.mp c)), if_neg h]
    · obtain ⟨y, rfl⟩ : ∃ y, x = 2 ^ n + y := ⟨x - 2 ^ n, by omega⟩
      have hy : y < 2 ^ n := by omega
      have hlo : ∀ s, s < 2 ^ n → (Sub (n + 1) s (2 ^ n + y) ↔ Sub n s y) := by
        intro s hs
        rw [sub_succ]
        simp only [lowbit s hs, Bool.false_eq_true, false_implies, and_true]
        exact sub_congr n _ _ _ _ (fun _ _ => rfl) (fun i hi => hi_testBit n y i hy hi)
      have hhi : ∀ s, s < 2 ^ n → (Sub (n + 1) (2 ^ n + s) (2 ^ n + y) ↔ Sub n s y) := by
        intro s hs
        rw [sub_succ]
        simp only [hi_testBit_top n y hy, implies_true, and_true]
        exact sub_congr n _ _ _ _ (fun i hi => hi_testBit n s i hs hi)
          (fun i hi => hi_testBit n y i hy hi)
      rw [← Finset.sum_add_distrib, ← ih y (fun a => E (2 ^ n + a)) hy]
      apply Finset.sum_congr rfl
      intro s hs
      have hs' := Finset.mem_range.mp hs
      by_cases h : Sub n s y
      · rw [if_pos ((hlo s hs').mpr h), if_pos ((hhi s hs').mpr h), if_pos h, ← hp, T s, T (2 ^ n + s),
          lowbit s hs', hi_testBit_top n s hs']
        simp only [Bool.false_eq_true, if_false, if_true, add_zero]
        rw [reS s (fun a => E (2 ^ n + a)) hs']
        have neg : (∑ a ∈ range (2 ^ n), if Sub n a (2 ^ n + s) then
            (-(sg n a (2 ^ n + s) : R)) * E a else 0) =
            - ∑ a ∈ range (2 ^ n), if Sub n a s then (sg n a s : R) * E a else 0 := by
          rw [← reS s E hs', ← Finset.sum_neg_distrib]
          apply Finset.sum_congr rfl
          intro a _
          split <;> simp
        rw [neg]
        abel
      · rw [if_neg (fun c => h ((hlo s hs').mp c)), if_neg (fun c => h ((hhi s hs').mp c)), if_neg h,
          add_zero]

theorem exists_mask (n : Nat) (f : Nat → Bool) :
    ∃ x, x < 2 ^ n ∧ ∀ i, i < n → x.testBit i = f i := by
  induction n with
  | zero => exact ⟨0, by simp, fun i hi => by omega⟩
  | succ n ih =>
    obtain ⟨y, hy, h⟩ := ih
    have hp : 2 ^ (n + 1) = 2 ^ n + 2 ^ n := by rw [Nat.pow_succ]; omega
    cases hf : f n
    · refine ⟨y, by omega, fun i hi => ?_⟩
      rcases Nat.lt_succ_iff_lt_or_eq.mp hi with g | g
      · exact h i g
      · subst g; rw [hf]; exact Nat.testBit_lt_two_pow hy
    · refine ⟨2 ^ n + y, by omega, fun i hi => ?_⟩
      rcases Nat.lt_succ_iff_lt_or_eq.mp hi with g | g
      · rw [hi_testBit n y i hy g]; exact h i g
      · subst g; rw [hf]; exact hi_testBit_top i y hy

theorem fold_update (l : List Nat) (hl : l.Nodup) (p : Nat → Bool) (g : Nat → R) (c : Nat → R)
    (t : Nat) :
    (l.foldl (fun c s => if p s then fun t => if t = s then c s + g s else c t else c) c) t =
      if t ∈ l ∧ p t = true then c t + g t else c t := by
  induction l generalizing c with
  | nil => simp
  | cons s l ih =>
    rw [List.nodup_cons] at hl
    rw [List.foldl_cons, ih hl.2]
    by_cases hts : t = s
    · subst hts
      rw [if_neg (fun h => hl.1 h.1)]
      cases hp : p t <;> simp
    · have : (if p s = true then fun t => if t = s then c s + g s else c t else c) t = c t := by
        split
        · simp [hts]
        · rfl
      rw [this]
      simp [hts]

theorem addAssign_apply (n : Nat) (e : R) (a : Nat) (c : Nat → R) (t : Nat) (ht : 1 ≤ t)
    (ht' : t < 2 ^ n) :
    addAssign n e a c t = c t + if isSub a t then sg n a t * e else 0 := by
  unfold addAssign
  rw [fold_update _ List.nodup_range' (fun s => isSub a s)
    (fun s => if parity n a s then -e else e) c t]
  have hm : t ∈ List.range' 1 (2 ^ n - 1) := by rw [List.mem_range'_1]; omega
  by_cases h : isSub a t = true
  · rw [if_pos ⟨hm, h⟩, if_pos h]
    unfold sg
    cases parity n a t <;> simp
  · rw [if_neg (fun c => h c.2), if_neg h, add_zero]

theorem coeffs_apply (n : Nat) (energy : List L → R) (alpha : L) (cur : Nat → L) (hn : n ≤ 64)
    (t : Nat) (ht : 1 ≤ t) (ht' : t < 2 ^ n) :
    coeffs n energy alpha cur t = ∑ a ∈ range (2 ^ n), if Sub n a t then
      (sg n a t : R) * energy (labels n alpha cur a) else 0 := by
  have gen : ∀ m, m ≤ 2 ^ n → ((List.range m).foldl
      (fun c a => addAssign n (energy (labels n alpha cur a)) a c) (fun _ => 0)) t =
      ∑ a ∈ range m, if Sub n a t then (sg n a t : R) * energy (labels n alpha cur a) else 0 := by
    intro m hm
    induction m with
    | zero => simp
    | succ m ih =>
      rw [List.range_succ, List.foldl_append, Finset.sum_range_succ, ← ih (by omega)]
      simp only [List.foldl_cons, List.foldl_nil]
      rw [addAssign_apply n _ _ _ _ ht ht']
      congr 1
      have := isSub_iff n m t hn (by omega) ht'
      simp only [this]
  exact gen _ (Nat.le_refl _)

end Litiv.Reducer
