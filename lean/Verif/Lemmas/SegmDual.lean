import Verif.Spec.SegmDual
import Mathlib.Tactic.Ring
import Mathlib.Tactic.Linarith
import Mathlib.Algebra.BigOperators.Group.List.Basic
import Mathlib.Data.Fintype.EquivFin
import Mathlib.Data.Fintype.Card
import Mathlib.Data.Nat.Bitwise

namespace Litiv.SegmDual

/-! ## The Gray code -/

theorem gray_testBit (a p : Nat) : (gray a).testBit p = (a.testBit p ^^ a.testBit (p + 1)) := by
  simp [gray, Nat.testBit_shiftRight, Nat.add_comm]

theorem gray_lin (a b : Nat) : gray (a ^^^ b) = gray a ^^^ gray b := by
  apply Nat.eq_of_testBit_eq
  intro p
  simp only [Nat.testBit_xor, gray_testBit]
  cases a.testBit p <;> cases b.testBit p <;> cases a.testBit (p+1) <;> cases b.testBit (p+1) <;> rfl

theorem gray_lt {a k : Nat} (h : a < 2 ^ k) : gray a < 2 ^ k := by
  apply Nat.xor_lt_two_pow h
  rw [Nat.shiftRight_eq_div_pow]
  exact lt_of_le_of_lt (Nat.div_le_self _ _) h

theorem gray_zero {c : Nat} (h : gray c = 0) : c = 0 := by
  have : c = c >>> 1 := by
    have := h
    unfold gray at this
    exact Nat.xor_eq_zero_iff.mp this
  rw [Nat.shiftRight_eq_div_pow] at this
  omega

theorem gray_inj {a b : Nat} (h : gray a = gray b) : a = b := by
  have : gray (a ^^^ b) = 0 := by rw [gray_lin, h, Nat.xor_self]
  exact Nat.xor_eq_zero_iff.mp (gray_zero this)

theorem gray_surj {k s : Nat} (h : s < 2 ^ k) : ∃ a < 2 ^ k, gray a = s := by
  let f : Fin (2 ^ k) → Fin (2 ^ k) := fun a => ⟨gray a.1, gray_lt a.2⟩
  have hi : Function.Injective f := fun a b hab => Fin.ext (gray_inj (by simpa [f] using hab))
  obtain ⟨a, ha⟩ := (Finite.injective_iff_surjective.mp hi) ⟨s, h⟩
  exact ⟨a.1, a.2, by simpa [f] using congrArg Fin.val ha⟩

theorem ctzAux_two_pow (t : Nat) : ∀ f, t < f → ctzAux f (2 ^ t) = t := by
  induction t with
  | zero => intro f hf; cases f with
    | zero => omega
    | succ f => simp [ctzAux]
  | succ t ih =>
    intro f hf
    cases f with
    | zero => omega
    | succ f =>
      have h1 : ¬ (2 ^ (t + 1)) % 2 = 1 := by rw [Nat.pow_succ]; omega
      have h2 : 2 ^ (t + 1) / 2 = 2 ^ t := by rw [Nat.pow_succ]; omega
      rw [ctzAux, if_neg h1, h2, ih f (by omega)]

theorem ctz_two_pow (t : Nat) : ctz (2 ^ t) = t := ctzAux_two_pow t _ (Nat.lt_two_pow_self)

/-- Successive codes differ in one bit. -/
theorem gray_step (a : Nat) : ∃ t, gray (a + 1) ^^^ gray a = 2 ^ t := by
  rw [← gray_lin]
  suffices ∀ a, ∃ t, (a + 1) ^^^ a = 2 ^ (t + 1) - 1 by
    obtain ⟨t, ht⟩ := this a
    refine ⟨t, ?_⟩
    rw [ht]
    apply Nat.eq_of_testBit_eq
    intro p
    rw [gray_testBit, Nat.testBit_two_pow_sub_one, Nat.testBit_two_pow_sub_one, Nat.testBit_two_pow]
    by_cases h1 : p < t
    · simp [h1, show p < t + 1 by omega, show t ≠ p by omega]
    · by_cases h2 : p = t
      · subst h2; simp
      · simp [show ¬ p < t by omega, show ¬ p < t + 1 by omega, show t ≠ p by omega]
  intro a
  induction a using Nat.strongRecOn with
  | ind a ih =>
    rcases Nat.even_or_odd' a with ⟨m, hm | hm⟩
    · refine ⟨0, ?_⟩
      subst hm
      apply Nat.eq_of_testBit_eq
      intro p
      cases p with
      | zero => simp [Nat.testBit_zero]
      | succ p =>
        rw [Nat.testBit_xor, Nat.testBit_succ, Nat.testBit_succ, show (2 * m + 1) / 2 = m by omega, show 2 * m / 2 = m by omega]
        simp [Nat.testBit_succ]
    · obtain ⟨t, ht⟩ := ih m (by omega)
      refine ⟨t + 1, ?_⟩
      subst hm
      apply Nat.eq_of_testBit_eq
      intro p
      rw [Nat.testBit_two_pow_sub_one]
      cases p with
      | zero =>
        simp [Nat.testBit_zero]
        omega
      | succ p =>
        rw [Nat.testBit_xor, Nat.testBit_succ, Nat.testBit_succ, show (2 * m + 1 + 1) / 2 = m + 1 by omega,
          show (2 * m + 1) / 2 = m by omega, ← Nat.testBit_xor, ht, Nat.testBit_two_pow_sub_one]
        simp

/-- The bit that changes, and what becomes of it. -/
theorem gray_change (a : Nat) : ∃ t, ctz (gray (a + 1) ^^^ gray a) = t ∧
    ((gray (a + 1) ^^^ gray a) &&& gray (a + 1) ≠ 0 ↔ (gray (a + 1)).testBit t = true) ∧
    ((gray a).testBit t = !(gray (a + 1)).testBit t) ∧ ∀ p ≠ t, (gray a).testBit p = (gray (a + 1)).testBit p := by
  obtain ⟨t, ht⟩ := gray_step a
  have hb : ∀ p, (gray a).testBit p = ((gray (a + 1)).testBit p ^^ decide (t = p)) := by
    intro p
    have := congrArg (fun z => z.testBit p) ht
    simp only [Nat.testBit_xor, Nat.testBit_two_pow] at this
    rw [← this]
    cases (gray a).testBit p <;> cases (gray (a+1)).testBit p <;> rfl
  refine ⟨t, by rw [ht, ctz_two_pow], ?_, ?_, ?_⟩
  · rw [ht, Nat.and_comm, Nat.and_two_pow]
    cases (gray (a + 1)).testBit t <;> simp
  · rw [hb t]; simp
  · intro p hp
    rw [hb p]; simp [Ne.symm hp]

/-! ## Tables -/

theorem fusionTable_spec (k : Nat) (cost : List Nat → Int) (cur fus : Nat → Nat) {s : Nat} (hs : s < 2 ^ k) :
    fusionTable k cost cur fus s = cost ((List.range k).map (fun p => if s.testBit p then fus p else cur p)) := by
  obtain ⟨a, ha, rfl⟩ := gray_surj hs
  have key : ∀ m : Nat,
      let st := ((List.range' 1 m).foldl (fun (st : (Nat → Int) × (Nat → Nat) × Nat) a =>
        let g := gray a
        let diff := g ^^^ st.2.2
        let j := ctz diff
        let buf := if diff &&& g ≠ 0 then Function.update st.2.1 j (fus j) else Function.update st.2.1 j (cur j)
        (Function.update st.1 g (cost ((List.range k).map buf)), buf, g))
        (Function.update (fun _ => 0) 0 (cost ((List.range k).map cur)), cur, 0))
      st.2.2 = gray m ∧ (∀ p, st.2.1 p = if (gray m).testBit p then fus p else cur p) ∧
        ∀ b ≤ m, st.1 (gray b) = cost ((List.range k).map (fun p => if (gray b).testBit p then fus p else cur p)) := by
    intro m
    induction m with
    | zero =>
      have h0 : gray 0 = 0 := by decide
      refine ⟨by simp [h0], by simp [h0], ?_⟩
      intro b hb
      have : b = 0 := by omega
      subst this
      simp [h0]
    | succ m ih =>
      rw [List.range'_concat, List.foldl_append]
      revert ih
      generalize (List.range' 1 m).foldl _ _ = st
      intro ih
      obtain ⟨h1, h2, h3⟩ := ih
      obtain ⟨t, ht, hand, hflip, hrest⟩ := gray_change m
      simp only [List.foldl_cons, List.foldl_nil, Nat.one_mul, Nat.add_comm 1 m] at *
      rw [h1, ht]
      have hbuf : ∀ p, (if (gray (m + 1) ^^^ gray m) &&& gray (m + 1) ≠ 0 then Function.update st.2.1 t (fus t) else Function.update st.2.1 t (cur t)) p
          = if (gray (m + 1)).testBit p then fus p else cur p := by
        intro p
        by_cases hp : p = t
        · subst hp
          by_cases hb : (gray (m + 1)).testBit p = true
          · rw [if_pos (hand.mpr hb), if_pos hb]; simp
          · rw [if_neg (fun hc => hb (hand.mp hc)), if_neg hb]; simp
        · split <;> simp [Function.update_of_ne hp, h2, hrest p hp]
      refine ⟨trivial, hbuf, ?_⟩
      intro b hb
      rcases Nat.lt_or_ge m b with hlt | hge
      · have : b = m + 1 := by omega
        subst this
        rw [Function.update_self]
        congr 2
        funext p
        exact hbuf p
      · rw [Function.update_of_ne (fun hc => by have := gray_inj hc; omega)]
        exact h3 b hge
  exact (key (2 ^ k - 1)).2.2 a (by omega)

theorem foldl_add_sum {α : Type} (f : α → Int) (l : List α) (z : Int) : l.foldl (fun s i => s + f i) z = z + (l.map f).sum := by
  induction l generalizing z with
  | nil => simp
  | cons a l ih => simp only [List.foldl_cons, ih, List.map_cons, List.sum_cons]; ring

theorem sum_ite_range (k t : Nat) (f g : Nat → Int) (ht : t < k) (h : ∀ p ≠ t, f p = g p) :
    ((List.range k).map f).sum = ((List.range k).map g).sum + (f t - g t) := by
  induction k with
  | zero => omega
  | succ k ih =>
    simp only [List.range_succ, List.map_append, List.sum_append, List.map_cons, List.map_nil, List.sum_cons, List.sum_nil]
    rcases Nat.lt_or_ge t k with hlt | hge
    · rw [ih hlt, h k (by omega)]; ring
    · have : t = k := by omega
      subst this
      have : (List.range t).map f = (List.range t).map g := List.map_congr_left (fun p hp => h p (by have := List.mem_range.mp hp; omega))
      rw [this]; ring

theorem subtractLinear_spec (k : Nat) (table psi1 psi2 : Nat → Int) {s : Nat} (hs : s < 2 ^ k) :
    subtractLinear k table psi1 psi2 s = table s - ((List.range k).map (fun p => if s.testBit p then psi1 p else psi2 p)).sum := by
  obtain ⟨a, ha, rfl⟩ := gray_surj hs
  have key : ∀ m : Nat, m < 2 ^ k →
      let st := ((List.range' 1 m).foldl (fun (st : (Nat → Int) × Int × Nat) a =>
        let g := gray a
        let diff := g ^^^ st.2.2
        let j := ctz diff
        let sum := if g &&& diff ≠ 0 then st.2.1 + (psi1 j - psi2 j) else st.2.1 + (psi2 j - psi1 j)
        (Function.update st.1 g (st.1 g - sum), sum, g))
        (Function.update table 0 (table 0 - (List.range k).foldl (fun s i => s + psi2 i) 0), (List.range k).foldl (fun s i => s + psi2 i) 0, 0))
      st.2.2 = gray m ∧ st.2.1 = ((List.range k).map (fun p => if (gray m).testBit p then psi1 p else psi2 p)).sum ∧
        (∀ b ≤ m, st.1 (gray b) = table (gray b) - ((List.range k).map (fun p => if (gray b).testBit p then psi1 p else psi2 p)).sum) ∧
        ∀ b > m, st.1 (gray b) = table (gray b) := by
    intro m
    induction m with
    | zero =>
      intro _
      have h0 : gray 0 = 0 := by decide
      refine ⟨by simp [h0], by simp [h0, foldl_add_sum], ?_, ?_⟩
      · intro b hb
        have : b = 0 := by omega
        subst this
        simp [h0, foldl_add_sum]
      · intro b hb
        simp only [List.range'_zero, List.foldl_nil]
        rw [Function.update_of_ne (fun hc => by have := gray_zero hc; omega)]
    | succ m ih =>
      intro hm
      have ih := ih (by omega)
      rw [List.range'_concat, List.foldl_append]
      revert ih
      generalize (List.range' 1 m).foldl _ _ = st
      intro ih
      obtain ⟨h1, h2, h3, h4⟩ := ih
      obtain ⟨t, ht, hand, hflip, hrest⟩ := gray_change m
      have htk : t < k := by
        by_contra hc
        have a1 := Nat.testBit_lt_two_pow (lt_of_lt_of_le (gray_lt hm) (Nat.pow_le_pow_right (by omega) (not_lt.mp hc)))
        have a2 := Nat.testBit_lt_two_pow (lt_of_lt_of_le (gray_lt (show m < 2 ^ k by omega)) (Nat.pow_le_pow_right (by omega) (not_lt.mp hc)))
        rw [a1, a2] at hflip
        simp at hflip
      simp only [List.foldl_cons, List.foldl_nil, Nat.one_mul, Nat.add_comm 1 m] at *
      rw [h1, ht]
      have hsum : (if gray (m + 1) &&& (gray (m + 1) ^^^ gray m) ≠ 0 then st.2.1 + (psi1 t - psi2 t) else st.2.1 + (psi2 t - psi1 t))
          = ((List.range k).map (fun p => if (gray (m + 1)).testBit p then psi1 p else psi2 p)).sum := by
        rw [sum_ite_range k t _ (fun p => if (gray m).testBit p then psi1 p else psi2 p) htk (fun p hp => by
          simp only [hrest p hp]), ← h2, hflip, Nat.and_comm]
        by_cases hb : (gray (m + 1)).testBit t = true
        · rw [if_pos (hand.mpr hb), if_pos hb, hb]; simp
        · rw [if_neg (fun hc => hb (hand.mp hc)), if_neg hb, Bool.not_eq_true] at *
          rw [hb]; simp
      refine ⟨trivial, hsum, ?_, ?_⟩
      · intro b hb
        rcases Nat.lt_or_ge m b with hlt | hge
        · have : b = m + 1 := by omega
          subst this
          rw [Function.update_self, hsum, h4 (m + 1) (by omega)]
        · rw [Function.update_of_ne (fun hc => by have := gray_inj hc; omega)]
          exact h3 b hge
      · intro b hb
        rw [Function.update_of_ne (fun hc => by have := gray_inj hc; omega)]
        exact h4 b (by omega)
  exact (key (2 ^ k - 1) (by have := Nat.two_pow_pos k; omega)).2.2.1 a (by omega)

/-- The assignment that has the bits of the moving members. -/
theorem bits_spec (k : Nat) (y : Nat → Bool) :
    ((List.range k).map (fun p => if y p then 2 ^ p else 0)).sum < 2 ^ k ∧
    ∀ p < k, (((List.range k).map (fun p => if y p then 2 ^ p else 0)).sum).testBit p = y p := by
  induction k with
  | zero => simp
  | succ k ih =>
    obtain ⟨h1, h2⟩ := ih
    simp only [List.range_succ, List.map_append, List.sum_append, List.map_cons, List.map_nil, List.sum_cons, List.sum_nil, Nat.add_zero]
    generalize ((List.range k).map (fun p => if y p then 2 ^ p else 0)).sum = s at *
    refine ⟨by split <;> rw [Nat.pow_succ] <;> omega, ?_⟩
    intro p hp
    by_cases hy : y k
    · rw [if_pos hy]
      rcases Nat.lt_or_ge p k with hlt | hge
      · rw [Nat.add_comm, Nat.testBit_two_pow_add_gt hlt, h2 p hlt]
      · have : p = k := by omega
        subst this
        rw [Nat.add_comm, Nat.testBit_two_pow_add_eq, Nat.testBit_lt_two_pow h1, hy]; rfl
    · rw [if_neg hy, Nat.add_zero]
      rcases Nat.lt_or_ge p k with hlt | hge
      · exact h2 p hlt
      · have : p = k := by omega
        subst this
        rw [Nat.testBit_lt_two_pow h1]; exact (Bool.eq_false_iff.mpr hy).symm

end Litiv.SegmDual
