import Verif.Spec.TextIO
import Verif.Lemmas.IEEE
import Mathlib.Data.Nat.Digits.Lemmas

/-!
# Lemmas about plain text archives
-/

namespace Litiv.TextIO
open Spec

/-! ### Digits -/

theorem charDigit_digitChar : ∀ d, d < 10 → charDigit (digitChar d) = some d := by decide

theorem takeDigits_append (ds : List Nat) (rest : List Char) (h : ∀ d ∈ ds, d < 10) (hr : ∀ c cs, rest = c :: cs → charDigit c = none) :
    takeDigits (ds.map digitChar ++ rest) = (ds, rest) := by
  induction ds with
  | nil =>
    cases rest with
    | nil => rfl
    | cons c cs => simp [takeDigits, hr c cs rfl]
  | cons d ds ih =>
    have h1 := charDigit_digitChar d (h d (by simp))
    have h2 := ih (fun x hx => h x (by simp [hx]))
    simp [takeDigits, h1, h2]

theorem takeDigits_all (ds : List Nat) (h : ∀ d ∈ ds, d < 10) : takeDigits (ds.map digitChar) = (ds, []) := by
  have := takeDigits_append ds [] h (by simp)
  simpa using this

theorem number_snoc (l : List Nat) (d : Nat) : number (l ++ [d]) = 10 * number l + d := by simp [number]

theorem number_append (a b : List Nat) : number (a ++ b) = number a * 10 ^ b.length + number b := by
  induction b using List.reverseRecOn with
  | nil => simp [number]
  | append_singleton b d ih =>
    rw [← List.append_assoc, number_snoc, ih, number_snoc, List.length_append, List.length_singleton, pow_succ]; ring

theorem number_zeros (n : Nat) : number (List.replicate n 0) = 0 := by
  induction n with
  | zero => rfl
  | succ n ih => rw [List.replicate_succ', number_snoc, ih]

theorem digitsW_length (w n : Nat) : (digitsW w n).length = w := by
  induction w generalizing n with
  | zero => rfl
  | succ w ih => simp [digitsW, ih]

theorem digitsW_lt (w n : Nat) : ∀ d ∈ digitsW w n, d < 10 := by
  induction w generalizing n with
  | zero => simp [digitsW]
  | succ w ih =>
    intro d hd
    rw [digitsW, List.mem_append] at hd
    rcases hd with h | h
    · exact ih _ d h
    · simp at h; omega

theorem digitsW_number (w n : Nat) (h : n < 10 ^ w) : number (digitsW w n) = n := by
  induction w generalizing n with
  | zero => simp at h; subst h; rfl
  | succ w ih =>
    rw [digitsW, number_snoc, ih _ (by rw [pow_succ] at h; omega)]
    omega

theorem digitsAll_ne (n : Nat) : digitsAll n ≠ [] := by
  unfold digitsAll
  by_cases h : n = 0
  · simp [h]
  · rw [if_neg h]; simp [Nat.digits_ne_nil_iff_ne_zero, h]

theorem digitsAll_lt (n : Nat) : ∀ d ∈ digitsAll n, d < 10 := by
  unfold digitsAll
  by_cases h : n = 0
  · simp [h]
  · rw [if_neg h]
    intro d hd
    exact Nat.digits_lt_base (by norm_num) (List.mem_reverse.1 hd)

theorem number_reverse (l : List Nat) : number l.reverse = Nat.ofDigits 10 l := by
  induction l with
  | nil => rfl
  | cons d l ih => rw [List.reverse_cons, number_snoc, ih, Nat.ofDigits_cons]; omega

theorem digitsAll_number (n : Nat) : number (digitsAll n) = n := by
  unfold digitsAll
  by_cases h : n = 0
  · simp [h, number]
  · rw [if_neg h, number_reverse, Nat.ofDigits_digits]

theorem strip_spec (l : List Nat) : ∃ z, l = strip l ++ List.replicate z 0 := by
  refine ⟨(l.reverse.takeWhile (· == 0)).length, ?_⟩
  have h1 : l.reverse = l.reverse.takeWhile (· == 0) ++ l.reverse.dropWhile (· == 0) := (List.takeWhile_append_dropWhile).symm
  have h2 : l.reverse.takeWhile (· == 0) = List.replicate (l.reverse.takeWhile (· == 0)).length 0 := by
    rw [List.eq_replicate_iff]
    refine ⟨rfl, fun b hb => ?_⟩
    have := List.all_eq_true.1 (List.all_takeWhile (p := (· == 0)) (l := l.reverse)) b hb
    simpa using this
  have h3 := congrArg List.reverse h1
  rw [List.reverse_reverse, List.reverse_append] at h3
  conv_lhs => rw [h3]
  unfold strip
  congr 1
  rw [h2, List.reverse_replicate]
  simp

theorem strip_mem (l : List Nat) (d : Nat) (h : d ∈ strip l) : d ∈ l := by
  obtain ⟨z, hz⟩ := strip_spec l
  rw [hz]; exact List.mem_append_left _ h

/-- Value of whole and fractional digits. -/
theorem number_strip (i l : List Nat) (k : Int) :
    (number (i ++ strip l) : ℚ) * (10 : ℚ) ^ (k - ((strip l).length : Int)) = (number (i ++ l) : ℚ) * (10 : ℚ) ^ (k - (l.length : Int)) := by
  obtain ⟨z, hz⟩ := strip_spec l
  have e1 : i ++ l = (i ++ strip l) ++ List.replicate z 0 := by rw [List.append_assoc, ← hz]
  have e2 : l.length = (strip l).length + z := by
    have := congrArg List.length hz
    simpa using this
  rw [e1, number_append (i ++ strip l), number_zeros, List.length_replicate, e2, Nat.add_zero]
  push_cast
  rw [mul_assoc, ← zpow_natCast, ← zpow_add₀ (by norm_num)]
  congr 2
  ring

/-! ### Signs and words -/

theorem digitChar_ne_sign : ∀ d, d < 10 → digitChar d ≠ '-' ∧ digitChar d ≠ '+' ∧ digitChar d ≠ '.' ∧ digitChar d ≠ 'e' ∧ space (digitChar d) = false := by decide

theorem takeSign_digits (ds : List Nat) (rest : List Char) (hne : ds ≠ []) (h : ∀ d ∈ ds, d < 10) :
    takeSign (ds.map digitChar ++ rest) = (false, ds.map digitChar ++ rest) := by
  cases ds with
  | nil => exact absurd rfl hne
  | cons d ds =>
    obtain ⟨h1, h2, _⟩ := digitChar_ne_sign d (h d (by simp))
    rw [List.map_cons, List.cons_append]
    unfold takeSign
    split
    · rename_i e; simp at e; exact absurd e.1 h1
    · rename_i e; simp at e; exact absurd e.1 h2
    · rfl

theorem readInt_digits (ds : List Nat) (hne : ds ≠ []) (h : ∀ d ∈ ds, d < 10) : readInt (ds.map digitChar) = some (number ds : Int) := by
  have h1 := takeSign_digits ds [] hne h
  rw [List.append_nil] at h1
  unfold readInt
  rw [h1]
  dsimp only
  rw [takeDigits_all ds h]
  dsimp only
  rw [if_pos ⟨hne, rfl⟩]
  rfl

theorem readInt_neg (ds : List Nat) (hne : ds ≠ []) (h : ∀ d ∈ ds, d < 10) : readInt ('-' :: ds.map digitChar) = some (-(number ds : Int)) := by
  unfold readInt
  rw [show takeSign ('-' :: ds.map digitChar) = (true, ds.map digitChar) from rfl]
  dsimp only
  rw [takeDigits_all ds h]
  dsimp only
  rw [if_pos ⟨hne, rfl⟩]
  rfl

theorem readInt_pos (ds : List Nat) (hne : ds ≠ []) (h : ∀ d ∈ ds, d < 10) : readInt ('+' :: ds.map digitChar) = some (number ds : Int) := by
  unfold readInt
  rw [show takeSign ('+' :: ds.map digitChar) = (false, ds.map digitChar) from rfl]
  dsimp only
  rw [takeDigits_all ds h]
  dsimp only
  rw [if_pos ⟨hne, rfl⟩]
  rfl

theorem readInt_showInt (n : Int) : readInt (showInt n) = some n := by
  unfold showInt
  by_cases h : n < 0
  · rw [if_pos h, List.singleton_append, readInt_neg _ (digitsAll_ne _) (digitsAll_lt _), digitsAll_number]
    congr 1; omega
  · rw [if_neg h, List.nil_append, readInt_digits _ (digitsAll_ne _) (digitsAll_lt _), digitsAll_number]
    congr 1; omega

/-- A word: no white space, not empty. -/
def IsWord (w : List Char) : Prop := w ≠ [] ∧ ∀ c ∈ w, space c = false

theorem isWord_digits (ds : List Nat) (h : ∀ d ∈ ds, d < 10) : ∀ c ∈ ds.map digitChar, space c = false := by
  intro c hc
  obtain ⟨d, hd, rfl⟩ := List.mem_map.1 hc
  exact (digitChar_ne_sign d (h d hd)).2.2.2.2

theorem isWord_showInt (n : Int) : IsWord (showInt n) := by
  unfold showInt
  refine ⟨?_, ?_⟩
  · intro h
    have := (List.append_eq_nil_iff.1 h).2
    exact digitsAll_ne _ (List.map_eq_nil_iff.1 this)
  · intro c hc
    rw [List.mem_append] at hc
    rcases hc with hc | hc
    · split at hc
      · simp at hc; subst hc; rfl
      · simp at hc
    · exact isWord_digits _ (digitsAll_lt _) c hc

theorem word_spec (s w : List Char) (d : Char) (t : List Char) (hs : ∀ c ∈ s, space c = true) (hw : IsWord w) (hd : space d = true) :
    word (s ++ (w ++ d :: t)) = some (w, d :: t) := by
  obtain ⟨hne, hw⟩ := hw
  have e1 : (s ++ (w ++ d :: t)).dropWhile space = w ++ d :: t := by
    rw [List.dropWhile_append_of_pos (by intro c hc; exact hs c hc)]
    cases w with
    | nil => exact absurd rfl hne
    | cons c w => rw [List.cons_append, List.dropWhile_cons_of_neg (by simp [hw c (by simp)])]
  unfold word
  rw [e1]
  dsimp only
  rw [if_neg (by simp [hne])]
  rw [List.takeWhile_append_of_pos (by intro c hc; simp [hw c hc]), List.dropWhile_append_of_pos (by intro c hc; simp [hw c hc])]
  simp [hd]

/-! ### Numbers -/

theorem log_bounds (a : ℚ) (h : 0 < a) : (10 : ℚ) ^ (Int.log 10 a) ≤ a ∧ a < (10 : ℚ) ^ (Int.log 10 a + 1) := by
  refine ⟨?_, ?_⟩
  · have := Int.zpow_log_le_self (b := 10) (by norm_num) h
    exact_mod_cast this
  · have := Int.lt_zpow_succ_log_self (b := 10) (by norm_num) a
    exact_mod_cast this

theorem ten_pos (k : Int) : (0 : ℚ) < (10 : ℚ) ^ k := zpow_pos (by norm_num) _

theorem roundEven_near (x : ℚ) : |(Lut.roundEven x : ℚ) - x| ≤ 1 / 2 := by
  unfold Lut.roundEven
  have h1 := Int.floor_le x
  have h2 := Int.lt_floor_add_one x
  dsimp only
  split_ifs <;> push_cast <;> rw [abs_le] <;> constructor <;> linarith

/-- Six digits: their value is near the number, and equal to it if it has no more digits. -/
theorem sixDigits_spec (a : ℚ) (h : 0 < a) : 100000 ≤ (sixDigits a).1 ∧ (sixDigits a).1 < 1000000 ∧
    |((sixDigits a).1 : ℚ) * (10 : ℚ) ^ ((sixDigits a).2 - 5) - a| ≤ a / 200000 ∧
    (Short a → ((sixDigits a).1 : ℚ) * (10 : ℚ) ^ ((sixDigits a).2 - 5) = a) := by
  obtain ⟨hl, hu⟩ := log_bounds a h
  have hp := ten_pos (Int.log 10 a - 5)
  have hs1 : (100000 : ℚ) ≤ a / (10 : ℚ) ^ (Int.log 10 a - 5) := by
    rw [le_div_iff₀ hp]
    refine le_trans (le_of_eq ?_) hl
    rw [show (100000 : ℚ) = (10 : ℚ) ^ (5 : Int) by norm_num, ← zpow_add₀ (by norm_num)]
    congr 1; ring
  have hs2 : a / (10 : ℚ) ^ (Int.log 10 a - 5) < 1000000 := by
    rw [div_lt_iff₀ hp]
    refine lt_of_lt_of_eq hu ?_
    rw [show (1000000 : ℚ) = (10 : ℚ) ^ (6 : Int) by norm_num, ← zpow_add₀ (by norm_num)]
    congr 1; ring
  have hr1 : 100000 ≤ Lut.roundEven (a / (10 : ℚ) ^ (Int.log 10 a - 5)) := by
    have := IEEE.roundEven_mono _ _ hs1
    have e := IEEE.roundEven_int 100000
    push_cast at e
    rwa [e] at this
  have hr2 : Lut.roundEven (a / (10 : ℚ) ^ (Int.log 10 a - 5)) ≤ 1000000 := by
    have := IEEE.roundEven_mono _ _ hs2.le
    have e := IEEE.roundEven_int 1000000
    push_cast at e
    rwa [e] at this
  have hnear := roundEven_near (a / (10 : ℚ) ^ (Int.log 10 a - 5))
  -- the value before the adjustment
  have hval : ((sixDigits a).1 : ℚ) * (10 : ℚ) ^ ((sixDigits a).2 - 5) =
      (Lut.roundEven (a / (10 : ℚ) ^ (Int.log 10 a - 5)) : ℚ) * (10 : ℚ) ^ (Int.log 10 a - 5) := by
    unfold sixDigits
    dsimp only
    split_ifs with hm
    · have : Lut.roundEven (a / (10 : ℚ) ^ (Int.log 10 a - 5)) = 1000000 := by omega
      rw [this]
      dsimp only
      push_cast
      rw [show Int.log 10 a + 1 - 5 = (Int.log 10 a - 5) + 1 by ring, zpow_add₀ (by norm_num)]
      ring
    · have : ((Lut.roundEven (a / (10 : ℚ) ^ (Int.log 10 a - 5))).toNat : Int) = Lut.roundEven (a / (10 : ℚ) ^ (Int.log 10 a - 5)) :=
        Int.toNat_of_nonneg (by omega)
      have h2 : ((Lut.roundEven (a / (10 : ℚ) ^ (Int.log 10 a - 5))).toNat : ℚ) = (Lut.roundEven (a / (10 : ℚ) ^ (Int.log 10 a - 5)) : ℚ) := by
        exact_mod_cast this
      dsimp only
      rw [h2]
  refine ⟨?_, ?_, ?_, ?_⟩
  · unfold sixDigits
    dsimp only
    split_ifs with hm
    · dsimp only; omega
    · dsimp only; omega
  · unfold sixDigits
    dsimp only
    split_ifs with hm
    · dsimp only; omega
    · dsimp only; omega
  · rw [hval]
    have e : a = a / (10 : ℚ) ^ (Int.log 10 a - 5) * (10 : ℚ) ^ (Int.log 10 a - 5) := (div_mul_cancel₀ _ hp.ne').symm
    have : |(Lut.roundEven (a / (10 : ℚ) ^ (Int.log 10 a - 5)) : ℚ) * (10 : ℚ) ^ (Int.log 10 a - 5) - a| =
        |(Lut.roundEven (a / (10 : ℚ) ^ (Int.log 10 a - 5)) : ℚ) - a / (10 : ℚ) ^ (Int.log 10 a - 5)| * (10 : ℚ) ^ (Int.log 10 a - 5) := by
      conv_lhs => rw [show ∀ x : ℚ, x * (10 : ℚ) ^ (Int.log 10 a - 5) - a = (x - a / (10 : ℚ) ^ (Int.log 10 a - 5)) * (10 : ℚ) ^ (Int.log 10 a - 5) from
        fun x => by rw [sub_mul, ← e]]
      rw [abs_mul, abs_of_pos hp]
    rw [this]
    calc _ ≤ 1 / 2 * (10 : ℚ) ^ (Int.log 10 a - 5) := mul_le_mul_of_nonneg_right hnear hp.le
      _ ≤ a / 200000 := by
        rw [le_div_iff₀ hp] at hs1
        linarith
  · rintro ⟨m, k, hm, hmk⟩
    rw [hval]
    have hint : ∃ n : Int, a / (10 : ℚ) ^ (Int.log 10 a - 5) = n := by
      by_cases hk : 0 ≤ k - (Int.log 10 a - 5)
      · obtain ⟨j, hj⟩ := Int.eq_ofNat_of_zero_le hk
        refine ⟨m * 10 ^ j, ?_⟩
        have e : a / (10 : ℚ) ^ (Int.log 10 a - 5) = (m : ℚ) * (10 : ℚ) ^ (k - (Int.log 10 a - 5)) := by
          generalize Int.log 10 a - 5 = L
          rw [hmk, mul_div_assoc, ← zpow_sub₀ (by norm_num)]
        rw [e, hj]
        push_cast
        simp
      · exfalso
        push Not at hk
        have e : a / (10 : ℚ) ^ (Int.log 10 a - 5) = (m : ℚ) * (10 : ℚ) ^ (k - (Int.log 10 a - 5)) := by
          generalize Int.log 10 a - 5 = L
          rw [hmk, mul_div_assoc, ← zpow_sub₀ (by norm_num)]
        rw [e] at hs1
        have hle : (10 : ℚ) ^ (k - (Int.log 10 a - 5)) ≤ 1 / 10 := by
          have : (10 : ℚ) ^ (k - (Int.log 10 a - 5)) ≤ (10 : ℚ) ^ (-1 : Int) := zpow_le_zpow_right₀ (by norm_num) (by omega)
          refine le_trans this (by norm_num)
        have hp2 := ten_pos (k - (Int.log 10 a - 5))
        have hm2 : (m : ℚ) < 1000000 := by
          have := lt_of_le_of_lt (le_abs_self m) hm
          exact_mod_cast this
        have hm3 : 0 < (m : ℚ) := by
          by_contra hneg
          push Not at hneg
          have := mul_nonpos_of_nonpos_of_nonneg hneg hp2.le
          linarith
        have : (m : ℚ) * (10 : ℚ) ^ (k - (Int.log 10 a - 5)) ≤ (m : ℚ) * (1 / 10) := mul_le_mul_of_nonneg_left hle hm3.le
        linarith
    obtain ⟨n, hn⟩ := hint
    rw [hn, IEEE.roundEven_int, ← hn, div_mul_cancel₀ _ hp.ne']

theorem takeFrac_render (f : List Nat) (rest : List Char) (h : ∀ d ∈ f, d < 10) (hr : ∀ c cs, rest = c :: cs → charDigit c = none ∧ c ≠ '.') :
    takeFrac ((if f = [] then [] else '.' :: f.map digitChar) ++ rest) = (f, rest) := by
  by_cases hf : f = []
  · subst hf
    simp only [if_true, List.nil_append]
    cases rest with
    | nil => rfl
    | cons c cs =>
      have := (hr c cs rfl).2
      unfold takeFrac
      split
      · rename_i e; simp at e; exact absurd e.1 this
      · rfl
  · rw [if_neg hf, List.cons_append]
    exact takeDigits_append f rest h (fun c cs e => (hr c cs e).1)

/-- Reading of digits, with a fraction and an exponent. -/
theorem readDec_render (neg : Bool) (i f : List Nat) (rest : List Char) (e : Int) (hi : i ≠ []) (h1 : ∀ d ∈ i, d < 10) (h2 : ∀ d ∈ f, d < 10)
    (hr : ∀ c cs, rest = c :: cs → charDigit c = none ∧ c ≠ '.') (he : takeExp rest = some e) :
    readDec ((if neg then ['-'] else []) ++ (render i f ++ rest)) =
      some ((if neg then -1 else 1) * (number (i ++ f) : ℚ) * (10 : ℚ) ^ (e - (f.length : Int))) := by
  have hs : takeSign ((if neg then ['-'] else []) ++ (render i f ++ rest)) = (neg, render i f ++ rest) := by
    cases neg
    · simp only [Bool.false_eq_true, if_false, List.nil_append, render, List.append_assoc]
      exact takeSign_digits i _ hi h1
    · rfl
  have hd : takeDigits (render i f ++ rest) = (i, (if f = [] then [] else '.' :: f.map digitChar) ++ rest) := by
    rw [render, List.append_assoc]
    refine takeDigits_append i _ h1 (fun c cs e => ?_)
    by_cases hf : f = []
    · rw [if_pos hf, List.nil_append] at e
      exact (hr c cs e).1
    · rw [if_neg hf, List.cons_append] at e
      cases e
      rfl
  unfold readDec
  rw [hs]
  dsimp only
  rw [hd]
  dsimp only
  rw [takeFrac_render f rest h2 hr]
  dsimp only
  rw [if_neg (by simp [hi]), he]
  rfl

theorem takeExp_show (e : Int) : takeExp ('e' :: (if e < 0 then '-' else '+') ::
      ((if e.natAbs < 10 then [0] else []) ++ digitsAll e.natAbs).map digitChar) = some e := by
  have h1 : ∀ d ∈ (if e.natAbs < 10 then [0] else []) ++ digitsAll e.natAbs, d < 10 := by
    intro d hd
    rw [List.mem_append] at hd
    rcases hd with hd | hd
    · split at hd
      · simp at hd; omega
      · simp at hd
    · exact digitsAll_lt _ d hd
  have h2 : (if e.natAbs < 10 then [0] else []) ++ digitsAll e.natAbs ≠ [] := by simp [digitsAll_ne]
  have h3 : number ((if e.natAbs < 10 then [0] else []) ++ digitsAll e.natAbs) = e.natAbs := by
    rw [number_append, digitsAll_number]
    split_ifs <;> simp [number]
  show readInt _ = _
  by_cases h : e < 0
  · rw [if_pos h, readInt_neg _ h2 h1, h3]; congr 1; omega
  · rw [if_neg h, readInt_pos _ h2 h1, h3]; congr 1; omega

/-- Reading back a number shown with six digits. -/
theorem readDec_showG (neg : Bool) (m : Nat) (e : Int) (h2 : m < 1000000) :
    readDec ((if neg then ['-'] else []) ++ showG m e) = some ((if neg then -1 else 1) * ((m : ℚ) * (10 : ℚ) ^ (e - 5))) := by
  have hlen := digitsW_length 6 m
  have hlt := digitsW_lt 6 m
  have hnum := digitsW_number 6 m (by norm_num; exact h2)
  unfold showG
  generalize digitsW 6 m = ds at *
  dsimp only
  by_cases hc : -4 ≤ e ∧ e < 6
  · rw [if_pos hc]
    by_cases hc2 : 0 ≤ e
    rotate_left 1
    · rw [if_neg hc2]
      have := readDec_render neg [0] (strip (List.replicate ((-e).toNat - 1) 0 ++ ds)) [] 0 (by simp) (by simp)
        (fun d hd => by
          have := strip_mem _ d hd
          rw [List.mem_append] at this
          rcases this with h | h
          · have := List.eq_of_mem_replicate h; omega
          · exact hlt d h) (by simp) rfl
      rw [List.append_nil] at this
      rw [this, mul_assoc, number_strip]
      have e1 : number ([0] ++ (List.replicate ((-e).toNat - 1) 0 ++ ds)) = m := by
        rw [number_append, number_append, number_zeros, hnum]
        simp [number]
      rw [e1, List.length_append, List.length_replicate, hlen]
      congr 3
      congr 1
      omega
    rw [if_pos hc2]
    -- digits before and after the point
    have hk : e.toNat + 1 ≤ 6 := by omega
    have := readDec_render neg (ds.take (e.toNat + 1)) (strip (ds.drop (e.toNat + 1))) [] 0
      (by intro hh; have := congrArg List.length hh; simp [hlen] at this)
      (fun d hd => hlt d (List.mem_of_mem_take hd)) (fun d hd => hlt d (List.mem_of_mem_drop (strip_mem _ d hd))) (by simp) rfl
    rw [List.append_nil] at this
    rw [this, mul_assoc, number_strip, List.take_append_drop, hnum, List.length_drop, hlen]
    congr 3
    congr 1
    omega
  · rw [if_neg hc]
    have := readDec_render neg (ds.take 1) (strip (ds.drop 1)) ('e' :: (if e < 0 then '-' else '+') ::
      ((if e.natAbs < 10 then [0] else []) ++ digitsAll e.natAbs).map digitChar) e
      (by intro hh; have := congrArg List.length hh; simp [hlen] at this)
      (fun d hd => hlt d (List.mem_of_mem_take hd)) (fun d hd => hlt d (List.mem_of_mem_drop (strip_mem _ d hd)))
      (by intro c cs hh; cases hh; exact ⟨by decide, by decide⟩) (takeExp_show e)
    rw [this, mul_assoc, number_strip, List.take_append_drop, hnum, List.length_drop, hlen]
    rfl

theorem readDec_zero : readDec ['0'] = some 0 := by
  have := readDec_render false [0] [] [] 0 (by simp) (by simp) (by simp) (by simp) rfl
  simpa [render, number, digitChar] using this

/-- What is read back for a number. -/
theorem readVal_show (q : ℚ) : ∃ dec : ℚ, readVal (showVal (.num q)) = some (.num (IEEE.fl 53 dec)) ∧ |dec - q| ≤ |q| / 200000 ∧ (Short q → dec = q) := by
  by_cases h0 : q = 0
  · subst h0
    refine ⟨0, ?_, by simp, fun _ => rfl⟩
    rw [showVal, if_pos rfl, readVal, readDec_zero]
    rfl
  have hp : 0 < |q| := abs_pos.2 h0
  obtain ⟨s1, s2, s3, s4⟩ := sixDigits_spec |q| hp
  have hshort : Short q → Short |q| := by
    rintro ⟨m, k, hm, rfl⟩
    refine ⟨|m|, k, by rwa [abs_abs], ?_⟩
    rw [abs_mul, abs_of_pos (ten_pos k)]
    push_cast
    rfl
  by_cases hn : q < 0
  · have := readDec_showG true (sixDigits |q|).1 (sixDigits |q|).2 s2
    refine ⟨-1 * (((sixDigits |q|).1 : ℚ) * (10 : ℚ) ^ ((sixDigits |q|).2 - 5)), ?_, ?_, ?_⟩
    · rw [showVal, if_neg h0, if_pos hn, readVal]
      simp only [if_true] at this
      rw [this]
      rfl
    · rw [abs_of_neg hn] at s3 ⊢
      rw [show -1 * (((sixDigits (-q)).1 : ℚ) * (10 : ℚ) ^ ((sixDigits (-q)).2 - 5)) - q = -(((sixDigits (-q)).1 : ℚ) * (10 : ℚ) ^ ((sixDigits (-q)).2 - 5) - -q) by ring, abs_neg]
      exact s3
    · intro hs
      rw [s4 (hshort hs), abs_of_neg hn]; ring
  · have := readDec_showG false (sixDigits |q|).1 (sixDigits |q|).2 s2
    push Not at hn
    refine ⟨1 * (((sixDigits |q|).1 : ℚ) * (10 : ℚ) ^ ((sixDigits |q|).2 - 5)), ?_, ?_, ?_⟩
    · rw [showVal, if_neg h0, if_neg (not_lt.2 hn), readVal]
      simp only [Bool.false_eq_true, if_false] at this
      rw [this]
      rfl
    · rw [abs_of_nonneg hn] at s3 ⊢
      rw [one_mul]
      exact s3
    · intro hs
      rw [s4 (hshort hs), abs_of_nonneg hn]; ring

theorem isWord_render (i f : List Nat) (hi : i ≠ []) (h1 : ∀ d ∈ i, d < 10) (h2 : ∀ d ∈ f, d < 10) : IsWord (render i f) := by
  refine ⟨by simp [render, hi], fun c hc => ?_⟩
  rw [render, List.mem_append] at hc
  rcases hc with hc | hc
  · exact isWord_digits i h1 c hc
  · split at hc
    · simp at hc
    · rw [List.mem_cons] at hc
      rcases hc with rfl | hc
      · rfl
      · exact isWord_digits f h2 c hc

theorem isWord_showG (m : Nat) (e : Int) : IsWord (showG m e) := by
  have hlen := digitsW_length 6 m
  have hlt := digitsW_lt 6 m
  unfold showG
  generalize digitsW 6 m = ds at *
  dsimp only
  by_cases hc : -4 ≤ e ∧ e < 6
  · rw [if_pos hc]
    by_cases hc2 : 0 ≤ e
    · rw [if_pos hc2]
      exact isWord_render _ _ (by intro hh; have := congrArg List.length hh; simp [hlen] at this)
          (fun d hd => hlt d (List.mem_of_mem_take hd)) (fun d hd => hlt d (List.mem_of_mem_drop (strip_mem _ d hd)))
    · rw [if_neg hc2]
      refine isWord_render _ _ (by simp) (by simp) (fun d hd => ?_)
      have := strip_mem _ d hd
      rw [List.mem_append] at this
      rcases this with h | h
      · have := List.eq_of_mem_replicate h; omega
      · exact hlt d h
  · rw [if_neg hc]
    obtain ⟨a1, a2⟩ := isWord_render (ds.take 1) (strip (ds.drop 1)) (by intro hh; have := congrArg List.length hh; simp [hlen] at this)
      (fun d hd => hlt d (List.mem_of_mem_take hd)) (fun d hd => hlt d (List.mem_of_mem_drop (strip_mem _ d hd)))
    refine ⟨by simp, fun c hc => ?_⟩
    rw [List.mem_append] at hc
    rcases hc with hc | hc
    · exact a2 c hc
    · rw [List.mem_cons, List.mem_cons] at hc
      rcases hc with rfl | rfl | hc
      · rfl
      · split_ifs <;> rfl
      · refine isWord_digits _ (fun d hd => ?_) c hc
        rw [List.mem_append] at hd
        rcases hd with hd | hd
        · split at hd
          · simp at hd; omega
          · simp at hd
        · exact digitsAll_lt _ d hd

theorem isWord_showVal (v : Val) : IsWord (showVal v) := by
  cases v with
  | num q =>
    rw [showVal]
    split_ifs with h1 h2
    · exact ⟨by simp, by simp [space]⟩
    · obtain ⟨a, b⟩ := isWord_showG (sixDigits |q|).1 (sixDigits |q|).2
      refine ⟨by simp, fun c hc => ?_⟩
      rw [List.mem_append] at hc
      rcases hc with hc | hc
      · simp at hc; subst hc; rfl
      · exact b c hc
    · exact isWord_showG _ _
  | inf neg => cases neg <;> exact ⟨by simp [showVal], by simp [showVal, space]⟩
  | nan => exact ⟨by simp [showVal], by simp [showVal, space]⟩

theorem readVal_inf (neg : Bool) : readVal (showVal (.inf neg)) = none := by cases neg <;> rfl
theorem readVal_nan : readVal (showVal .nan) = none := rfl

/-! ### The data -/

/-- What is read for a value. -/
def back (v : Val) : Option Val := readVal (showVal v)

theorem readVals_tail (vs : List Val) (sep : Char) (R : List Char) (hs : space sep = true) :
    readVals vs.length ((vs.map (fun v => ' ' :: showVal v)).flatten ++ sep :: R) = (vs.mapM back).map (fun r => (r, sep :: R)) := by
  induction vs with
  | nil => rfl
  | cons v vs ih =>
    have hw : word (((v :: vs).map (fun v => ' ' :: showVal v)).flatten ++ sep :: R) =
        some (showVal v, (vs.map (fun v => ' ' :: showVal v)).flatten ++ sep :: R) := by
      cases vs with
      | nil =>
        have := word_spec [' '] (showVal v) sep R (by simp [space]) (isWord_showVal v) hs
        simpa using this
      | cons w ws =>
        have := word_spec [' '] (showVal v) ' ' (showVal w ++ ((ws.map (fun v => ' ' :: showVal v)).flatten ++ sep :: R)) (by simp [space]) (isWord_showVal v) rfl
        simpa using this
    rw [List.length_cons, readVals, hw, List.mapM_cons]
    simp only [Option.bind_eq_bind, Option.bind_some]
    rw [ih]
    show (back v).bind _ = _
    cases back v with
    | none => rfl
    | some b => cases vs.mapM back <;> rfl

theorem readVals_elem (e : List Val) (he : e ≠ []) (c sep : Char) (R : List Char) (hc : space c = true) (hs : space sep = true) :
    readVals e.length (c :: (showElem e ++ sep :: R)) = (e.mapM back).map (fun r => (r, sep :: R)) := by
  cases e with
  | nil => exact absurd rfl he
  | cons v vs =>
    have hw : word (c :: (showElem (v :: vs) ++ sep :: R)) = some (showVal v, (vs.map (fun v => ' ' :: showVal v)).flatten ++ sep :: R) := by
      rw [showElem, List.append_assoc]
      cases vs with
      | nil =>
        have := word_spec [c] (showVal v) sep R (by simp [hc]) (isWord_showVal v) hs
        simpa using this
      | cons w ws =>
        have := word_spec [c] (showVal v) ' ' (showVal w ++ ((ws.map (fun v => ' ' :: showVal v)).flatten ++ sep :: R)) (by simp [hc]) (isWord_showVal v) rfl
        simpa using this
    rw [List.length_cons, readVals, hw, List.mapM_cons]
    simp only [Option.bind_eq_bind, Option.bind_some]
    rw [readVals_tail vs sep R hs]
    show (back v).bind _ = _
    cases back v with
    | none => rfl
    | some b => cases vs.mapM back <;> rfl

theorem readElems_spec (ch width : Nat) (hch : 0 < ch) : ∀ (es : List (List Val)) (k : Nat) (c : Char), space c = true → (∀ e ∈ es, e.length = ch) →
    ∃ t, readElems ch es.length (c :: showElems width k es) = (es.mapM (fun (e : List Val) => e.mapM back)).map (fun r => (r, t))
  | [], _, c, _, _ => ⟨_, rfl⟩
  | e :: es, k, c, hc, h => by
    have he := h e (by simp)
    have hne : e ≠ [] := by rintro rfl; simp at he; omega
    have hsep : space (if (k + 1) % width = 0 then '\n' else ' ') = true := by split_ifs <;> rfl
    obtain ⟨t, ih⟩ := readElems_spec ch width hch es (k + 1) (if (k + 1) % width = 0 then '\n' else ' ') hsep (fun x hx => h x (by simp [hx]))
    refine ⟨t, ?_⟩
    have h1 := readVals_elem e hne c (if (k + 1) % width = 0 then '\n' else ' ') (showElems width (k + 1) es) hc hsep
    rw [he] at h1
    rw [showElems, List.length_cons, readElems, h1, List.mapM_cons]
    cases e.mapM back with
    | none => rfl
    | some b =>
      simp only [Option.map_some, Option.bind_eq_bind, Option.bind_some]
      rw [ih]
      cases es.mapM (fun (e : List Val) => e.mapM back) <;> rfl

/-! ### The header -/

theorem readField_spec (s name : List Char) (n : Int) (T : List Char) (hs : ∀ c ∈ s, space c = true) (hw : IsWord name) :
    readField name (s ++ (field name (showInt n) ++ T)) = some (n, '\n' :: T) := by
  have e1 : s ++ (field name (showInt n) ++ T) = s ++ (name ++ ' ' :: (showInt n ++ '\n' :: T)) := by simp [field]
  have e2 := word_spec [' '] (showInt n) '\n' T (by simp [space]) (isWord_showInt n) rfl
  rw [List.singleton_append] at e2
  unfold readField
  rw [e1, word_spec s name ' ' _ hs hw rfl]
  simp only [Option.bind_eq_bind, Option.bind_some]
  rw [e2]
  simp only [Option.bind_some]
  rw [readInt_showInt]
  simp

theorem readStamp_spec (name text : List Char) (T : List Char) (hw : IsWord name) (ht : '\n' ∉ text) :
    readStamp name (field name text ++ T) = some T := by
  have e1 : field name text ++ T = [] ++ (name ++ ' ' :: (text ++ '\n' :: T)) := by simp [field]
  unfold readStamp
  rw [e1, word_spec [] name ' ' _ (by simp) hw rfl]
  simp only [Option.bind_eq_bind, Option.bind_some, if_true]
  unfold getline
  rw [if_neg (by simp)]
  simp only [Option.bind_some]
  have : ((' ' :: (text ++ '\n' :: T)).dropWhile (· ≠ '\n')) = '\n' :: T := by
    rw [← List.cons_append, List.dropWhile_append_of_pos (by
      intro c hc
      rw [List.mem_cons] at hc
      rcases hc with rfl | hc
      · rfl
      · simp; rintro rfl; exact ht hc)]
    simp
  rw [this]
  rfl

theorem readSizes_spec (ss : List Nat) (c : Char) (R : List Char) (hc : space c = true) :
    readSizes ss.length ((ss.map (fun (s : Nat) => ' ' :: showInt (s : Int))).flatten ++ c :: R) = some (ss.map (fun (s : Nat) => (s : Int)), c :: R) := by
  induction ss with
  | nil => rfl
  | cons v vs ih =>
    have hw : word (((v :: vs).map (fun (s : Nat) => ' ' :: showInt (s : Int))).flatten ++ c :: R) =
        some (showInt v, (vs.map (fun (s : Nat) => ' ' :: showInt (s : Int))).flatten ++ c :: R) := by
      cases vs with
      | nil =>
        have := word_spec [' '] (showInt v) c R (by simp [space]) (isWord_showInt v) hc
        simpa using this
      | cons w ws =>
        have := word_spec [' '] (showInt v) ' ' (showInt w ++ ((ws.map (fun (s : Nat) => ' ' :: showInt (s : Int))).flatten ++ c :: R)) (by simp [space]) (isWord_showInt v) rfl
        simpa using this
    rw [List.length_cons, readSizes, hw]
    simp only [Option.bind_eq_bind, Option.bind_some]
    rw [readInt_showInt, ih]
    simp

theorem ofCode_code (d : Depth) : Depth.ofCode d.code = some d := by cases d <;> rfl

/-- Reading what was written: the values go through text and conversion one by one. -/
theorem read_write (version date : List Char) (m : Mat) (hv : '\n' ∉ version) (hd : '\n' ∉ date) (hm : WellFormed m) :
    read (write version date m) = ((m.elems.mapM (fun (e : List Val) => e.mapM back)).bind (fun es => es.mapM (fun (e : List Val) => e.mapM (saturate m.depth)))).map
      (fun es => ⟨m.depth, m.channels, m.sizes, es⟩) := by
  have name : ∀ l : List Char, l ≠ [] → (l.all (fun c => !space c)) = true → IsWord l := by
    intro l h1 h2
    refine ⟨h1, fun c hc => ?_⟩
    have := List.all_eq_true.1 h2 c hc
    simpa using this
  unfold write read
  rw [readStamp_spec _ _ _ (name _ (by decide) (by decide)) hv]
  simp only [Option.bind_eq_bind, Option.bind_some]
  rw [readStamp_spec _ _ _ (name _ (by decide) (by decide)) hd]
  simp only [Option.bind_some]
  have f1 := fun T => readField_spec [] "nDataType".toList m.type T (by simp) (name _ (by decide) (by decide))
  simp only [List.nil_append] at f1
  rw [f1]
  simp only [Option.bind_some]
  have f2 := fun T => readField_spec ['\n'] "nDataDepth".toList m.depth.code T (by simp [space]) (name _ (by decide) (by decide))
  have f3 := fun T => readField_spec ['\n'] "nChannels".toList m.channels T (by simp [space]) (name _ (by decide) (by decide))
  have f4 := fun T => readField_spec ['\n'] "nElemSize".toList ((m.depth.bytes * m.channels : Nat) : Int) T (by simp [space]) (name _ (by decide) (by decide))
  have f5 := fun T => readField_spec ['\n'] "nElemCount".toList (m.total : Int) T (by simp [space]) (name _ (by decide) (by decide))
  have f6 := fun T => readField_spec ['\n'] "nDims".toList (m.sizes.length : Int) T (by simp [space]) (name _ (by decide) (by decide))
  simp only [List.singleton_append] at f2 f3 f4 f5 f6
  rw [f2]
  simp only [Option.bind_some]
  rw [f3]
  simp only [Option.bind_some]
  rw [f4]
  simp only [Option.bind_some]
  rw [f5]
  simp only [Option.bind_some]
  rw [f6]
  simp only [Option.bind_some]
  have hw : word ('\n' :: ("anSizes".toList ++ ((m.sizes.map (fun (s : Nat) => ' ' :: showInt (s : Int))).flatten ++ ('\n' :: '\n' ::
      showElems (m.sizes.getLastD 1) 0 m.elems)))) = some ("anSizes".toList, (m.sizes.map (fun (s : Nat) => ' ' :: showInt (s : Int))).flatten ++ ('\n' :: '\n' ::
      showElems (m.sizes.getLastD 1) 0 m.elems)) := by
    cases hss : m.sizes with
    | nil =>
      have := word_spec ['\n'] "anSizes".toList '\n' ('\n' :: showElems 1 0 m.elems) (by simp [space]) (name _ (by decide) (by decide)) rfl
      simpa using this
    | cons s ss =>
      have := word_spec ['\n'] "anSizes".toList ' ' (showInt s ++ ((ss.map (fun (s : Nat) => ' ' :: showInt (s : Int))).flatten ++ ('\n' :: '\n' ::
        showElems ((s :: ss).getLastD 1) 0 m.elems))) (by simp [space]) (name _ (by decide) (by decide)) rfl
      simpa using this
  rw [hw]
  simp only [Option.bind_some]
  rw [if_pos ⟨trivial, by omega, by exact_mod_cast hm.channels⟩]
  simp only [Int.toNat_natCast]
  rw [readSizes_spec m.sizes '\n' _ rfl]
  simp only [Option.bind_some]
  have hsz : (m.sizes.map (fun (s : Nat) => (s : Int))).map Int.toNat = m.sizes := by
    rw [List.map_map]
    conv_rhs => rw [← List.map_id m.sizes]
    exact List.map_congr_left (fun s _ => by simp)
  rw [hsz, ofCode_code]
  simp only [Option.bind_some]
  rw [← hm.elems]
  -- the blank line: white space twice
  have hblank : ∀ (n : Nat), readElems m.channels n ('\n' :: '\n' :: showElems (m.sizes.getLastD 1) 0 m.elems) =
      readElems m.channels n ('\n' :: showElems (m.sizes.getLastD 1) 0 m.elems) ∨ n = 0 := by
    intro n
    cases n with
    | zero => right; rfl
    | succ n =>
      left
      obtain ⟨ch, hch⟩ : ∃ ch, m.channels = ch + 1 := ⟨m.channels - 1, by have := hm.channels; omega⟩
      rw [readElems, readElems, hch, readVals, readVals]
      rfl
  obtain ⟨t, ht⟩ := readElems_spec m.channels (m.sizes.getLastD 1) hm.channels m.elems 0 '\n' rfl hm.values
  rcases hblank m.elems.length with hb | hb
  · rw [hb, ht]
    cases m.elems.mapM (fun (e : List Val) => e.mapM back) with
    | none => rfl
    | some es => 
      simp only [Option.map_some, Option.bind_some]
      cases es.mapM (fun (e : List Val) => e.mapM (saturate m.depth)) <;> rfl
  · have : m.elems = [] := List.length_eq_zero_iff.1 hb
    rw [this]
    rfl

end Litiv.TextIO
