import Verif.Model.IEEE
import Verif.Lemmas.Lut

namespace Litiv.IEEE
open Lut

theorem roundEven_mono (x y : ℚ) (h : x ≤ y) : roundEven x ≤ roundEven y := by
  have hf : ⌊x⌋ ≤ ⌊y⌋ := Int.floor_le_floor h
  by_cases he : ⌊x⌋ = ⌊y⌋
  · unfold roundEven
    dsimp only
    rw [he]
    repeat' split
    all_goals first | omega | (exfalso; linarith)
  · have h1 : roundEven x ≤ ⌊x⌋ + 1 := by
      unfold roundEven; dsimp only
      split
      · omega
      · split
        · omega
        · split <;> omega
    have h2 : ⌊y⌋ ≤ roundEven y := by
      unfold roundEven; dsimp only
      split
      · omega
      · split
        · omega
        · split <;> omega
    omega

theorem roundEven_int (n : Int) : roundEven (n : ℚ) = n := by
  unfold roundEven
  simp

theorem roundEven_neg (x : ℚ) : roundEven (-x) = -roundEven x := by
  by_cases hi : (⌊x⌋ : ℚ) = x
  · rw [← hi, ← Int.cast_neg, roundEven_int, roundEven_int]
  · have hlt : (⌊x⌋ : ℚ) < x := lt_of_le_of_ne (Int.floor_le x) hi
    have hlt2 := Int.lt_floor_add_one x
    have hf : ⌊-x⌋ = -⌊x⌋ - 1 := by
      rw [Int.floor_eq_iff]
      push_cast
      constructor <;> linarith
    unfold roundEven
    dsimp only
    rw [hf]
    push_cast
    by_cases h1 : x - ⌊x⌋ < 1 / 2
    · rw [if_pos h1, if_neg (by linarith), if_pos (by linarith)]; ring
    · rw [if_neg h1]
      by_cases h2 : 1 / 2 < x - ⌊x⌋
      · rw [if_pos h2, if_pos (by linarith)]; ring
      · rw [if_neg h2, if_neg (by linarith), if_neg (by linarith)]
        by_cases h3 : ⌊x⌋ % 2 = 0
        · rw [if_pos h3, if_neg (by omega)]; ring
        · rw [if_neg h3, if_pos (by omega)]; ring

theorem lt_ilog (x : ℚ) (hx : 0 < x) : x < (2 : ℚ) ^ (ilog x + 1) := by
  have hn : x.num.natAbs ≠ 0 := by
    have := Rat.num_pos.mpr hx
    omega
  have hd : x.den ≠ 0 := x.den_nz
  have a1 : x.num.natAbs < 2 ^ (Nat.log2 x.num.natAbs + 1) := Nat.lt_log2_self
  have b1 : 2 ^ Nat.log2 x.den ≤ x.den := Nat.log2_self_le hd
  have hxe : x = (x.num.natAbs : ℚ) / x.den := by
    conv_lhs => rw [← Rat.num_div_den x]
    congr 1
    have := Rat.num_pos.mpr hx
    rw [← Int.cast_natCast, Int.natAbs_of_nonneg (by omega)]
  have hdq : (0 : ℚ) < x.den := by exact_mod_cast Nat.pos_of_ne_zero hd
  have key : x < (2 : ℚ) ^ ((Nat.log2 x.num.natAbs : Int) - Nat.log2 x.den + 1) := by
    rw [hxe, div_lt_iff₀ hdq, ← hxe]
    have a2 : (x.num.natAbs : ℚ) < 2 ^ (Nat.log2 x.num.natAbs + 1) := by exact_mod_cast a1
    have b2 : (2 : ℚ) ^ (Nat.log2 x.den) ≤ x.den := by exact_mod_cast b1
    refine lt_of_lt_of_le a2 ?_
    calc (2 : ℚ) ^ (Nat.log2 x.num.natAbs + 1)
        = (2 : ℚ) ^ ((Nat.log2 x.num.natAbs : Int) - Nat.log2 x.den + 1) * 2 ^ (Nat.log2 x.den) := by
          rw [← zpow_natCast (2 : ℚ) (Nat.log2 x.den), ← zpow_add₀ (by norm_num),
            ← zpow_natCast (2 : ℚ) (Nat.log2 x.num.natAbs + 1)]
          congr 1
          push_cast
          ring
      _ ≤ _ := mul_le_mul_of_nonneg_left b2 (zpow_pos (by norm_num) _).le
  unfold ilog
  dsimp only
  split
  · exact key
  · rename_i h
    push Not at h
    rw [sub_add_cancel]
    exact h

theorem zpow_lt_iff (a b : Int) : (2 : ℚ) ^ a < (2 : ℚ) ^ b ↔ a < b := zpow_lt_zpow_iff_right₀ (by norm_num)
theorem zpow_le_iff (a b : Int) : (2 : ℚ) ^ a ≤ (2 : ℚ) ^ b ↔ a ≤ b := zpow_le_zpow_iff_right₀ (by norm_num)

theorem ilog_mono (x y : ℚ) (hx : 0 < x) (h : x ≤ y) : ilog x ≤ ilog y := by
  have h1 := ilog_le x hx
  have h2 := lt_ilog y (lt_of_lt_of_le hx h)
  have := (zpow_lt_iff _ _).1 (lt_of_le_of_lt (le_trans h1 h) h2)
  omega

theorem ilog_unique (x : ℚ) (e : Int) (h1 : (2 : ℚ) ^ e ≤ x) (h2 : x < (2 : ℚ) ^ (e + 1)) : ilog x = e := by
  have hx : 0 < x := lt_of_lt_of_le (zpow_pos (by norm_num) _) h1
  have g1 := ilog_le x hx
  have g2 := lt_ilog x hx
  have a := (zpow_lt_iff _ _).1 (lt_of_le_of_lt h1 g2)
  have b := (zpow_lt_iff _ _).1 (lt_of_le_of_lt g1 h2)
  omega

theorem fl_zero (p : Nat) : fl p 0 = 0 := by simp [fl]

theorem fl_neg (p : Nat) (x : ℚ) : fl p (-x) = -fl p x := by
  unfold fl
  by_cases h : x = 0
  · simp [h]
  · rw [if_neg (neg_ne_zero.2 h), if_neg h, abs_neg, neg_mul, roundEven_neg]
    push_cast
    ring

/-- Numbers with a `p`-bit significand are unchanged. -/
theorem fl_exact (p : Nat) (hp0 : 1 ≤ p) (m k : Int) (hm : |m| ≤ 2 ^ p) : fl p ((m : ℚ) * (2 : ℚ) ^ k) = (m : ℚ) * (2 : ℚ) ^ k := by
  unfold fl
  by_cases h0 : (m : ℚ) * (2 : ℚ) ^ k = 0
  · rw [if_pos h0, h0]
  rw [if_neg h0]
  set x := (m : ℚ) * (2 : ℚ) ^ k with hx
  have hpos : 0 < |x| := abs_pos.2 h0
  have e1 := ilog_le |x| hpos
  have e2 := lt_ilog |x| hpos
  set e := ilog |x| with he
  have habs : |x| = |(m : ℚ)| * (2 : ℚ) ^ k := by rw [hx, abs_mul, abs_of_pos (zpow_pos (show (0 : ℚ) < 2 by norm_num) k)]
  have key : ∃ n : Int, x * (2 : ℚ) ^ ((p : Int) - 1 - e) = n := by
    by_cases hk : 0 ≤ k + ((p : Int) - 1 - e)
    · refine ⟨m * 2 ^ (k + ((p : Int) - 1 - e)).toNat, ?_⟩
      rw [hx, mul_assoc, ← zpow_add₀ (by norm_num : (2 : ℚ) ≠ 0)]
      push_cast
      rw [← zpow_natCast, Int.toNat_of_nonneg hk]
    · have hmq : |(m : ℚ)| ≤ (2 : ℚ) ^ (p : Int) := by
        rw [zpow_natCast]; exact_mod_cast hm
      have hle : |x| ≤ (2 : ℚ) ^ ((p : Int) + k) := by
        rw [habs, zpow_add₀ (by norm_num : (2 : ℚ) ≠ 0)]
        exact mul_le_mul_of_nonneg_right hmq (zpow_pos (by norm_num) _).le
      have hek : e = p + k := by
        have := (zpow_le_iff _ _).1 (le_trans e1 hle)
        omega
      have hxe : |x| = (2 : ℚ) ^ ((p : Int) + k) := le_antisymm hle (by rw [← hek]; exact e1)
      rcases abs_cases x with ⟨hc, -⟩ | ⟨hc, -⟩
      · rw [hc] at hxe
        · refine ⟨2 ^ (p - 1), ?_⟩
          rw [hxe, hek, ← zpow_add₀ (by norm_num : (2 : ℚ) ≠ 0)]
          push_cast
          rw [← zpow_natCast]
          congr 1
          omega
      · have hxe' : x = -(2 : ℚ) ^ ((p : Int) + k) := by rw [← hxe, hc, neg_neg]
        · refine ⟨-2 ^ (p - 1), ?_⟩
          rw [hxe', hek, neg_mul, ← zpow_add₀ (by norm_num : (2 : ℚ) ≠ 0)]
          push_cast
          rw [← zpow_natCast]
          congr 2
          omega
  obtain ⟨n, hn⟩ := key
  rw [hn, roundEven_int, ← hn, mul_assoc, ← zpow_add₀ (by norm_num : (2 : ℚ) ≠ 0)]
  have : (p : Int) - 1 - e + (e - ((p : Int) - 1)) = 0 := by ring
  rw [this, zpow_zero, mul_one]

theorem pow_cast (p : Nat) (hp : 1 ≤ p) : ((2 ^ (p - 1) : Int) : ℚ) = (2 : ℚ) ^ ((p : Int) - 1) := by
  push_cast
  rw [← zpow_natCast]
  congr 1
  omega

/-- A positive number is rounded within its binade. -/
theorem fl_bounds (p : Nat) (hp : 1 ≤ p) (x : ℚ) (hx : 0 < x) :
    (2 : ℚ) ^ ilog x ≤ fl p x ∧ fl p x ≤ (2 : ℚ) ^ (ilog x + 1) := by
  unfold fl
  rw [if_neg hx.ne', abs_of_pos hx]
  have e1 := ilog_le x hx
  have e2 := lt_ilog x hx
  set e := ilog x
  have hz : (0 : ℚ) < (2 : ℚ) ^ ((p : Int) - 1 - e) := zpow_pos (by norm_num) _
  have hz2 : (0 : ℚ) < (2 : ℚ) ^ (e - ((p : Int) - 1)) := zpow_pos (by norm_num) _
  constructor
  · have h1 : ((2 ^ (p - 1) : Int) : ℚ) ≤ x * (2 : ℚ) ^ ((p : Int) - 1 - e) := by
      have := mul_le_mul_of_nonneg_right e1 hz.le
      rw [← zpow_add₀ (by norm_num : (2 : ℚ) ≠ 0)] at this
      rw [pow_cast p hp]
      refine le_trans (le_of_eq ?_) this
      congr 1; ring
    have h2 := roundEven_mono _ _ h1
    rw [roundEven_int] at h2
    have h3 : (2 : ℚ) ^ ((p : Int) - 1) ≤ (roundEven (x * (2 : ℚ) ^ ((p : Int) - 1 - e)) : ℚ) := by
      rw [← pow_cast p hp]; exact_mod_cast h2
    have := mul_le_mul_of_nonneg_right h3 hz2.le
    rw [← zpow_add₀ (by norm_num : (2 : ℚ) ≠ 0)] at this
    refine le_trans (le_of_eq ?_) this
    congr 1; ring
  · have h1 : x * (2 : ℚ) ^ ((p : Int) - 1 - e) ≤ ((2 ^ p : Int) : ℚ) := by
      have := mul_le_mul_of_nonneg_right e2.le hz.le
      rw [← zpow_add₀ (by norm_num : (2 : ℚ) ≠ 0)] at this
      refine le_trans this (le_of_eq ?_)
      push_cast
      rw [← zpow_natCast]
      congr 1; ring
    have h2 := roundEven_mono _ _ h1
    rw [roundEven_int] at h2
    have h3 : (roundEven (x * (2 : ℚ) ^ ((p : Int) - 1 - e)) : ℚ) ≤ (2 : ℚ) ^ (p : Int) := by
      rw [zpow_natCast]; exact_mod_cast h2
    have := mul_le_mul_of_nonneg_right h3 hz2.le
    rw [← zpow_add₀ (by norm_num : (2 : ℚ) ≠ 0)] at this
    refine le_trans this (le_of_eq ?_)
    congr 1; ring

theorem fl_mono_pos (p : Nat) (hp : 1 ≤ p) (x y : ℚ) (hx : 0 < x) (h : x ≤ y) : fl p x ≤ fl p y := by
  have hy : 0 < y := lt_of_lt_of_le hx h
  have he := ilog_mono x y hx h
  by_cases hs : ilog x = ilog y
  · unfold fl
    rw [if_neg hx.ne', if_neg hy.ne', abs_of_pos hx, abs_of_pos hy, hs]
    refine mul_le_mul_of_nonneg_right ?_ (zpow_pos (by norm_num) _).le
    exact_mod_cast roundEven_mono _ _ (mul_le_mul_of_nonneg_right h (zpow_pos (by norm_num) _).le)
  · exact le_trans (fl_bounds p hp x hx).2 (le_trans ((zpow_le_iff _ _).2 (by omega)) (fl_bounds p hp y hy).1)

theorem fl_nonneg (p : Nat) (hp : 1 ≤ p) (x : ℚ) (hx : 0 ≤ x) : 0 ≤ fl p x := by
  rcases hx.eq_or_lt with rfl | h
  · rw [fl_zero]
  · exact le_trans (zpow_pos (by norm_num) _).le (fl_bounds p hp x h).1

theorem fl_mono (p : Nat) (hp : 1 ≤ p) (x y : ℚ) (h : x ≤ y) : fl p x ≤ fl p y := by
  by_cases hx : 0 < x
  · exact fl_mono_pos p hp x y hx h
  · push Not at hx
    by_cases hy : 0 ≤ y
    · have := fl_nonneg p hp (-x) (by linarith)
      rw [fl_neg] at this
      exact le_trans (by linarith) (fl_nonneg p hp y hy)
    · push Not at hy
      have := fl_mono_pos p hp (-y) (-x) (by linarith) (by linarith)
      rw [fl_neg, fl_neg] at this
      linarith

/-- Every result is a whole number of at most `p` bits times a power of two. -/
theorem fl_form (p : Nat) (hp : 1 ≤ p) (x : ℚ) : ∃ m k : Int, |m| ≤ 2 ^ p ∧ fl p x = (m : ℚ) * (2 : ℚ) ^ k := by
  have pos : ∀ x : ℚ, 0 < x → ∃ m k : Int, |m| ≤ 2 ^ p ∧ fl p x = (m : ℚ) * (2 : ℚ) ^ k := by
    intro x hx
    have hb := fl_bounds p hp x hx
    refine ⟨roundEven (x * (2 : ℚ) ^ ((p : Int) - 1 - ilog x)), ilog x - ((p : Int) - 1), ?_, ?_⟩
    · have hz : (0 : ℚ) < (2 : ℚ) ^ (((p : Int) - 1) - ilog x) := zpow_pos (by norm_num) _
      have e : fl p x * (2 : ℚ) ^ (((p : Int) - 1) - ilog x) = roundEven (x * (2 : ℚ) ^ ((p : Int) - 1 - ilog x)) := by
        unfold fl
        rw [if_neg hx.ne', abs_of_pos hx, mul_assoc, ← zpow_add₀ (by norm_num : (2 : ℚ) ≠ 0)]
        have : ilog x - ((p : Int) - 1) + ((p : Int) - 1 - ilog x) = 0 := by ring
        rw [this, zpow_zero, mul_one]
      have h1 := mul_le_mul_of_nonneg_right hb.2 hz.le
      rw [e, ← zpow_add₀ (by norm_num : (2 : ℚ) ≠ 0)] at h1
      have h2 : (2 : ℚ) ^ (ilog x + 1 + ((p : Int) - 1 - ilog x)) = ((2 ^ p : Int) : ℚ) := by
        push_cast
        rw [← zpow_natCast]
        congr 1; ring
      rw [h2] at h1
      have h3 : (0 : ℚ) ≤ roundEven (x * (2 : ℚ) ^ ((p : Int) - 1 - ilog x)) := by
        rw [← e]
        exact mul_nonneg (fl_nonneg p hp x hx.le) hz.le
      have h3' : 0 ≤ roundEven (x * (2 : ℚ) ^ ((p : Int) - 1 - ilog x)) := by exact_mod_cast h3
      rw [abs_of_nonneg h3']
      exact_mod_cast h1
    · unfold fl
      rw [if_neg hx.ne', abs_of_pos hx]
  rcases lt_trichotomy x 0 with h | h | h
  · obtain ⟨m, k, h1, h2⟩ := pos (-x) (by linarith)
    refine ⟨-m, k, by rwa [abs_neg], ?_⟩
    rw [fl_neg] at h2
    push_cast
    linarith
  · refine ⟨0, 0, by simp, ?_⟩
    rw [h, fl_zero]; simp
  · exact pos x h

theorem fl_idem (p : Nat) (hp : 1 ≤ p) (x : ℚ) : fl p (fl p x) = fl p x := by
  obtain ⟨m, k, h1, h2⟩ := fl_form p hp x
  rw [h2, fl_exact p hp m k h1]

theorem fl_int (p : Nat) (hp : 1 ≤ p) (n : Int) (hn : |n| ≤ 2 ^ p) : fl p n = n := by
  have := fl_exact p hp n 0 hn
  simpa using this

/-- Numbers slightly above one are rounded to one. -/
theorem fl_near_one (p : Nat) (hp : 1 ≤ p) (x : ℚ) (h : x < 1 + (2 : ℚ) ^ (-(p : Int))) : fl p x ≤ 1 := by
  have h1 : fl p 1 = 1 := by
    have := fl_int p hp 1 (by
      have : (1 : Int) ≤ 2 ^ p := one_le_pow₀ (by norm_num)
      simpa using this)
    simpa using this
  by_cases hx : x ≤ 1
  · rw [← h1]; exact fl_mono p hp x 1 hx
  · push Not at hx
    have hx0 : 0 < x := by linarith
    have hz : (2 : ℚ) ^ (-(p : Int)) < 1 := by
      have := (zpow_lt_iff (-(p : Int)) 0).2 (by omega)
      simpa using this
    have he : ilog x = 0 := ilog_unique x 0 (by simpa using hx.le) (by norm_num; linarith)
    unfold fl
    rw [if_neg hx0.ne', abs_of_pos hx0, he, sub_zero, zero_sub]
    have hb : x * (2 : ℚ) ^ ((p : Int) - 1) < (2 : ℚ) ^ ((p : Int) - 1) + 1 / 2 := by
      have hq := mul_lt_mul_of_pos_right h (zpow_pos (show (0 : ℚ) < 2 by norm_num) ((p : Int) - 1))
      rw [add_mul, one_mul, ← zpow_add₀ (by norm_num : (2 : ℚ) ≠ 0)] at hq
      have : -(p : Int) + ((p : Int) - 1) = -1 := by ring
      rw [this] at hq
      refine lt_of_lt_of_le hq (le_of_eq ?_)
      norm_num
    have hr : roundEven (x * (2 : ℚ) ^ ((p : Int) - 1)) ≤ 2 ^ (p - 1) := by
      have hbd := roundEven_bound (x * (2 : ℚ) ^ ((p : Int) - 1))
      rw [abs_le] at hbd
      rw [← pow_cast p hp] at hb
      have : (roundEven (x * (2 : ℚ) ^ ((p : Int) - 1)) : ℚ) < ((2 ^ (p - 1) : Int) : ℚ) + 1 := by
        rw [← pow_cast p hp]
        rw [← pow_cast p hp] at hbd
        linarith [hbd.2]
      have : roundEven (x * (2 : ℚ) ^ ((p : Int) - 1)) < 2 ^ (p - 1) + 1 := by exact_mod_cast this
      omega
    have hr' : (roundEven (x * (2 : ℚ) ^ ((p : Int) - 1)) : ℚ) ≤ (2 : ℚ) ^ ((p : Int) - 1) := by
      rw [← pow_cast p hp]
      rw [← pow_cast p hp] at hr
      exact_mod_cast hr
    have := mul_le_mul_of_nonneg_right hr' (zpow_pos (show (0 : ℚ) < 2 by norm_num) (-((p : Int) - 1))).le
    rw [← zpow_add₀ (by norm_num : (2 : ℚ) ≠ 0)] at this
    refine le_trans this (le_of_eq ?_)
    have : (p : Int) - 1 + -((p : Int) - 1) = 0 := by ring
    rw [this, zpow_zero]

/-- Rounding error of a number below one. -/
theorem fl_error (p : Nat) (x : ℚ) (h0 : 0 ≤ x) (h1 : x < 1) : |fl p x - x| ≤ (2 : ℚ) ^ (-(p : Int) - 1) := by
  rcases h0.eq_or_lt with rfl | hx
  · rw [fl_zero]; simp; exact (zpow_pos (show (0 : ℚ) < 2 by norm_num) _).le
  unfold fl
  rw [if_neg hx.ne', abs_of_pos hx]
  have hb := roundEven_bound (x * (2 : ℚ) ^ ((p : Int) - 1 - ilog x))
  have he : ilog x ≤ -1 := by
    have := (zpow_lt_iff (ilog x) 0).1 (by
      rw [zpow_zero]
      exact lt_of_le_of_lt (ilog_le x hx) h1)
    omega
  have hz : (0 : ℚ) < (2 : ℚ) ^ (ilog x - ((p : Int) - 1)) := zpow_pos (by norm_num) _
  have hxx : x = (x * (2 : ℚ) ^ ((p : Int) - 1 - ilog x)) * (2 : ℚ) ^ (ilog x - ((p : Int) - 1)) := by
    rw [mul_assoc, ← zpow_add₀ (by norm_num : (2 : ℚ) ≠ 0)]
    have : (p : Int) - 1 - ilog x + (ilog x - ((p : Int) - 1)) = 0 := by ring
    rw [this, zpow_zero, mul_one]
  conv_lhs => rw [show ∀ a : ℚ, a - x = a - (x * (2 : ℚ) ^ ((p : Int) - 1 - ilog x)) * (2 : ℚ) ^ (ilog x - ((p : Int) - 1)) from fun a => by rw [← hxx]]
  rw [← sub_mul, abs_mul, abs_of_pos hz]
  refine le_trans (mul_le_mul_of_nonneg_right hb hz.le) ?_
  have : (1 / 2 : ℚ) = (2 : ℚ) ^ (-1 : Int) := by norm_num
  rw [this, ← zpow_add₀ (by norm_num : (2 : ℚ) ≠ 0), zpow_le_iff]
  omega

theorem fl_compl (p : Nat) (hp : 1 ≤ p) (f : ℚ) (h0 : 0 ≤ f) (h1 : f ≤ 1) : fl p (fl p (1 - f) + f) ≤ 1 := by
  refine fl_near_one p hp _ ?_
  rcases h0.eq_or_lt with rfl | hf
  · rw [sub_zero, add_zero]
    have : fl p 1 ≤ 1 := fl_near_one p hp 1 (by
      have := zpow_pos (show (0 : ℚ) < 2 by norm_num) (-(p : Int))
      linarith)
    have h2 := zpow_pos (show (0 : ℚ) < 2 by norm_num) (-(p : Int))
    linarith
  · have he := fl_error p (1 - f) (by linarith) (by linarith)
    rw [abs_le] at he
    have hz : (2 : ℚ) ^ (-(p : Int) - 1) < (2 : ℚ) ^ (-(p : Int)) := (zpow_lt_iff _ _).2 (by omega)
    linarith [he.2]

/-- `float` operations satisfy what the proofs use. -/
theorem float32_rounds : Rounds float32 where
  mono := fl_mono 24 (by norm_num)
  idem := fl_idem 24 (by norm_num)
  nat := fun n hn => by
    have := fl_int 24 (by norm_num) n (by
      rw [abs_of_nonneg (Int.natCast_nonneg n)]
      exact_mod_cast hn)
    simpa [float32] using this
  dyad := by
    have := fl_exact 24 (by norm_num) 1 (-6) (by norm_num)
    simp only [float32]
    norm_num at this ⊢
    exact this
  compl := fl_compl 24 (by norm_num)

/-- So does exact arithmetic. -/
theorem exact_rounds : Rounds id where
  mono := fun _ _ h => h
  idem := fun _ => rfl
  nat := fun _ _ => rfl
  dyad := rfl
  compl := fun f _ _ => by simp

end Litiv.IEEE
