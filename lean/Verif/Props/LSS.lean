import Verif.Lemmas.LSS

/-!
# Properties of log-polar masks and local self-similarity descriptors

Properties C98 (`getLogPolarMask`), C99 (dense descriptors) and C100 (descriptors of keypoints).
-/

namespace Litiv.LSS

open Classical

/-! ## C98 -/

/-- What a mask of `n` × `n` cells with `D` bins must satisfy: bins are valid, the centre has none, and the first and last used cells are right. -/
structure Proper (n D : Nat) (m : Mask) : Prop where
  bins : ∀ k < n * n, m.cell k = -1 ∨ (0 ≤ m.cell k ∧ m.cell k < D)
  centre : m.cell ((n / 2) * n + n / 2) = -1
  between : ∀ k < n * n, m.cell k ≠ -1 → m.first ≤ k ∧ k ≤ m.last
  tight : (∃ k < n * n, m.cell k ≠ -1) → m.first < n * n ∧ m.last < n * n ∧ m.cell m.first ≠ -1 ∧ m.cell m.last ≠ -1
  last : m.last < n * n

theorem proper_scan (n D : Nat) (f : Nat → Nat → Option Int) (hn : n % 2 = 1) (hf : ∀ r c v, f r c = some v → 0 ≤ v ∧ v < D)
    (hc : f (n / 2) (n / 2) = none) : Proper n D (scan n f) := by
  obtain ⟨h1, h2, h3, h4⟩ := scan_spec n f
  have hpos : 0 < n := by omega
  have hne : ∀ k < n * n, ((scan n f).cell k ≠ -1 ↔ f (k / n) (k % n) ≠ none) := by
    intro k hk
    rw [h1 k, if_pos hk]
    cases hv : f (k / n) (k % n) with
    | none => simp
    | some v => simp only [Option.getD_some, ne_eq, reduceCtorEq, not_false_eq_true, iff_true]; have := hf _ _ _ hv; omega
  refine ⟨fun k hk => ?_, ?_, fun k hk h => h2 k hk ((hne k hk).1 h), ?_, ?_⟩
  · rw [h1 k, if_pos hk]
    cases hv : f (k / n) (k % n) with
    | none => exact Or.inl rfl
    | some v => exact Or.inr (hf _ _ _ hv)
  · rw [h1]
    have e1 : (n / 2 * n + n / 2) / n = n / 2 := by
      rw [mul_comm, Nat.mul_add_div hpos, Nat.div_eq_of_lt (show n / 2 < n by omega), add_zero]
    have e2 : (n / 2 * n + n / 2) % n = n / 2 := by
      rw [mul_comm, Nat.mul_add_mod, Nat.mod_eq_of_lt (show n / 2 < n by omega)]
    rw [e1, e2, hc]
    simp
  · rintro ⟨k, hk, h⟩
    obtain ⟨a, b, c, d⟩ := h3 ⟨k, hk, (hne k hk).1 h⟩
    exact ⟨a, b, (hne _ a).2 c, (hne _ b).2 d⟩
  · by_cases hex : ∃ k < n * n, f (k / n) (k % n) ≠ none
    · exact (h3 hex).2.1
    · push Not at hex
      rw [(h4 hex).2]
      exact Nat.mul_pos hpos hpos

/-- **C98 (any rounding).** Whatever the rounding of distances and angles, Lienhart's mask is proper; so is Chatfield's if the number of angular
bins divides 360. -/
theorem mask_any (n R A : Nat) (hn : n % 2 = 1) (hA : 0 < A) :
    (∀ (rings : List ℝ) (dist : Int → Int → ℝ) (turn : Int → Int → Nat), Proper n (R * A) (scan n (lienhartCell n R A rings dist turn))) ∧
    (360 % A = 0 → ∀ (rad : Int → Int → Int) (deg : Int → Int → Nat), Proper n (R * A) (scan n (chatfieldCell n R A rad deg))) := by
  refine ⟨fun rings dist turn => ?_, fun hdiv rad deg => ?_⟩
  · apply proper_scan n _ _ hn
    · exact fun r c v h => lienhart_range n R A rings dist turn hA r c v h
    · unfold lienhartCell
      have : (n - 1) / 2 = n / 2 := by omega
      simp [this]
  · apply proper_scan n _ _ hn
    · exact fun r c v h => chatfield_range n R A rad deg hA hdiv r c v h
    · unfold chatfieldCell
      simp

/-- **C98 (proper masks).** -/
theorem mask_proper (n R A : Nat) (lienhart : Bool) (off : ℝ) (m : Mask) (h : getLogPolarMask n R A lienhart off = some m)
    (hdiv : lienhart = true ∨ 360 % A = 0) : Proper n (R * A) m := by
  unfold getLogPolarMask at h
  split at h
  · rename_i hc
    obtain ⟨_, hn, _, hA, _, _⟩ := hc
    split at h
    · injection h with h; subst h
      exact (mask_any n R A hn hA).1 _ _ _
    · rename_i hl
      split at h
      · cases h
      · split at h
        · cases h
        · injection h with h; subst h
          exact (mask_any n R A hn hA).2 (hdiv.resolve_left (by simpa using hl)) _ _
  · cases h

/-- **C98 (defined).** Lienhart's mask exists for all valid arguments; Chatfield's if moreover there are at most 360 angular bins and the size is not 3. -/
theorem mask_defined (n R A : Nat) (lienhart : Bool) (off : ℝ) (hn : n % 2 = 1) (hR : 0 < R) (hA : 0 < A) (ho : 0 ≤ off)
    (hl : lienhart = true ∨ (off = 0 ∧ A ≤ 360 ∧ n ≠ 3)) : ∃ m, getLogPolarMask n R A lienhart off = some m := by
  unfold getLogPolarMask
  rw [if_pos ⟨by omega, hn, hR, hA, hl.imp id fun h => h.1, ho⟩]
  rcases hl with rfl | ⟨h1, h2, h3⟩
  · exact ⟨_, if_pos rfl⟩
  · cases lienhart
    · have h4 : ¬ (1 < n ∧ 360 / A = 0) := fun h => absurd h.2 (Nat.div_pos h2 hA).ne'
      simp only [Bool.false_eq_true, if_false, if_neg h4, if_neg h3]
      exact ⟨_, rfl⟩
    · exact ⟨_, if_pos rfl⟩

/-- **C98 (defined, refuted).** Chatfield's mask with more than 360 angular bins divides by zero; its mask of size 3 converts an infinite
number to `int`. -/
theorem mask_defined_refuted (n R A : Nat) (hn : 1 < n) (h : 360 < A ∨ n = 3) : getLogPolarMask n R A false 0 = none := by
  unfold getLogPolarMask
  split
  · simp only [Bool.false_eq_true, if_false]
    rcases h with h | rfl
    · rw [if_pos ⟨hn, Nat.div_eq_of_lt h⟩]
    · split <;> simp
  · rfl

theorem arg_315 : Complex.arg ⟨((1 : Int) : ℝ), ((-1 : Int) : ℝ)⟩ = -(Real.pi / 4) := by
  have h : (⟨((1 : Int) : ℝ), ((-1 : Int) : ℝ)⟩ : ℂ) = ((Real.sqrt 2 : ℝ) : ℂ) * (Real.cos (-(Real.pi / 4)) + Real.sin (-(Real.pi / 4)) * Complex.I) := by
    have h2 : Real.sqrt 2 * Real.sqrt 2 = 2 := Real.mul_self_sqrt (by norm_num)
    apply Complex.ext
    · simp [Real.cos_neg, Real.cos_pi_div_four]
      linarith
    · simp [Real.sin_neg, Real.sin_pi_div_four]
      linarith
  rw [h, Complex.ofReal_cos, Complex.ofReal_sin]
  exact Complex.arg_mul_cos_add_sin_mul_I (Real.sqrt_pos.2 (by norm_num)) ⟨by linarith [Real.pi_pos], by linarith [Real.pi_pos]⟩

theorem deg_315 : deg (-1) 1 = 315 := by
  unfold deg
  rw [arg_315]
  have hp := Real.pi_pos
  have e : -(Real.pi / 4) / Real.pi * 180 = -45 := by field_simp; norm_num
  dsimp only
  rw [e, if_pos (by norm_num)]
  rw [Nat.floor_eq_iff (by norm_num)]
  norm_num

theorem radBin_5 : radBin 5 1 (-1) 1 = 0 := by
  unfold radBin dist
  have hl : (0 : ℝ) < Real.logb 10 2 := Real.logb_pos (by norm_num) (by norm_num)
  have e : Real.logb 10 (Real.sqrt (((-1) * (-1) + 1 * 1 : Int) : ℝ)) = Real.logb 10 2 / 2 := by
    have : (((-1) * (-1) + 1 * 1 : Int) : ℝ) = 2 := by norm_num
    rw [this, Real.sqrt_eq_rpow, Real.logb_rpow_eq_mul_logb_of_pos (by norm_num)]
    ring
  rw [e]
  have e2 : Real.logb 10 2 / 2 * (((1 : Nat) : ℝ) / Real.logb 10 ((5 / 2 : Nat) : ℝ)) = 1 / 2 := by
    norm_num
    field_simp
  rw [e2]
  norm_num

/-- **C98 (bins, refuted for Chatfield's mask).** If the number of angular bins does not divide 360 a cell may get a bin that does not exist:
here bin 63 of 61. -/
theorem mask_bins_refuted : ∃ m, getLogPolarMask 5 1 61 false 0 = some m ∧ m.cell (1 * 5 + 3) = 63 ∧ ¬ Proper 5 (1 * 61) m := by
  obtain ⟨m, hm⟩ := mask_defined 5 1 61 false 0 (by decide) (by decide) (by decide) le_rfl (Or.inr ⟨rfl, by decide, by decide⟩)
  have hcell : m.cell (1 * 5 + 3) = 63 := by
    unfold getLogPolarMask at hm
    rw [if_pos ⟨by decide, by decide, by decide, by decide, Or.inr rfl, le_rfl⟩] at hm
    simp only [Bool.false_eq_true, if_false] at hm
    rw [if_neg (by decide), if_neg (by decide)] at hm
    injection hm with hm
    subst hm
    rw [(scan_spec _ _).1, if_pos (by decide)]
    unfold chatfieldCell
    norm_num
    rw [radBin_5, deg_315]
    norm_num
  refine ⟨m, hm, hcell, fun h => ?_⟩
  rcases h.bins (1 * 5 + 3) (by decide) with h | h <;> rw [hcell] at h
  · omega
  · omega

theorem cast_le_sq (a : Int) (m : Nat) : (a : ℝ) ≤ (m : ℝ) ^ 2 ↔ a ≤ (m : Int) ^ 2 := by
  have : (m : ℝ) ^ 2 = (((m : Int) ^ 2 : Int) : ℝ) := by push_cast; rfl
  rw [this, Int.cast_le]

theorem cast_lt_sq (a : Int) (m : Nat) : (a : ℝ) < (m : ℝ) ^ 2 ↔ a < (m : Int) ^ 2 := by
  have : (m : ℝ) ^ 2 = (((m : Int) ^ 2 : Int) : ℝ) := by push_cast; rfl
  rw [this, Int.cast_lt]

theorem base_pow (R : Nat) (hR : 0 < R) : ((R : ℝ) ^ (1 / (R : ℝ))) ^ R = R := by
  rw [← Real.rpow_natCast, ← Real.rpow_mul (by positivity), one_div, inv_mul_cancel₀ (by positivity), Real.rpow_one]

/-- **C98 (disc).** With two or more radial bins, Lienhart's mask covers exactly the pixels of the disc (without its centre); Chatfield's covers
exactly those of the open disc. -/
theorem mask_disc (n R A : Nat) (lienhart : Bool) (m : Mask) (h : getLogPolarMask n R A lienhart 0 = some m) (h2 : lienhart = true → 2 ≤ R)
    (hdiv : lienhart = true ∨ 360 % A = 0) (r c : Nat) (hr : r < n) (hc : c < n) :
    let d2 : Int := ((r : Int) - (n / 2 : Nat)) ^ 2 + ((c : Int) - (n / 2 : Nat)) ^ 2
    m.cell (r * n + c) ≠ -1 ↔ 0 < d2 ∧ (if lienhart then d2 ≤ ((n / 2 : Nat) : Int) ^ 2 else d2 < ((n / 2 : Nat) : Int) ^ 2) := by
  have hproper := mask_proper n R A lienhart 0 m h hdiv
  have hpos : 0 < n := by omega
  have hk : r * n + c < n * n := by
    have : (r + 1) * n ≤ n * n := Nat.mul_le_mul_right n hr
    have e : (r + 1) * n = r * n + n := by ring
    omega
  have e1 : (r * n + c) / n = r := by rw [mul_comm, Nat.mul_add_div hpos, Nat.div_eq_of_lt hc, add_zero]
  have e2 : (r * n + c) % n = c := by rw [mul_comm, Nat.mul_add_mod, Nat.mod_eq_of_lt hc]
  have hnonneg : ∀ y x : Int, y ^ 2 + x ^ 2 = 0 ↔ (y = 0 ∧ x = 0) := by
    intro y x
    constructor
    · intro h
      constructor <;> nlinarith [sq_nonneg y, sq_nonneg x]
    · rintro ⟨rfl, rfl⟩; rfl
  unfold getLogPolarMask at h
  split at h
  swap
  · cases h
  rename_i hcond
  obtain ⟨_, hn, hR, hA, _, _⟩ := hcond
  have hd : ∀ y x : Int, 0 ≤ dist y x := fun _ _ => Real.sqrt_nonneg _
  have hd2 : ∀ y x : Int, (dist y x) ^ 2 = ((y ^ 2 + x ^ 2 : Int) : ℝ) := by
    intro y x
    unfold dist
    rw [Real.sq_sqrt]
    · congr 1; ring
    · have : 0 ≤ y * y + x * x := add_nonneg (mul_self_nonneg _) (mul_self_nonneg _)
      exact_mod_cast this
  cases lienhart with
  | true =>
    simp only [if_true] at h
    injection h with h
    subst h
    have hnone : (scan n (lienhartCell n R A (ringDists n R 0) dist (turn A))).cell (r * n + c) ≠ -1 ↔ lienhartCell n R A (ringDists n R 0) dist (turn A) r c ≠ none := by
      rw [(scan_spec _ _).1, if_pos hk, e1, e2]
      cases hv : lienhartCell n R A (ringDists n R 0) dist (turn A) r c with
      | none => simp
      | some v =>
        have := lienhart_range n R A _ _ _ hA r c v hv
        simp only [Option.getD_some, ne_eq, reduceCtorEq, not_false_eq_true, iff_true]; omega
    dsimp only
    rw [hnone, if_pos rfl]
    have hctr : (n - 1) / 2 = n / 2 := by omega
    unfold lienhartCell
    dsimp only
    rw [hctr]
    by_cases hcen : r = n / 2 ∧ c = n / 2
    · rw [if_pos hcen]
      obtain ⟨rfl, rfl⟩ := hcen
      simp
    · rw [if_neg hcen]
      have hcpos : 0 < ((r : Int) - (n / 2 : Nat)) ^ 2 + ((c : Int) - (n / 2 : Nat)) ^ 2 := by
        have h0 := hnonneg ((r : Int) - (n / 2 : Nat)) ((c : Int) - (n / 2 : Nat))
        have : 0 ≤ ((r : Int) - (n / 2 : Nat)) ^ 2 + ((c : Int) - (n / 2 : Nat)) ^ 2 := by positivity
        omega
      have hlen : (ringDists n R 0).length = R := by simp [ringDists]
      have hidx : (ringDists n R 0).findIdx (fun (d : ℝ) => decide (dist (((n / 2 : Nat) : Int) - r) (((n / 2 : Nat) : Int) - c) ≤ d)) < R ↔
          dist (((n / 2 : Nat) : Int) - r) (((n / 2 : Nat) : Int) - c) ≤ ((n / 2 : Nat) : ℝ) := by
        have hR2 : (2 : ℝ) ≤ R := by exact_mod_cast h2 rfl
        have hb1 : (1 : ℝ) ≤ (R : ℝ) ^ (1 / (R : ℝ)) := Real.one_le_rpow (by linarith) (by positivity)
        have hlast : ∀ x, x ∈ ringDists n R 0 → x ≤ ((n / 2 : Nat) : ℝ) := by
          intro x hx
          unfold ringDists at hx
          rw [List.mem_map] at hx
          obtain ⟨k, hk, rfl⟩ := hx
          rw [List.mem_range] at hk
          have hle : ((R : ℝ) ^ (1 / (R : ℝ))) ^ (k + 1) ≤ R := by
            rw [← base_pow R hR]
            conv_lhs => rw [base_pow R hR]
            exact pow_le_pow_right₀ hb1 (by omega)
          rw [hctr]
          simp only [ite_self, add_zero]
          have : (((R : ℝ) ^ (1 / (R : ℝ))) ^ (k + 1) - 1) / ((R : ℝ) - 1) ≤ 1 := by
            rw [div_le_one (by linarith)]
            linarith
          exact mul_le_of_le_one_left (by positivity) this
        have hmem : ((n / 2 : Nat) : ℝ) ∈ ringDists n R 0 := by
          unfold ringDists
          rw [List.mem_map]
          refine ⟨R - 1, by rw [List.mem_range]; omega, ?_⟩
          have : R - 1 + 1 = R := by omega
          rw [this, base_pow R hR, hctr]
          simp only [if_true, add_zero]
          rw [div_self (by linarith), one_mul]
        constructor
        · intro hlt
          have := List.findIdx_getElem (w := by rw [hlen]; exact hlt)
          rw [decide_eq_true_eq] at this
          exact this.trans (hlast _ (List.getElem_mem _))
        · intro hle
          have := List.findIdx_lt_length_of_exists (p := fun (d : ℝ) => decide (dist (((n / 2 : Nat) : Int) - r) (((n / 2 : Nat) : Int) - c) ≤ d))
            ⟨_, hmem, decide_eq_true hle⟩
          rwa [hlen] at this
      have hdd : dist (((n / 2 : Nat) : Int) - r) (((n / 2 : Nat) : Int) - c) ≤ ((n / 2 : Nat) : ℝ) ↔
          ((r : Int) - (n / 2 : Nat)) ^ 2 + ((c : Int) - (n / 2 : Nat)) ^ 2 ≤ ((n / 2 : Nat) : Int) ^ 2 := by
        rw [← abs_of_nonneg (hd _ _), ← abs_of_nonneg (a := ((n / 2 : Nat) : ℝ)) (by positivity), ← sq_le_sq, hd2]
        have : (((n / 2 : Nat) : Int) - r) ^ 2 + (((n / 2 : Nat) : Int) - c) ^ 2 = ((r : Int) - (n / 2 : Nat)) ^ 2 + ((c : Int) - (n / 2 : Nat)) ^ 2 := by ring
        rw [this, cast_le_sq]
      rw [← hdd, ← hidx]
      split
      · rename_i hlt; exact ⟨fun _ => ⟨hcpos, hlt⟩, fun _ => by simp⟩
      · rename_i hlt; exact ⟨fun h => absurd rfl h, fun h => absurd h.2 hlt⟩
  | false =>
    simp only [Bool.false_eq_true, if_false] at h
    split at h
    · cases h
    · split at h
      · cases h
      · rename_i hn3
        injection h with h
        subst h
        have hdiv' := hdiv.resolve_left (by simp)
        have hnone : (scan n (chatfieldCell n R A (radBin n R) deg)).cell (r * n + c) ≠ -1 ↔ chatfieldCell n R A (radBin n R) deg r c ≠ none := by
          rw [(scan_spec _ _).1, if_pos hk, e1, e2]
          cases hv : chatfieldCell n R A (radBin n R) deg r c with
          | none => simp
          | some v =>
            have := chatfield_range n R A _ _ hA hdiv' r c v hv
            simp only [Option.getD_some, ne_eq, reduceCtorEq, not_false_eq_true, iff_true]; omega
        dsimp only
        rw [hnone]
        simp only [Bool.false_eq_true, if_false]
        unfold chatfieldCell
        dsimp only
        by_cases hcen : ((r : Int) - (n / 2 : Nat)) = 0 ∧ ((c : Int) - (n / 2 : Nat)) = 0
        · rw [if_pos hcen, hcen.1, hcen.2]
          simp
        · rw [if_neg hcen]
          have hcpos : 0 < ((r : Int) - (n / 2 : Nat)) ^ 2 + ((c : Int) - (n / 2 : Nat)) ^ 2 := by
            have h0 := hnonneg ((r : Int) - (n / 2 : Nat)) ((c : Int) - (n / 2 : Nat))
            have : 0 ≤ ((r : Int) - (n / 2 : Nat)) ^ 2 + ((c : Int) - (n / 2 : Nat)) ^ 2 := by positivity
            omega
          have hrad : 2 ≤ n / 2 := by
            by_contra hlt
            have : n = 1 := by omega
            subst this
            omega
          have hrad' : (2 : ℝ) ≤ ((n / 2 : Nat) : ℝ) := by exact_mod_cast hrad
          have hlog : 0 < Real.logb 10 ((n / 2 : Nat) : ℝ) := Real.logb_pos (by norm_num) (by linarith)
          generalize hy : ((r : Int) - (n / 2 : Nat)) = y at *
          generalize hx : ((c : Int) - (n / 2 : Nat)) = x at *
          have hge1 : (1 : ℝ) ≤ dist y x := by
            have h1 : (1 : ℝ) ≤ (dist y x) ^ 2 := by rw [hd2]; exact_mod_cast hcpos
            nlinarith [hd y x]
          have hlogd : 0 ≤ Real.logb 10 (dist y x) := Real.logb_nonneg (by norm_num) hge1
          have hRpos : (0 : ℝ) < R := by exact_mod_cast hR
          have hb0 : 0 ≤ radBin n R y x := by
            unfold radBin
            apply Int.floor_nonneg.2
            positivity
          have hb1 : radBin n R y x < R ↔ y ^ 2 + x ^ 2 < ((n / 2 : Nat) : Int) ^ 2 := by
            unfold radBin
            rw [Int.floor_lt]
            have e : Real.logb 10 (dist y x) * ((R : ℝ) / Real.logb 10 ((n / 2 : Nat) : ℝ)) < ((R : Int) : ℝ) ↔
                Real.logb 10 (dist y x) < Real.logb 10 ((n / 2 : Nat) : ℝ) := by
              rw [mul_div_assoc', div_lt_iff₀ hlog]
              push_cast
              constructor
              · intro h; nlinarith
              · intro h; nlinarith
            rw [e, Real.logb_lt_logb_iff (by norm_num) (by linarith) (by linarith)]
            rw [← abs_of_nonneg (hd y x), ← abs_of_nonneg (a := ((n / 2 : Nat) : ℝ)) (by positivity), ← sq_lt_sq, hd2, cast_lt_sq]
          rw [← hb1]
          split
          · rename_i hlt; simp [hlt.2, hcpos]
          · rename_i hlt
            have : ¬ radBin n R y x < R := fun h => hlt ⟨hb0, h⟩
            simp [this]

theorem dist_hyp (y x : Int) : dist y x = Spec.hyp y x := by
  unfold dist Spec.hyp
  congr 1
  push_cast
  ring

/-- **C98 (bins of Lienhart's mask).** A cell of bin `v` is in angular sector `v / R` (in turns, from the direction opposite to the rows' order),
and `v % R` counts the rings from the outside: the cell is in that ring and outside of all smaller ones. -/
theorem lienhart_geometry (n R A : Nat) (off : ℝ) (m : Mask) (h : getLogPolarMask n R A true off = some m) (r c : Nat) (hr : r < n) (hc : c < n) (v : Nat)
    (hv : m.cell (r * n + c) = (v : Int)) :
    let y : Int := ((n / 2 : Nat) : Int) - r
    let x : Int := ((n / 2 : Nat) : Int) - c
    let angle := Complex.arg ⟨(y : ℝ), (x : ℝ)⟩ + Real.pi
    (v / R < A ∧ (((v / R : Nat) : ℝ) * (2 * Real.pi) / A ≤ angle ∧ angle < ((v / R : Nat) + 1 : ℝ) * (2 * Real.pi) / A ∨ angle = 2 * Real.pi ∧ v / R = 0)) ∧
    Spec.hyp y x ≤ Spec.ring (n / 2 : Nat) R off (R - 1 - v % R) ∧ ∀ b, b < R - 1 - v % R → Spec.ring (n / 2 : Nat) R off b < Spec.hyp y x := by
  unfold getLogPolarMask at h
  split at h
  swap
  · cases h
  rename_i hcond
  obtain ⟨_, hn, hR, hA, _, _⟩ := hcond
  simp only [if_true] at h
  injection h with h
  subst h
  have hpos : 0 < n := by omega
  have hk : r * n + c < n * n := by
    have : (r + 1) * n ≤ n * n := Nat.mul_le_mul_right n hr
    have e : (r + 1) * n = r * n + n := by ring
    omega
  have e1 : (r * n + c) / n = r := by rw [mul_comm, Nat.mul_add_div hpos, Nat.div_eq_of_lt hc, add_zero]
  have e2 : (r * n + c) % n = c := by rw [mul_comm, Nat.mul_add_mod, Nat.mod_eq_of_lt hc]
  rw [(scan_spec _ _).1, if_pos hk, e1, e2] at hv
  have hctr : (n - 1) / 2 = n / 2 := by omega
  unfold lienhartCell at hv
  dsimp only at hv
  rw [hctr] at hv
  split at hv
  · simp at hv
  split at hv
  swap
  · simp at hv
  rename_i hb
  dsimp only
  rw [Option.getD_some] at hv
  generalize hy : ((n / 2 : Nat) : Int) - r = y at *
  generalize hx : ((n / 2 : Nat) : Int) - c = x at *
  have hrings : (ringDists n R off).length = R := by simp [ringDists]
  have hring : ∀ (k : Nat) (hk : k < (ringDists n R off).length), (ringDists n R off)[k] = Spec.ring (n / 2 : Nat) R off k := by
    intro k hk
    have hget : (ringDists n R off)[k] = (((R : ℝ) ^ (1 / (R : ℝ))) ^ (k + 1) - 1) / ((R : ℝ) - 1) * (((n - 1) / 2 : Nat) : ℝ) +
        if k = R - 1 then 0 else off := by simp [ringDists]
    rw [hget, hctr]
    unfold Spec.ring
    have hR' : (0 : ℝ) ≤ R := by positivity
    rw [← Real.rpow_natCast, ← Real.rpow_mul hR', one_div_mul_eq_div]
    have : k = R - 1 ↔ k + 1 = R := by omega
    simp only [this]
  have hv' : turn A y x % A * R + (R - 1 - (ringDists n R off).findIdx fun (d : ℝ) => decide (dist y x ≤ d)) = v := by exact_mod_cast hv
  have hfind := List.findIdx_getElem (xs := ringDists n R off) (p := fun (d : ℝ) => decide (dist y x ≤ d)) (w := by rw [hrings]; exact hb)
  have hsmall : ∀ b, b < (ringDists n R off).findIdx (fun (d : ℝ) => decide (dist y x ≤ d)) → Spec.ring (n / 2 : Nat) R off b < dist y x := by
    intro b hlt
    have := List.not_of_lt_findIdx hlt
    rw [decide_eq_false_iff_not] at this
    rw [hring] at this
    exact not_le.1 this
  rw [decide_eq_true_eq, hring] at hfind
  generalize (ringDists n R off).findIdx (fun (d : ℝ) => decide (dist y x ≤ d)) = b0 at *
  have hdiv : v / R = turn A y x % A := by
    rw [← hv', mul_comm, Nat.mul_add_div hR, Nat.div_eq_of_lt (by omega), add_zero]
  have hmod : R - 1 - v % R = b0 := by
    have : v % R = R - 1 - b0 := by
      rw [← hv', mul_comm, Nat.mul_add_mod, Nat.mod_eq_of_lt (by omega)]
    omega
  rw [hmod, ← dist_hyp]
  refine ⟨?_, hfind, hsmall⟩
  rw [hdiv]
  refine ⟨Nat.mod_lt _ hA, ?_⟩
  have hA' : (0 : ℝ) < A := by exact_mod_cast hA
  have hpi := Real.pi_pos
  have hlo := Complex.neg_pi_lt_arg ⟨(y : ℝ), (x : ℝ)⟩
  have hhi := Complex.arg_le_pi ⟨(y : ℝ), (x : ℝ)⟩
  unfold turn
  generalize Complex.arg ⟨(y : ℝ), (x : ℝ)⟩ = t at *
  by_cases htop : t = Real.pi
  · right
    subst htop
    refine ⟨by ring, ?_⟩
    have : (Real.pi + Real.pi) * (A : ℝ) / (2 * Real.pi) = A := by field_simp; ring
    rw [this, Nat.floor_natCast, Nat.mod_self]
  · left
    have hlt : t < Real.pi := lt_of_le_of_ne hhi htop
    have hq0 : 0 ≤ (t + Real.pi) * (A : ℝ) / (2 * Real.pi) := by
      apply div_nonneg (mul_nonneg (by linarith) hA'.le) (by linarith)
    have hqA : (t + Real.pi) * (A : ℝ) / (2 * Real.pi) < A := by
      rw [div_lt_iff₀ (by linarith)]
      nlinarith
    have hfl : ⌊(t + Real.pi) * (A : ℝ) / (2 * Real.pi)⌋₊ < A := (Nat.floor_lt hq0).2 hqA
    rw [Nat.mod_eq_of_lt hfl]
    have h1 := Nat.floor_le hq0
    have h2 := Nat.lt_floor_add_one ((t + Real.pi) * (A : ℝ) / (2 * Real.pi))
    generalize (⌊(t + Real.pi) * (A : ℝ) / (2 * Real.pi)⌋₊ : ℝ) = s at *
    rw [le_div_iff₀ (by linarith)] at h1
    rw [div_lt_iff₀ (by linarith)] at h2
    constructor
    · rw [div_le_iff₀ hA']; exact h1
    · rw [lt_div_iff₀ hA']; exact h2

/-- **C98 (bins of Chatfield's mask).** A cell of bin `v` has logarithmic ring `b`, counted from the outside by `v % R`: its distance lies between the
powers `b/R` and `(b+1)/R` of the radius; `v / R` is the sector of the angle rounded to a degree `t`, sectors being centred on multiples of their width. -/
theorem chatfield_geometry (n R A : Nat) (hdiv : 360 % A = 0) (m : Mask) (h : getLogPolarMask n R A false 0 = some m) (r c : Nat) (hr : r < n) (hc : c < n)
    (v : Nat) (hv : m.cell (r * n + c) = (v : Int)) :
    let y : Int := (r : Int) - (n / 2 : Nat)
    let x : Int := (c : Int) - (n / 2 : Nat)
    let angle := Complex.arg ⟨(x : ℝ), (y : ℝ)⟩ / Real.pi * 180
    let b := R - 1 - v % R
    (((n / 2 : Nat) : ℝ) ^ ((b : ℝ) / R) ≤ Spec.hyp y x ∧ Spec.hyp y x < ((n / 2 : Nat) : ℝ) ^ (((b : ℝ) + 1) / R)) ∧
    ∃ t : Nat, (|(t : ℝ) - angle| ≤ 1 / 2 ∨ |(t : ℝ) - (angle + 360)| ≤ 1 / 2) ∧ v / R = (t + 360 / A / 2) % 360 / (360 / A) := by
  unfold getLogPolarMask at h
  split at h
  swap
  · cases h
  rename_i hcond
  obtain ⟨_, hn, hR, hA, _, _⟩ := hcond
  simp only [Bool.false_eq_true, if_false] at h
  split at h
  · cases h
  split at h
  · cases h
  rename_i hn3
  injection h with h
  subst h
  have hpos : 0 < n := by omega
  have hk : r * n + c < n * n := by
    have : (r + 1) * n ≤ n * n := Nat.mul_le_mul_right n hr
    have e : (r + 1) * n = r * n + n := by ring
    omega
  have e1 : (r * n + c) / n = r := by rw [mul_comm, Nat.mul_add_div hpos, Nat.div_eq_of_lt hc, add_zero]
  have e2 : (r * n + c) % n = c := by rw [mul_comm, Nat.mul_add_mod, Nat.mod_eq_of_lt hc]
  rw [(scan_spec _ _).1, if_pos hk, e1, e2] at hv
  unfold chatfieldCell at hv
  dsimp only at hv ⊢
  have hsmall : n = 1 → ((r : Int) - (n / 2 : Nat)) = 0 ∧ ((c : Int) - (n / 2 : Nat)) = 0 := by
    rintro rfl; omega
  generalize ((r : Int) - (n / 2 : Nat)) = y at *
  generalize ((c : Int) - (n / 2 : Nat)) = x at *
  split at hv
  · simp at hv
  rename_i hcen
  split at hv
  swap
  · simp at hv
  rename_i hb
  rw [Option.getD_some] at hv
  obtain ⟨b0, hb0⟩ : ∃ b0 : Nat, radBin n R y x = (b0 : Int) := ⟨(radBin n R y x).toNat, by omega⟩
  rw [hb0] at hv hb
  have hb1 : b0 < R := by omega
  have hv' : (deg y x + 360 / A / 2) % 360 / (360 / A) * R + (R - 1 - b0) = v := by
    have : ((((deg y x + 360 / A / 2) % 360 / (360 / A)) * R + (R - 1 - b0) : Nat) : Int) = (v : Int) := by
      rw [← hv]
      push_cast
      omega
    exact_mod_cast this
  have hdv : v / R = (deg y x + 360 / A / 2) % 360 / (360 / A) := by
    rw [← hv', mul_comm, Nat.mul_add_div hR, Nat.div_eq_of_lt (show R - 1 - b0 < R by omega), add_zero]
  have hmod : R - 1 - v % R = b0 := by
    have : v % R = R - 1 - b0 := by
      rw [← hv', mul_comm, Nat.mul_add_mod, Nat.mod_eq_of_lt (by omega)]
    omega
  rw [hmod, hdv]
  refine ⟨?_, deg y x, ?_, rfl⟩
  · have hrad : 2 ≤ n / 2 := by
      by_contra hlt
      have : n = 1 := by omega
      exact hcen (hsmall this)
    have hrad' : (2 : ℝ) ≤ ((n / 2 : Nat) : ℝ) := by exact_mod_cast hrad
    have hlog : 0 < Real.logb 10 ((n / 2 : Nat) : ℝ) := Real.logb_pos (by norm_num) (by linarith)
    have hR' : (0 : ℝ) < R := by exact_mod_cast hR
    have hge : 0 < dist y x := by
      unfold dist
      apply Real.sqrt_pos.2
      have : 0 < y * y + x * x := by
        by_contra hle
        have h1 := mul_self_nonneg y
        have h2 := mul_self_nonneg x
        have h3 : y * y = 0 := by omega
        have h4 : x * x = 0 := by omega
        exact hcen ⟨mul_self_eq_zero.1 h3, mul_self_eq_zero.1 h4⟩
      exact_mod_cast this
    unfold radBin at hb0
    rw [Int.floor_eq_iff] at hb0
    obtain ⟨g1, g2⟩ := hb0
    rw [← dist_hyp]
    rw [mul_div_assoc', le_div_iff₀ hlog] at g1
    rw [mul_div_assoc', div_lt_iff₀ hlog] at g2
    have hb10 : (1 : ℝ) < 10 := by norm_num
    have hr0 : (0 : ℝ) < ((n / 2 : Nat) : ℝ) := by linarith
    push_cast at g1 g2
    constructor
    · rw [← Real.logb_le_logb hb10 (by positivity) hge, Real.logb_rpow_eq_mul_logb_of_pos hr0, div_mul_eq_mul_div, div_le_iff₀ hR']
      push_cast
      linarith
    · rw [← Real.logb_lt_logb_iff hb10 hge (by positivity), Real.logb_rpow_eq_mul_logb_of_pos hr0, div_mul_eq_mul_div, lt_div_iff₀ hR']
      push_cast
      linarith
  · have hpi := Real.pi_pos
    have hlo := Complex.neg_pi_lt_arg ⟨(x : ℝ), (y : ℝ)⟩
    unfold deg
    dsimp only
    generalize Complex.arg ⟨(x : ℝ), (y : ℝ)⟩ = t at *
    have hlo' : -180 < t / Real.pi * 180 := by
      have : -1 < t / Real.pi := by rw [lt_div_iff₀ hpi]; linarith
      linarith
    generalize t / Real.pi * 180 = a at *
    by_cases ha : a < 0
    · right
      rw [if_pos ha, abs_le]
      have h1 := Nat.floor_le (show 0 ≤ a + 360 + 1 / 2 by linarith)
      have h2 := Nat.lt_floor_add_one (a + 360 + 1 / 2)
      constructor <;> linarith
    · left
      rw [if_neg ha, abs_le]
      have h1 := Nat.floor_le (show 0 ≤ a + 1 / 2 by linarith)
      have h2 := Nat.lt_floor_add_one (a + 1 / 2)
      constructor <;> linarith

/-- **C98 (one radial bin, refuted).** Lienhart's mask with one radial bin and no offset has no cell at all (in `float`, its only ring has
distance 0/0). -/
theorem mask_one_ring_refuted (n A : Nat) (m : Mask) (h : getLogPolarMask n 1 A true 0 = some m) : ∀ k, m.cell k = -1 := by
  unfold getLogPolarMask at h
  split at h
  swap
  · cases h
  simp only [if_true] at h
  injection h with h
  subst h
  intro k
  rw [(scan_spec _ _).1]
  split
  · unfold lienhartCell
    dsimp only
    split
    · rfl
    · rename_i hcen
      have hpos : ∀ r c : Nat, ¬ (r = (n - 1) / 2 ∧ c = (n - 1) / 2) → ¬ dist ((((n - 1) / 2 : Nat) : Int) - r) ((((n - 1) / 2 : Nat) : Int) - c) ≤ 0 := by
        intro r c hne hle
        have h0 : dist ((((n - 1) / 2 : Nat) : Int) - r) ((((n - 1) / 2 : Nat) : Int) - c) = 0 := le_antisymm hle (Real.sqrt_nonneg _)
        unfold dist at h0
        have hnn : 0 ≤ (((((n - 1) / 2 : Nat) : Int) - r) * ((((n - 1) / 2 : Nat) : Int) - r) + ((((n - 1) / 2 : Nat) : Int) - c) * ((((n - 1) / 2 : Nat) : Int) - c)) :=
          add_nonneg (mul_self_nonneg _) (mul_self_nonneg _)
        rw [Real.sqrt_eq_zero (by exact_mod_cast hnn)] at h0
        have h1 : (((((n - 1) / 2 : Nat) : Int) - r) * ((((n - 1) / 2 : Nat) : Int) - r) + ((((n - 1) / 2 : Nat) : Int) - c) * ((((n - 1) / 2 : Nat) : Int) - c)) = 0 := by
          exact_mod_cast h0
        generalize ((n - 1) / 2 : Nat) = q at *
        have h2 : ((q : Int) - r) = 0 := by nlinarith [mul_self_nonneg ((q : Int) - r), mul_self_nonneg ((q : Int) - c)]
        have h3 : ((q : Int) - c) = 0 := by nlinarith [mul_self_nonneg ((q : Int) - r), mul_self_nonneg ((q : Int) - c)]
        omega
      rw [if_neg]
      · rfl
      · have hr : ringDists n 1 0 = [0] := by simp [ringDists]
        rw [hr]
        simp only [List.findIdx_cons, decide_eq_false (hpos _ _ hcen), cond_false, List.findIdx_nil]
        decide
  · rfl

/-- The masks of size 41 with 3 rings and 12 sectors give a bin to the cell 19 columns left of the centre. -/
example (l : Bool) : ∃ m, getLogPolarMask 41 3 12 l 0 = some m ∧ ∃ v : Nat, m.cell (20 * 41 + 1) = (v : Int) := by
  obtain ⟨m, hm⟩ := mask_defined 41 3 12 l 0 (by decide) (by decide) (by decide) le_rfl (by cases l <;> simp)
  refine ⟨m, hm, ?_⟩
  have h1 := (mask_disc 41 3 12 l m hm (fun _ => by decide) (by right; decide) 20 1 (by decide) (by decide)).2 (by cases l <;> simp)
  have h2 := ((mask_proper 41 3 12 l 0 m hm (by right; decide)).bins (20 * 41 + 1) (by decide)).resolve_left h1
  exact ⟨(m.cell (20 * 41 + 1)).toNat, by omega⟩

example : (∃ m, getLogPolarMask 41 3 12 true 0 = some m) ∧ (∃ m, getLogPolarMask 41 3 12 false 0 = some m) ∧ 360 % 12 = 0 :=
  ⟨mask_defined 41 3 12 true 0 (by decide) (by decide) (by decide) le_rfl (Or.inl rfl),
    mask_defined 41 3 12 false 0 (by decide) (by decide) (by decide) le_rfl (Or.inr ⟨rfl, by decide, by decide⟩), by decide⟩

/-! ## C99 -/

/-- A constructed object: its mask is usable if it is Lienhart's or the number of angular bins divides 360. -/
theorem construct_ok (inner outer patch A R : Nat) (var : ℝ) (normalize lienhart : Bool) (p : Par)
    (h : construct inner outer patch A R var normalize lienhart = some p) (hdiv : lienhart = true ∨ 360 % A = 0) :
    Ok p ∧ p.outer = outer ∧ p.patch = patch ∧ p.bins = R * A ∧ p.var = var ∧ p.normalize = normalize ∧ 0 < R * A := by
  unfold construct at h
  split at h
  swap
  · cases h
  rename_i hc
  obtain ⟨h1, h2, h3, h4, h5, h6, h7, h8⟩ := hc
  rw [Option.map_eq_some_iff] at h
  obtain ⟨m, hm, rfl⟩ := h
  have hp := mask_proper _ R A lienhart inner m hm hdiv
  have hcorr : (Par.mk outer patch (R * A) var normalize m).corr = outer * 2 + patch - patch + 1 := rfl
  refine ⟨⟨h2, ?_, ?_, ?_, h8⟩, rfl, rfl, rfl, rfl, rfl, Nat.mul_pos h6 h7⟩
  · rw [hcorr]; exact hp.bins
  · rw [hcorr]; exact hp.between
  · rw [hcorr]; exact hp.last

/-- Where the window of a pixel is inside the image. -/
def Inner (p : Par) (im : Image) (r c : Nat) : Prop := p.win / 2 ≤ r ∧ r + p.win / 2 < im.rows ∧ p.win / 2 ≤ c ∧ c + p.win / 2 < im.cols

theorem raw_inner (p : Par) (im : Image) (r c b : Nat) (h : Inner p im r c) : rawElem p im r c b = binVal p im r c b := if_pos h

theorem raw_outer (p : Par) (im : Image) (r c b : Nat) (h : ¬ Inner p im r c) : rawElem p im r c b = 0 := if_neg h

/-- The raw value of a bin: `exp(-m/var)` where `m` is the smallest difference between the patch at the pixel and the patches at the cells of the bin
(the largest `float` if there are none). -/
def IsBin (p : Par) (im : Image) (r c b : Nat) (x : ℝ) : Prop :=
  ∃ m, IsLeast (insert fltMax {x | ∃ k < p.corr * p.corr, p.mask.cell k = (b : Int) ∧
      x = ((Spec.patchDiff im.px im.chans (p.patch / 2) r c (r + k / p.corr - p.outer) (c + k % p.corr - p.outer) : Int) : ℝ)}) m ∧
    x = Real.exp (-(m / p.var))

theorem dense_raw (p : Par) (im : Image) (order : List Nat) (old : Nat → ℝ) (h : Ok p) (hw : p.win ≤ im.cols) (hh : p.win ≤ im.rows)
    (ho : order.Perm (rowIters p im)) :
    ∃ buf, dense p im order old = some buf ∧ ∀ r c b, r < im.rows → c < im.cols → b < p.bins →
      elem p im buf r c b = if p.normalize then Spec.unit p.bins (rawElem p im r c) b else rawElem p im r c b := by
  have hodd := h.odd
  have hw2 : p.win % 2 = 1 := by unfold Par.win; omega
  unfold dense
  dsimp only
  rw [if_pos ⟨hw, hh⟩]
  obtain ⟨b1, h1, e1⟩ := fill_rows p im 0 (p.win / 2) old (by omega)
  rw [zero_mul, zero_mul] at h1
  rw [h1, Option.bind_some]
  obtain ⟨b2, h2, e2⟩ := fill_rows p im (im.rows - p.win / 2) (p.win / 2) b1 (by omega)
  rw [h2, Option.bind_some]
  have hmem : ∀ r, r ∈ order ↔ (p.win / 2 ≤ r ∧ r + p.win / 2 < im.rows) := by
    intro r
    rw [ho.mem_iff]
    unfold rowIters
    rw [List.mem_map]
    constructor
    · rintro ⟨j, hj, rfl⟩
      rw [List.mem_range] at hj
      omega
    · rintro ⟨h1, h2⟩
      exact ⟨r - p.win / 2, by rw [List.mem_range]; omega, by omega⟩
  obtain ⟨b3, h3, e3⟩ := rows_fold p im h hw order (fun r hr => (hmem r).1 hr) b2
  rw [h3, Option.map_some]
  refine ⟨_, rfl, ?_⟩
  have hraw : ∀ r c b, r < im.rows → c < im.cols → b < p.bins → elem p im b3 r c b = rawElem p im r c b := by
    intro r c b hr hc hb
    rw [e3 r c b hc hb]
    by_cases hin : r ∈ order
    · rw [if_pos hin]
    · rw [if_neg hin, e2 r c b hc hb, e1 r c b hc hb]
      rw [hmem] at hin
      unfold rawElem
      rw [if_neg (show ¬ (p.win / 2 ≤ r ∧ r + p.win / 2 < im.rows ∧ p.win / 2 ≤ c ∧ c + p.win / 2 < im.cols) from fun h => hin ⟨h.1, h.2.1⟩)]
      by_cases hx : im.rows - p.win / 2 ≤ r ∧ r < im.rows - p.win / 2 + p.win / 2
      · rw [if_pos hx]
      · rw [if_neg hx, if_pos (by omega)]
  intro r c b hr hc hb
  by_cases hn : p.normalize
  · rw [if_pos hn, if_pos hn]
    unfold elem
    rw [normAll_spec _ _ _ _ _ hb, if_pos]
    · unfold Spec.unit Spec.norm
      dsimp only
      have hx := hraw r c b hr hc hb
      unfold elem at hx
      rw [hx, Finset.sum_congr rfl fun i hi => by
        have hy := hraw r c i hr hc (Finset.mem_range.1 hi)
        unfold elem at hy
        rw [hy]]
    · have : (r + 1) * im.cols ≤ im.rows * im.cols := Nat.mul_le_mul_right _ hr
      have e : (r + 1) * im.cols = r * im.cols + im.cols := by ring
      omega
  · rw [if_neg hn, if_neg hn]
    exact hraw r c b hr hc hb

/-- **C99 (values).** For every constructed object and image at least as large as the window, every order in which the threads process the rows,
and any content of the output matrix: an element of the map is the raw bin value at pixels whose window is inside the image, and zero at the
others; if asked for, each descriptor is then scaled to norm one (and made uniform if it is zero). -/
theorem dense_values (inner outer patch A R : Nat) (var : ℝ) (normalize lienhart : Bool) (p : Par)
    (h : construct inner outer patch A R var normalize lienhart = some p) (hdiv : lienhart = true ∨ 360 % A = 0) (im : Image)
    (hw : p.win ≤ im.cols) (hh : p.win ≤ im.rows) (order : List Nat) (ho : order.Perm (rowIters p im)) (old : Nat → ℝ) :
    ∃ buf, dense p im order old = some buf ∧ ∃ x : Nat → Nat → Nat → ℝ,
      (∀ r c b, (Inner p im r c → IsBin p im r c b (x r c b)) ∧ (¬ Inner p im r c → x r c b = 0)) ∧
      ∀ r c b, r < im.rows → c < im.cols → b < R * A →
        buf ((r * im.cols + c) * (R * A) + b) = if normalize then Spec.unit (R * A) (x r c) b else x r c b := by
  obtain ⟨hok, -, -, hb, hv, hn, -⟩ := construct_ok _ _ _ _ _ _ _ _ p h hdiv
  obtain ⟨buf, h1, h2⟩ := dense_raw p im order old hok hw hh ho
  refine ⟨buf, h1, fun r c b => rawElem p im r c b, fun r c b => ⟨fun hi => ?_, fun hi => ?_⟩, fun r c b hr hc hbb => ?_⟩
  · dsimp only
    rw [raw_inner p im r c b hi]
    exact binVal_least p im r c b hok hi.1 hi.2.2.1
  · exact raw_outer p im r c b hi
  · have := h2 r c b hr hc (by rw [hb]; exact hbb)
    unfold elem at this
    rw [hb, hn] at this
    exact this

theorem patchDiff_nonneg (px : Nat → Nat → Nat → Int) (chans h r c r' c' : Nat) : 0 ≤ Spec.patchDiff px chans h r c r' c' :=
  Finset.sum_nonneg fun _ _ => Finset.sum_nonneg fun _ _ => Finset.sum_nonneg fun _ _ => sq_nonneg _

/-- **C99 (raw range).** Raw bins are in (0, 1]; a bin is one exactly if one of its cells has the same patch as the pixel. -/
theorem bin_range (p : Par) (im : Image) (r c b : Nat) (x : ℝ) (hv : 0 < p.var) (h : IsBin p im r c b x) :
    0 < x ∧ x ≤ 1 ∧ (x = 1 ↔ ∃ k < p.corr * p.corr, p.mask.cell k = (b : Int) ∧
      Spec.patchDiff im.px im.chans (p.patch / 2) r c (r + k / p.corr - p.outer) (c + k % p.corr - p.outer) = 0) := by
  obtain ⟨m, ⟨hmem, hlow⟩, rfl⟩ := h
  have hbig : (0 : ℝ) < fltMax := by unfold fltMax; norm_num
  have hm : 0 ≤ m := by
    rcases hmem with rfl | ⟨k, _, _, rfl⟩
    · exact hbig.le
    · exact_mod_cast patchDiff_nonneg _ _ _ _ _ _ _
  have hq : 0 ≤ m / p.var := by positivity
  refine ⟨Real.exp_pos _, Real.exp_le_one_iff.2 (by linarith), ?_⟩
  rw [Real.exp_eq_one_iff, neg_eq_zero, div_eq_zero_iff, or_iff_left hv.ne']
  constructor
  · rintro rfl
    rcases hmem with h0 | ⟨k, hk, h1, h2⟩
    · exact absurd h0 (by exact hbig.ne)
    · exact ⟨k, hk, h1, by exact_mod_cast h2.symm⟩
  · rintro ⟨k, hk, h1, h2⟩
    apply le_antisymm _ hm
    exact hlow (Or.inr ⟨k, hk, h1, by rw [h2]; simp⟩)

theorem unit_props (D : Nat) (hD : 0 < D) (x : Nat → ℝ) (hx : ∀ b, 0 ≤ x b) :
    (∀ b, 0 ≤ Spec.unit D x b) ∧ ∑ b ∈ Finset.range D, Spec.unit D x b ^ 2 = 1 := by
  have hD' : (0 : ℝ) < D := by exact_mod_cast hD
  constructor
  · intro b
    unfold Spec.unit
    split
    · exact div_nonneg (hx b) (Real.sqrt_nonneg _)
    · exact Real.sqrt_nonneg _
  · unfold Spec.unit
    by_cases h : 1 / 1000000 < Spec.norm D x
    · simp only [if_pos h]
      have hpos : 0 < Spec.norm D x := by linarith
      have hsq : Spec.norm D x ^ 2 = ∑ b ∈ Finset.range D, x b ^ 2 := Real.sq_sqrt (Finset.sum_nonneg fun _ _ => sq_nonneg _)
      simp only [div_pow]
      rw [← Finset.sum_div, ← hsq, div_self (by positivity)]
    · simp only [if_neg h]
      rw [Finset.sum_const, Finset.card_range, Real.sq_sqrt (by positivity), nsmul_eq_mul]
      field_simp

/-- **C99 (normalized descriptors).** All descriptors of a normalized map, those of the border included, consist of non-negative numbers and have
norm one. -/
theorem dense_unit (inner outer patch A R : Nat) (var : ℝ) (lienhart : Bool) (p : Par)
    (h : construct inner outer patch A R var true lienhart = some p) (hdiv : lienhart = true ∨ 360 % A = 0) (im : Image)
    (hw : p.win ≤ im.cols) (hh : p.win ≤ im.rows) (order : List Nat) (ho : order.Perm (rowIters p im)) (old : Nat → ℝ) :
    ∃ buf, dense p im order old = some buf ∧ ∀ r c, r < im.rows → c < im.cols →
      (∀ b < R * A, 0 ≤ buf ((r * im.cols + c) * (R * A) + b)) ∧ ∑ b ∈ Finset.range (R * A), buf ((r * im.cols + c) * (R * A) + b) ^ 2 = 1 ∧
      (¬ Inner p im r c → ∀ b < R * A, buf ((r * im.cols + c) * (R * A) + b) = Real.sqrt (1 / (R * A : Nat))) := by
  obtain ⟨hok, -, -, hb, hv, hn, hD⟩ := construct_ok _ _ _ _ _ _ _ _ p h hdiv
  obtain ⟨buf, h1, x, hx, h2⟩ := dense_values inner outer patch A R var true lienhart p h hdiv im hw hh order ho old
  refine ⟨buf, h1, fun r c hr hc => ?_⟩
  have hnn : ∀ b, 0 ≤ x r c b := by
    intro b
    by_cases hi : Inner p im r c
    · exact (bin_range p im r c b _ hok.noise ((hx r c b).1 hi)).1.le
    · rw [(hx r c b).2 hi]
  obtain ⟨u1, u2⟩ := unit_props (R * A) hD (x r c) hnn
  refine ⟨fun b hb => ?_, ?_, fun hi b hb => ?_⟩
  · rw [h2 r c b hr hc hb, if_pos rfl]
    exact u1 b
  · rw [← u2]
    apply Finset.sum_congr rfl
    intro b hb
    rw [h2 r c b hr hc (Finset.mem_range.1 hb), if_pos rfl]
  · rw [h2 r c b hr hc hb, if_pos rfl]
    have hz : x r c = fun _ => 0 := funext fun b => (hx r c b).2 hi
    unfold Spec.unit Spec.norm
    rw [hz]
    simp

/-- **C99 (brightness).** Adding a constant to each channel of the image does not change the result. -/
theorem dense_shift (p : Par) (im : Image) (v : Nat → Int) (order : List Nat) (old : Nat → ℝ) :
    dense p { im with px := fun r c ch => im.px r c ch + v ch } order old = dense p im order old := by
  have hcorr : ∀ r c k, corrAt p { im with px := fun r c ch => im.px r c ch + v ch } r c k = corrAt p im r c k := by
    intro r c k
    unfold corrAt
    dsimp only
    simp only [add_sub_add_right_eq_sub]
  have hbin : ∀ r c t k, binStep p { im with px := fun r c ch => im.px r c ch + v ch } r c t k = binStep p im r c t k := by
    intro r c t k
    unfold binStep
    simp only [hcorr]
  have hdesc : ∀ r c, describe p { im with px := fun r c ch => im.px r c ch + v ch } r c = describe p im r c := by
    intro r c
    unfold describe
    have : binStep p { im with px := fun r c ch => im.px r c ch + v ch } r c = binStep p im r c := by
      funext t k
      exact hbin r c t k
    rw [this]
  have hpix : ∀ r, pixel p { im with px := fun r c ch => im.px r c ch + v ch } r = pixel p im r := by
    intro r
    funext b c
    unfold pixel
    rw [hdesc]
  have hrow : row p { im with px := fun r c ch => im.px r c ch + v ch } = row p im := by
    funext b r
    unfold row
    rw [hpix]
  unfold dense
  rw [hrow]

/-- **C99 (locality).** The descriptor of a pixel depends only on the pixels of its window. -/
theorem bin_local (p : Par) (im im' : Image) (r c b : Nat) (x x' : ℝ) (hodd : p.patch % 2 = 1) (hch : im'.chans = im.chans)
    (hr : p.win / 2 ≤ r) (hc : p.win / 2 ≤ c)
    (hsame : ∀ i j ch, i < p.win → j < p.win → im'.px (r - p.win / 2 + i) (c - p.win / 2 + j) ch = im.px (r - p.win / 2 + i) (c - p.win / 2 + j) ch)
    (h : IsBin p im r c b x) (h' : IsBin p im' r c b x') : x = x' := by
  obtain ⟨m, hm, rfl⟩ := h
  obtain ⟨m', hm', rfl⟩ := h'
  have hdiff : ∀ k < p.corr * p.corr, Spec.patchDiff im'.px im'.chans (p.patch / 2) r c (r + k / p.corr - p.outer) (c + k % p.corr - p.outer) =
      Spec.patchDiff im.px im.chans (p.patch / 2) r c (r + k / p.corr - p.outer) (c + k % p.corr - p.outer) := by
    intro k hk
    have hq : k / p.corr < p.corr := Nat.div_lt_of_lt_mul hk
    have hq' : k % p.corr < p.corr := Nat.mod_lt _ (by rw [corr_eq]; omega)
    rw [corr_eq] at hq hq'
    rw [win_half p hodd] at hr hc hsame
    have hwin : p.win = 2 * p.outer + p.patch := by unfold Par.win; omega
    rw [hwin] at hsame
    unfold Spec.patchDiff
    rw [hch]
    rw [corr_eq]
    generalize k / (2 * p.outer + 1) = y at hq ⊢
    generalize k % (2 * p.outer + 1) = z at hq' ⊢
    apply Finset.sum_congr rfl
    intro i hi
    apply Finset.sum_congr rfl
    intro j hj
    apply Finset.sum_congr rfl
    intro ch _
    rw [Finset.mem_range] at hi hj
    have a1 := hsame (y + i) (z + j) ch (by omega) (by omega)
    have a2 := hsame (p.outer + i) (p.outer + j) ch (by omega) (by omega)
    have e1 : r + y - p.outer + i - p.patch / 2 = r - (p.outer + p.patch / 2) + (y + i) := by omega
    have e2 : c + z - p.outer + j - p.patch / 2 = c - (p.outer + p.patch / 2) + (z + j) := by omega
    have e3 : r + i - p.patch / 2 = r - (p.outer + p.patch / 2) + (p.outer + i) := by omega
    have e4 : c + j - p.patch / 2 = c - (p.outer + p.patch / 2) + (p.outer + j) := by omega
    rw [e1, e2, e3, e4, a1, a2]
  have hset : {x | ∃ k < p.corr * p.corr, p.mask.cell k = (b : Int) ∧
      x = ((Spec.patchDiff im'.px im'.chans (p.patch / 2) r c (r + k / p.corr - p.outer) (c + k % p.corr - p.outer) : Int) : ℝ)} =
      {x | ∃ k < p.corr * p.corr, p.mask.cell k = (b : Int) ∧
      x = ((Spec.patchDiff im.px im.chans (p.patch / 2) r c (r + k / p.corr - p.outer) (c + k % p.corr - p.outer) : Int) : ℝ)} := by
    ext x
    simp only [Set.mem_setOf_eq]
    constructor
    · rintro ⟨k, hk, h1, h2⟩; exact ⟨k, hk, h1, by rw [h2, hdiff k hk]⟩
    · rintro ⟨k, hk, h1, h2⟩; exact ⟨k, hk, h1, by rw [h2, hdiff k hk]⟩
  rw [hset] at hm'
  rw [hm.unique hm']

/-- **C99 (distances).** Descriptors of non-negative numbers with norm one are at distance at most √2; equal ones are at distance zero, and the
distance is symmetric. -/
theorem distance_bounds (D : Nat) (x y : Nat → ℝ) (hx : ∀ b < D, 0 ≤ x b) (hy : ∀ b < D, 0 ≤ y b) (nx : ∑ b ∈ Finset.range D, x b ^ 2 = 1)
    (ny : ∑ b ∈ Finset.range D, y b ^ 2 = 1) :
    let d := calcDistance ((List.range D).map x) ((List.range D).map y)
    0 ≤ d ∧ d ≤ Real.sqrt 2 ∧ (d = 0 ↔ ∀ b < D, x b = y b) ∧ d = calcDistance ((List.range D).map y) ((List.range D).map x) := by
  have hzip : ∀ (u v : Nat → ℝ), (List.zipWith (fun (u v : ℝ) => (u - v) ^ 2) ((List.range D).map u) ((List.range D).map v)).sum = ∑ b ∈ Finset.range D, (u b - v b) ^ 2 := by
    intro u v
    rw [List.zipWith_map, List.zipWith_self, sum_map_range_real]
  unfold calcDistance
  dsimp only
  rw [hzip, hzip]
  refine ⟨Real.sqrt_nonneg _, ?_, ?_, ?_⟩
  · apply Real.sqrt_le_sqrt
    have h : ∑ i ∈ Finset.range D, (x i - y i) ^ 2 ≤ ∑ i ∈ Finset.range D, (x i ^ 2 + y i ^ 2) := by
      apply Finset.sum_le_sum
      intro i hi
      nlinarith [mul_nonneg (hx i (Finset.mem_range.1 hi)) (hy i (Finset.mem_range.1 hi))]
    rw [Finset.sum_add_distrib, nx, ny] at h
    linarith
  · rw [Real.sqrt_eq_zero (Finset.sum_nonneg fun _ _ => sq_nonneg _), Finset.sum_eq_zero_iff_of_nonneg fun _ _ => sq_nonneg _]
    constructor
    · intro h b hb
      have := h b (Finset.mem_range.2 hb)
      rw [sq_eq_zero_iff, sub_eq_zero] at this
      exact this
    · intro h b hb
      rw [h b (Finset.mem_range.1 hb)]
      ring
  · congr 1
    apply Finset.sum_congr rfl
    intro b _
    ring

/-! ## C100 -/

theorem keep_mem (p : Par) (im : Image) (kps : List (Nat × Nat)) (k : Nat × Nat) : k ∈ keep p im kps ↔ k ∈ kps ∧ Inner p im k.1 k.2 := by
  unfold keep Inner
  rw [List.mem_filter, decide_eq_true_eq]
  constructor
  · rintro ⟨h, a⟩; exact ⟨h, by omega⟩
  · rintro ⟨h, a⟩; exact ⟨h, by omega⟩

theorem mapM_some {α β : Type} (f : α → Option β) (g : α → β) (l : List α) (h : ∀ a ∈ l, f a = some (g a)) : l.mapM f = some (l.map g) := by
  induction l with
  | nil => rfl
  | cons a l ih =>
    rw [List.mapM_cons, h a (by simp), ih fun b hb => h b (by simp [hb])]
    rfl

/-- **C100 (keypoints).** Exactly the keypoints whose window is inside the image are kept, in their order, and their descriptors are those of the
dense map. -/
theorem keypoints_dense (inner outer patch A R : Nat) (var : ℝ) (normalize lienhart : Bool) (p : Par)
    (h : construct inner outer patch A R var normalize lienhart = some p) (hdiv : lienhart = true ∨ 360 % A = 0) (im : Image)
    (hw : p.win ≤ im.cols) (hh : p.win ≤ im.rows) (order : List Nat) (ho : order.Perm (rowIters p im)) (old : Nat → ℝ) (kps : List (Nat × Nat)) :
    ∃ buf, dense p im order old = some buf ∧
      keypoints p im kps = some ((kps.filter fun k => decide (Inner p im k.1 k.2)).map fun k =>
        (List.range (R * A)).map fun b => buf ((k.1 * im.cols + k.2) * (R * A) + b)) := by
  obtain ⟨hok, -, -, hb, hv, hn, -⟩ := construct_ok _ _ _ _ _ _ _ _ p h hdiv
  obtain ⟨buf, h1, h2⟩ := dense_raw p im order old hok hw hh ho
  refine ⟨buf, h1, ?_⟩
  have hkeep : keep p im kps = kps.filter fun k => decide (Inner p im k.1 k.2) := by
    unfold keep
    apply List.filter_congr
    intro k _
    unfold Inner
    rw [decide_eq_decide]
    omega
  unfold keypoints
  rw [if_pos ⟨hw, hh⟩, mapM_some _ (fun k => (List.range p.bins).map fun b => binVal p im k.1 k.2 b), Option.map_some, hkeep]
  swap
  · intro k hk
    obtain ⟨_, a1, a2, a3, a4⟩ := (keep_mem p im kps k).1 hk
    exact describe_spec p im k.1 k.2 hok a1 a3 a2 a4
  congr 1
  have hval : ∀ k ∈ kps.filter (fun k => decide (Inner p im k.1 k.2)), ∀ b < R * A,
      buf ((k.1 * im.cols + k.2) * (R * A) + b) = if p.normalize then Spec.unit (R * A) (binVal p im k.1 k.2) b else binVal p im k.1 k.2 b := by
    intro k hk b hbb
    rw [List.mem_filter, decide_eq_true_eq] at hk
    obtain ⟨_, hin⟩ := hk
    have hraw : rawElem p im k.1 k.2 = binVal p im k.1 k.2 := by
      funext b
      exact raw_inner p im _ _ b hin
    obtain ⟨a1, a2, a3, a4⟩ := hin
    have := h2 k.1 k.2 b (by omega) (by omega) (by rw [hb]; exact hbb)
    unfold elem at this
    rw [hb, hraw] at this
    exact this
  by_cases hnn : p.normalize
  · rw [if_pos hnn, List.map_map]
    apply List.map_congr_left
    intro k hk
    simp only [Function.comp]
    rw [hb]
    apply List.map_congr_left
    intro b hbb
    rw [List.mem_range] at hbb
    rw [hval k hk b hbb, if_pos hnn]
    have hs := normStep_spec (R * A) (fun k_1 => ((List.range (R * A)).map fun b => binVal p im k.1 k.2 b).getD k_1 0) 0 0 b hbb
    rw [zero_mul, zero_add, if_pos rfl] at hs
    rw [hs]
    unfold Spec.unit Spec.norm
    have hg : ∀ i < R * A, ((List.range (R * A)).map fun b => binVal p im k.1 k.2 b).getD (0 + i) 0 = binVal p im k.1 k.2 i := by
      intro i hi
      rw [zero_add]
      simp [hi]
    dsimp only
    rw [hg b hbb, Finset.sum_congr rfl fun i hi => by rw [hg i (Finset.mem_range.1 hi)]]
  · rw [if_neg hnn]
    apply List.map_congr_left
    intro k hk
    rw [hb]
    apply List.map_congr_left
    intro b hbb
    rw [List.mem_range] at hbb
    rw [hval k hk b hbb, if_neg hnn]

theorem map_fold (p : Par) (im : Image) (h : Ok p) (ks : List (Nat × Nat)) (hks : ∀ k ∈ ks, Inner p im k.1 k.2) (buf : Nat → ℝ) :
    ∃ buf', ks.foldlM (fun (b : Nat → ℝ) (k : Nat × Nat) => pixel p im k.1 b k.2) buf = some buf' ∧
      ∀ r c b, c < im.cols → b < p.bins → elem p im buf' r c b = if (r, c) ∈ ks then binVal p im r c b else elem p im buf r c b := by
  induction ks generalizing buf with
  | nil => exact ⟨buf, rfl, fun r c b _ _ => by simp⟩
  | cons k ks ih =>
    obtain ⟨a1, a2, a3, a4⟩ := hks k (by simp)
    obtain ⟨b1, h1, h2⟩ := pixel_spec p im k.1 k.2 buf h a1 a3 a2 a4
    obtain ⟨b2, h3, h4⟩ := ih (fun k hk => hks k (by simp [hk])) b1
    refine ⟨b2, ?_, fun r c b hc hb => ?_⟩
    · rw [List.foldlM_cons, h1]
      exact h3
    · rw [h4 r c b hc hb, h2 r c b hc hb]
      have hx : ((r, c) = k) ↔ (r = k.1 ∧ c = k.2) := by
        constructor
        · rintro rfl; exact ⟨rfl, rfl⟩
        · rintro ⟨rfl, rfl⟩; rfl
      by_cases hy : (r, c) ∈ ks
      · simp [hy]
      · by_cases hz : r = k.1 ∧ c = k.2
        · simp [hz]
        · rw [if_neg hy, if_neg hz, if_neg]
          rw [List.mem_cons, hx]
          exact fun h => h.elim hz hy

/-- **C100 (maps of keypoints).** With at least one keypoint whose window is inside the image, the map has the dense descriptors at these keypoints. -/
theorem keypointMap_partial (inner outer patch A R : Nat) (var : ℝ) (normalize lienhart : Bool) (p : Par)
    (h : construct inner outer patch A R var normalize lienhart = some p) (hdiv : lienhart = true ∨ 360 % A = 0) (im : Image)
    (hw : p.win ≤ im.cols) (hh : p.win ≤ im.rows) (order : List Nat) (ho : order.Perm (rowIters p im)) (old old' : Nat → ℝ) (kps : List (Nat × Nat))
    (hk : ∃ k ∈ kps, Inner p im k.1 k.2) :
    ∃ buf, dense p im order old = some buf ∧ ∃ buf', keypointMap p im kps old' = some (some buf') ∧
      ∀ r c b, (r, c) ∈ kps → Inner p im r c → b < R * A → buf' ((r * im.cols + c) * (R * A) + b) = buf ((r * im.cols + c) * (R * A) + b) := by
  obtain ⟨hok, -, -, hb, hv, hn, -⟩ := construct_ok _ _ _ _ _ _ _ _ p h hdiv
  obtain ⟨buf, h1, h2⟩ := dense_raw p im order old hok hw hh ho
  obtain ⟨b1, h3, h4⟩ := map_fold p im hok (keep p im kps) (fun k hk => ((keep_mem p im kps k).1 hk).2) old'
  refine ⟨buf, h1, ?_⟩
  unfold keypointMap
  rw [if_pos ⟨hw, hh⟩, if_neg, h3, Option.map_some]
  swap
  · obtain ⟨k, hk1, hk2⟩ := hk
    exact List.ne_nil_of_mem ((keep_mem p im kps k).2 ⟨hk1, hk2⟩)
  refine ⟨_, rfl, fun r c b hmem hin hbb => ?_⟩
  have hraw : rawElem p im r c = binVal p im r c := by
    funext b
    exact raw_inner p im _ _ b hin
  have hin' := hin
  obtain ⟨a1, a2, a3, a4⟩ := hin'
  have hd := h2 r c b (by omega) (by omega) (by rw [hb]; exact hbb)
  have hval : ∀ i < R * A, b1 ((r * im.cols + c) * (R * A) + i) = binVal p im r c i := by
    intro i hi
    have := h4 r c i (by omega) (by rw [hb]; exact hi)
    rw [if_pos ((keep_mem p im kps (r, c)).2 ⟨hmem, hin⟩)] at this
    unfold elem at this
    rw [hb] at this
    exact this
  unfold elem at hd
  rw [hb, hraw] at hd
  rw [hd]
  by_cases hnn : p.normalize
  · rw [if_pos hnn, if_pos hnn, hb, normAll_spec _ _ _ _ _ hbb, if_pos]
    · unfold Spec.unit Spec.norm
      dsimp only
      rw [hval b hbb, Finset.sum_congr rfl fun i hi => by rw [hval i (Finset.mem_range.1 hi)]]
    · have : (r + 1) * im.cols ≤ im.rows * im.cols := Nat.mul_le_mul_right _ (by omega)
      have e : (r + 1) * im.cols = r * im.cols + im.cols := by ring
      omega
  · rw [if_neg hnn, if_neg hnn, hval b hbb]

/-- **C100 (other pixels, refuted).** The map of keypoints is not cleared: pixels that are not keypoints keep whatever the matrix held before. -/
theorem keypointMap_refuted (p : Par) (im : Image) (hok : Ok p) (hn : p.normalize = false) (hw : p.win ≤ im.cols) (hh : p.win ≤ im.rows) (old : Nat → ℝ)
    (kps : List (Nat × Nat)) (hk : ∃ k ∈ kps, Inner p im k.1 k.2) :
    ∃ buf, keypointMap p im kps old = some (some buf) ∧ ∀ r c b, c < im.cols → b < p.bins → ¬ ((r, c) ∈ kps ∧ Inner p im r c) →
      buf ((r * im.cols + c) * p.bins + b) = old ((r * im.cols + c) * p.bins + b) := by
  obtain ⟨b1, h3, h4⟩ := map_fold p im hok (keep p im kps) (fun k hk => ((keep_mem p im kps k).1 hk).2) old
  unfold keypointMap
  rw [if_pos ⟨hw, hh⟩, if_neg, h3, Option.map_some]
  swap
  · obtain ⟨k, hk1, hk2⟩ := hk
    exact List.ne_nil_of_mem ((keep_mem p im kps k).2 ⟨hk1, hk2⟩)
  refine ⟨_, rfl, fun r c b hc hb hnot => ?_⟩
  have := h4 r c b hc hb
  rw [if_neg fun h => hnot ((keep_mem p im kps (r, c)).1 h)] at this
  rw [hn]
  exact this

/-- **C100 (regions).** A pixel is in the validated region exactly if it is in the region and its window is inside the image; such a pixel can be
described. -/
theorem validateROI_spec (inner outer patch A R : Nat) (var : ℝ) (normalize lienhart : Bool) (p : Par)
    (h : construct inner outer patch A R var normalize lienhart = some p) (hdiv : lienhart = true ∨ 360 % A = 0) (im : Image) (roi : Nat → Nat → Bool)
    (hw : p.win / 2 * 2 ≤ im.cols) (hh : p.win / 2 * 2 ≤ im.rows) :
    ∃ roi', validateROI p im.rows im.cols roi = some roi' ∧ ∀ r c, (roi' r c = true ↔ roi r c = true ∧ Inner p im r c) ∧
      (roi' r c = true → describe p im r c ≠ none) := by
  obtain ⟨hok, -⟩ := construct_ok _ _ _ _ _ _ _ _ p h hdiv
  unfold validateROI
  dsimp only
  rw [if_pos ⟨hw, hh⟩]
  have key : ∀ r c, ((if p.win / 2 ≤ r ∧ r < p.win / 2 + (im.rows - p.win / 2 * 2) ∧ p.win / 2 ≤ c ∧ c < p.win / 2 + (im.cols - p.win / 2 * 2) then roi r c else false) = true) ↔
      roi r c = true ∧ Inner p im r c := by
    intro r c
    unfold Inner
    split
    · constructor
      · intro h; exact ⟨h, by omega⟩
      · intro h; exact h.1
    · constructor
      · intro h; cases h
      · intro h; omega
  refine ⟨_, rfl, fun r c => ⟨key r c, fun ht => ?_⟩⟩
  obtain ⟨_, a1, a2, a3, a4⟩ := (key r c).1 ht
  rw [describe_spec p im r c hok a1 a3 a2 a4]
  simp

/-- An object with patches of one pixel, and an image of five by four pixels. -/
theorem demo_object : ∃ p, construct 0 1 1 4 2 100 false true = some p ∧ p.win = 3 := by
  obtain ⟨m, hm⟩ := mask_defined (1 * 2 + 1 - 1 + 1) 2 4 true ((0 : Nat) : ℝ) (by decide) (by decide) (by decide) (by norm_num) (Or.inl rfl)
  refine ⟨⟨1, 1, 2 * 4, 100, false, m⟩, ?_, ?_⟩
  · unfold construct
    rw [if_pos ⟨by decide, by decide, by decide, by decide, by decide, by decide, by decide, by norm_num⟩, hm]
    rfl
  · rfl

def demoImage : Image := ⟨5, 4, 1, fun r c _ => (r * c : Nat)⟩

example : ∃ p, construct 0 1 1 4 2 100 false true = some p ∧ p.win ≤ demoImage.cols ∧ p.win ≤ demoImage.rows ∧ Inner p demoImage 2 1 ∧ ¬ Inner p demoImage 0 0 ∧
    (rowIters p demoImage).reverse.Perm (rowIters p demoImage) := by
  obtain ⟨p, h1, h2⟩ := demo_object
  refine ⟨p, h1, by rw [h2]; decide, by rw [h2]; decide, ?_, ?_, List.reverse_perm _⟩
  · unfold Inner; rw [h2]; decide
  · unfold Inner; rw [h2]; decide

end Litiv.LSS
