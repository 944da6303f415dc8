import Verif.Spec.DispMask
import Verif.Lemmas.SlicShow
import Mathlib.Tactic.Linarith
import Mathlib.Tactic.Positivity
import Mathlib.Tactic.FieldSimp
import Mathlib.Tactic.Ring

/-!
# Lemmas about coloured disparity error masks
-/

namespace Litiv.DispMask

theorem mem_pixels {rows cols : Nat} {p : Nat × Nat} : p ∈ pixels rows cols ↔ InImage rows cols p := by
  unfold pixels InImage
  simp only [List.mem_flatMap, List.mem_range, List.mem_map]
  constructor
  · rintro ⟨y, hy, x, hx, rfl⟩
    exact ⟨hy, hx⟩
  · rintro ⟨h1, h2⟩
    exact ⟨p.1, h1, p.2, h2, rfl⟩

theorem fold_min {α : Type} (f : α → ℚ) (l : List α) (a : ℚ) :
    (∀ p ∈ l, l.foldl (fun m p => min m (f p)) a ≤ f p) ∧ l.foldl (fun m p => min m (f p)) a ≤ a ∧
    (l.foldl (fun m p => min m (f p)) a = a ∨ ∃ p ∈ l, l.foldl (fun m p => min m (f p)) a = f p) := by
  induction l generalizing a with
  | nil => simp
  | cons p l ih =>
    obtain ⟨h1, h2, h3⟩ := ih (min a (f p))
    simp only [List.foldl_cons]
    refine ⟨?_, h2.trans (min_le_left _ _), ?_⟩
    · intro q hq
      rcases List.mem_cons.1 hq with rfl | hq
      · exact h2.trans (min_le_right _ _)
      · exact h1 q hq
    · rcases h3 with h3 | ⟨q, hq, h3⟩
      · rcases min_choice a (f p) with h | h
        · exact .inl (h3.trans h)
        · exact .inr ⟨p, by simp, h3.trans h⟩
      · exact .inr ⟨q, by simp [hq], h3⟩

theorem fold_max {α β : Type} [LinearOrder β] (f : α → β) (l : List α) (a : β) :
    (∀ p ∈ l, f p ≤ l.foldl (fun m p => max m (f p)) a) ∧ a ≤ l.foldl (fun m p => max m (f p)) a ∧
    (l.foldl (fun m p => max m (f p)) a = a ∨ ∃ p ∈ l, l.foldl (fun m p => max m (f p)) a = f p) := by
  induction l generalizing a with
  | nil => simp
  | cons p l ih =>
    obtain ⟨h1, h2, h3⟩ := ih (max a (f p))
    simp only [List.foldl_cons]
    refine ⟨?_, (le_max_left _ _).trans h2, ?_⟩
    · intro q hq
      rcases List.mem_cons.1 hq with rfl | hq
      · exact (le_max_right _ _).trans h2
      · exact h1 q hq
    · rcases h3 with h3 | ⟨q, hq, h3⟩
      · rcases max_choice a (f p) with h | h
        · exact .inl (h3.trans h)
        · exact .inr ⟨p, by simp, h3.trans h⟩
      · exact .inr ⟨q, by simp [hq], h3⟩

theorem mem_near1 {rows cols y x : Nat} {p : Nat × Nat} :
    p ∈ near1 rows cols y x ↔ InImage rows cols p ∧ Within 1 (y, x) p := by
  unfold near1 Within
  rw [List.mem_filter, mem_pixels, decide_eq_true_eq]
  constructor
  · rintro ⟨h, h1, h2, h3, h4⟩
    exact ⟨h, h2, h1, h4, h3⟩
  · rintro ⟨h, h1, h2, h3, h4⟩
    exact ⟨h, h2, h1, h4, h3⟩

theorem dilate1_spec {rows cols : Nat} (f : Nat → Nat → Nat) {p : Nat × Nat} (hp : InImage rows cols p) :
    (∃ q, InImage rows cols q ∧ Within 1 p q ∧ f q.1 q.2 = dilate1 rows cols f p.1 p.2) ∧
    ∀ q, InImage rows cols q → Within 1 p q → f q.1 q.2 ≤ dilate1 rows cols f p.1 p.2 := by
  obtain ⟨h1, -, h3⟩ := fold_max (fun q : Nat × Nat => f q.1 q.2) (near1 rows cols p.1 p.2) 0
  have hle : ∀ q, InImage rows cols q → Within 1 p q → f q.1 q.2 ≤ dilate1 rows cols f p.1 p.2 :=
    fun q hq hw => h1 q (mem_near1.2 ⟨hq, hw⟩)
  refine ⟨?_, hle⟩
  rcases h3 with h3 | ⟨q, hq, h3⟩
  · have hself : Within 1 p p := by unfold Within; omega
    have := hle p hp hself
    refine ⟨p, hp, hself, ?_⟩
    have h4 : dilate1 rows cols f p.1 p.2 = 0 := h3
    omega
  · obtain ⟨a, b⟩ := mem_near1.1 hq
    exact ⟨q, a, b, h3.symm⟩

theorem dilate2_spec {rows cols : Nat} (f : Nat → Nat → Nat) {p : Nat × Nat} (hp : InImage rows cols p) :
    LargestNear rows cols (fun q => f q.1 q.2) p (dilate1 rows cols (dilate1 rows cols f) p.1 p.2) := by
  obtain ⟨⟨q, hq1, hq2, hq3⟩, hle⟩ := dilate1_spec (dilate1 rows cols f) hp
  obtain ⟨⟨r, hr1, hr2, hr3⟩, -⟩ := dilate1_spec f hq1
  refine ⟨⟨r, hr1, ?_, hr3.trans hq3⟩, ?_⟩
  · unfold Within at *
    omega
  · intro s hs hw
    -- the pixel half way
    have hm : ∃ m, InImage rows cols m ∧ Within 1 p m ∧ Within 1 m s := by
      have key : ∀ a b n : Nat, a < n → b < n → a ≤ b + 2 → b ≤ a + 2 →
          ∃ m, m < n ∧ a ≤ m + 1 ∧ m ≤ a + 1 ∧ m ≤ b + 1 ∧ b ≤ m + 1 := by
        intro a b n ha hb h1 h2
        by_cases h : a < b
        · exact ⟨b - 1, by omega, by omega, by omega, by omega, by omega⟩
        · by_cases h' : b < a
          · exact ⟨b + 1, by omega, by omega, by omega, by omega, by omega⟩
          · exact ⟨a, by omega, by omega, by omega, by omega, by omega⟩
      unfold Within at hw
      obtain ⟨m1, h1⟩ := key p.1 s.1 rows hp.1 hs.1 (by omega) (by omega)
      obtain ⟨m2, h2⟩ := key p.2 s.2 cols hp.2 hs.2 (by omega) (by omega)
      refine ⟨(m1, m2), ⟨h1.1, h2.1⟩, ?_, ?_⟩
      · unfold Within
        dsimp only
        omega
      · unfold Within
        dsimp only
        omega
    obtain ⟨m, hm1, hm2, hm3⟩ := hm
    exact ((dilate1_spec f hm1).2 s hs hm3).trans (hle m hm1 hm2)

theorem saturate_near {q : ℚ} (h0 : 0 ≤ q) (h1 : q ≤ 255) : |(SlicShow.saturate q : ℚ) - q| ≤ 1 / 2 :=
  (SlicShow.saturate_spec h0 h1).1

theorem max_unknown (t : Ty) : unknown t = t.max := by
  cases t <;> norm_num [unknown, Ty.max]

theorem counted_iff (t : Ty) (gt : Nat → Nat → ℚ) (roi : Option (Nat → Nat → Nat)) (p : Nat × Nat) :
    Evaluated t gt roi p ↔ counted t gt roi p.1 p.2 = true := by
  have hv : valid t (gt p.1 p.2) = true ↔ gt p.1 p.2 ≠ t.max ∧ (t ≠ .u8 → t ≠ .u16 → 0 ≤ gt p.1 p.2) := by
    cases t <;> simp [valid]
  unfold Evaluated counted
  rw [max_unknown]
  cases roi with
  | none =>
    dsimp only
    rw [Bool.and_self, hv]
    simp
  | some r =>
    dsimp only
    rw [Bool.and_eq_true, hv]
    simp [and_assoc]

theorem shown_errorMap (t : Ty) (disp gt : Nat → Nat → ℚ) (roi : Option (Nat → Nat → Nat)) (M : ℚ) (p : Nat × Nat) (e : ℚ) :
    Shown t disp gt roi M p e ↔ e = errorMap t disp gt roi M p.1 p.2 := by
  unfold Shown errorMap
  rw [counted_iff]
  by_cases h : counted t gt roi p.1 p.2 = true
  · rw [if_pos h]
    simp [h]
  · rw [if_neg h]
    simp [h]

theorem errorMap_range (t : Ty) (disp gt : Nat → Nat → ℚ) (roi : Option (Nat → Nat → Nat)) {M : ℚ} (hM : 0 < M) (y x : Nat) :
    0 ≤ errorMap t disp gt roi M y x ∧ errorMap t disp gt roi M y x ≤ M := by
  unfold errorMap
  split_ifs
  · exact ⟨le_min (abs_nonneg _) hM.le, min_le_right _ _⟩
  · exact ⟨le_refl _, hM.le⟩

/-- The level of each pixel before dilation. -/
def level0 (rows cols : Nat) (e : Nat → Nat → ℚ) (M : ℚ) (q : Nat × Nat) : Nat :=
  if q.1 = 0 ∧ q.2 = 0 then ⌊e 0 0 / M * 255⌋.toNat
  else normalize rows cols (fun y x => if y = 0 ∧ x = 0 then M else e y x) q.1 q.2

theorem levels_largest {rows cols : Nat} (e : Nat → Nat → ℚ) (M : ℚ) {p : Nat × Nat} (hp : InImage rows cols p) :
    LargestNear rows cols (level0 rows cols e M) p (levels rows cols e M p.1 p.2) :=
  dilate2_spec (fun y x => if y = 0 ∧ x = 0 then ⌊e 0 0 / M * 255⌋.toNat
    else normalize rows cols (fun y x => if y = 0 ∧ x = 0 then M else e y x) y x) hp

theorem normalize_scale {rows cols : Nat} (e : Nat → Nat → ℚ) {M : ℚ} (hM : 1 / 2 ^ 52 < M)
    (he : ∀ y x, 0 ≤ e y x ∧ e y x ≤ M) (hc : e 0 0 = M) {z : Nat × Nat} (hz : InImage rows cols z) (hz0 : e z.1 z.2 = 0)
    (y x : Nat) : normalize rows cols e y x = SlicShow.saturate (255 * e y x / M) := by
  have hM0 : 0 < M := lt_trans (by positivity) hM
  have h0 : InImage rows cols (0, 0) := ⟨Nat.lt_of_le_of_lt (Nat.zero_le _) hz.1, Nat.lt_of_le_of_lt (Nat.zero_le _) hz.2⟩
  have hlo : lowest rows cols e = 0 := by
    obtain ⟨h1, h2, h3⟩ := fold_min (fun q : Nat × Nat => e q.1 q.2) (pixels rows cols) (e 0 0)
    have a := h1 z (mem_pixels.2 hz)
    rw [hz0] at a
    refine le_antisymm a ?_
    rcases h3 with h3 | ⟨q, -, h3⟩
    · exact le_of_le_of_eq (he 0 0).1 h3.symm
    · exact le_of_le_of_eq (he _ _).1 h3.symm
  have hhi : highest rows cols e = M := by
    obtain ⟨h1, h2, h3⟩ := fold_max (fun q : Nat × Nat => e q.1 q.2) (pixels rows cols) (e 0 0)
    rw [hc] at h2
    refine le_antisymm ?_ (by unfold highest; rw [hc] at *; exact h2)
    rcases h3 with h3 | ⟨q, -, h3⟩
    · exact le_of_eq_of_le h3 (he 0 0).2
    · exact le_of_eq_of_le h3 (he _ _).2
  unfold normalize
  rw [hlo, hhi]
  dsimp only
  rw [sub_zero, if_pos hM]
  congr 1
  field_simp
  ring

theorem level0_spec {rows cols : Nat} (e : Nat → Nat → ℚ) {M : ℚ} (hM : 1 / 2 ^ 52 < M)
    (he : ∀ y x, 0 ≤ e y x ∧ e y x ≤ M) {z : Nat × Nat} (hz : InImage rows cols z) (hne : z ≠ (0, 0)) (hz0 : e z.1 z.2 = 0)
    (q : Nat × Nat) :
    |(level0 rows cols e M q : ℚ) - 255 * e q.1 q.2 / M| < 1 ∧ (e q.1 q.2 = 0 → level0 rows cols e M q = 0) ∧
    (e q.1 q.2 = M → level0 rows cols e M q = 255) := by
  have hM0 : 0 < M := lt_trans (by positivity) hM
  unfold level0
  by_cases hq : q.1 = 0 ∧ q.2 = 0
  · rw [if_pos hq, hq.1, hq.2]
    have h0 : 0 ≤ e 0 0 / M * 255 := mul_nonneg (div_nonneg (he 0 0).1 hM0.le) (by norm_num)
    have hf : 0 ≤ ⌊e 0 0 / M * 255⌋ := Int.floor_nonneg.2 h0
    have hcast : ((⌊e 0 0 / M * 255⌋.toNat : Nat) : ℚ) = ((⌊e 0 0 / M * 255⌋ : ℤ) : ℚ) := by
      have : ((⌊e 0 0 / M * 255⌋.toNat : Nat) : ℤ) = ⌊e 0 0 / M * 255⌋ := Int.toNat_of_nonneg hf
      exact_mod_cast this
    refine ⟨?_, ?_, ?_⟩
    · rw [hcast]
      have e1 : 255 * e 0 0 / M = e 0 0 / M * 255 := by ring
      rw [e1, abs_lt]
      have a1 := Int.floor_le (e 0 0 / M * 255)
      have a2 := Int.lt_floor_add_one (e 0 0 / M * 255)
      constructor <;> linarith
    · intro h
      rw [h]
      simp
    · intro h
      rw [h, div_self hM0.ne', one_mul]
      decide +kernel
  · rw [if_neg hq]
    have hzz : ¬ (z.1 = 0 ∧ z.2 = 0) := fun h => hne (Prod.ext h.1 h.2)
    rw [normalize_scale (fun y x => if y = 0 ∧ x = 0 then M else e y x) hM ?_ (by simp) hz (by rw [if_neg hzz]; exact hz0)]
    · rw [if_neg hq]
      have h0 : 0 ≤ 255 * e q.1 q.2 / M := div_nonneg (mul_nonneg (by norm_num) (he _ _).1) hM0.le
      have h1 : 255 * e q.1 q.2 / M ≤ 255 := by
        rw [div_le_iff₀ hM0]
        exact mul_le_mul_of_nonneg_left (he _ _).2 (by norm_num)
      refine ⟨lt_of_le_of_lt (saturate_near h0 h1) (by norm_num), ?_, ?_⟩
      · intro h
        rw [h]
        simp only [mul_zero, zero_div]
        decide +kernel
      · intro h
        rw [h, mul_div_assoc, div_self hM0.ne', mul_one]
        decide +kernel
    · intro y x
      split_ifs
      · exact ⟨hM0.le, le_refl _⟩
      · exact he y x

end Litiv.DispMask
