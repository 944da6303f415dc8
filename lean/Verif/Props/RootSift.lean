import Verif.Lemmas.RootSift

/-!
# Descriptor normalization and sparseness
-/

namespace Litiv.RootSift

/-- **Which descriptors are accepted.** All of them when negative values are supported; otherwise those without negative
values. -/
theorem root_defined {n : Nat} (useL2 neg : Bool) (d : Fin n → ℝ) :
    (rootSift useL2 neg d).isSome = true ↔ neg = true ∨ ∀ i, 0 ≤ d i := by
  by_cases hd : neg = true ∨ ∀ i, 0 ≤ d i
  · rw [rootSift, if_pos hd]; simpa using hd
  · rw [rootSift, if_neg hd]; simpa using hd

example : ∃ r, rootSift true true ![3, -1, 0] = some r := Option.isSome_iff_exists.1 ((root_defined _ _ _).2 (.inl rfl))
example : ∃ r, rootSift false false ![3, 1, 0] = some r := Option.isSome_iff_exists.1 ((root_defined _ _ _).2 (.inr (by
  intro i; fin_cases i <;> simp)))

/-- **Order and signs.** Normalization keeps the order of values, zeros and signs; squares of values are in the same
proportions as the sizes of the original ones. -/
theorem root_order {n : Nat} {useL2 neg : Bool} {d r : Fin n → ℝ} (h : rootSift useL2 neg d = some r) :
    (∀ i j, r i < r j ↔ d i < d j) ∧ (∀ i, r i = 0 ↔ d i = 0) ∧ (∀ i, 0 < r i ↔ 0 < d i) ∧
    ∀ i j, r i ^ 2 * |d j| = r j ^ 2 * |d i| := by
  obtain ⟨hd, k, hk, hr⟩ := rootSift_scaled h
  have hl := l1_pos hd
  have hi : ∀ i, neg = true ∨ 0 ≤ d i := fun i => hd.imp id fun h => h i
  have hlt : ∀ {v w : ℝ}, (neg = true ∨ 0 ≤ v) → (neg = true ∨ 0 ≤ w) →
      (root neg (l1 neg d) v * k < root neg (l1 neg d) w * k ↔ v < w) := by
    intro v w hv hw
    rw [mul_lt_mul_iff_left₀ hk]
    refine ⟨fun h => ?_, root_lt neg hl hv hw⟩
    by_contra hc
    rcases lt_or_eq_of_le (not_lt.1 hc) with h1 | h1
    · exact absurd (root_lt neg hl hw hv h1) (lt_asymm h)
    · rw [h1] at h; exact lt_irrefl _ h
  have hpos : ∀ i, 0 < r i ↔ 0 < d i := by
    intro i
    have := hlt (v := 0) (w := d i) (.inr le_rfl) (hi i)
    rw [root_zero, zero_mul] at this
    rw [hr]; exact this
  have hneg : ∀ i, r i < 0 ↔ d i < 0 := by
    intro i
    have := hlt (v := d i) (w := 0) (hi i) (.inr le_rfl)
    rw [root_zero, zero_mul] at this
    rw [hr]; exact this
  refine ⟨fun i j => by rw [hr, hr]; exact hlt (hi i) (hi j), ?_, hpos, ?_⟩
  · intro i
    constructor
    · intro h0
      have h1 := hpos i; have h2 := hneg i
      rw [h0] at h1 h2
      have h3 : ¬ 0 < d i := fun h => lt_irrefl _ (h1.2 h)
      have h4 : ¬ d i < 0 := fun h => lt_irrefl _ (h2.2 h)
      exact le_antisymm (not_lt.1 h3) (not_lt.1 h4)
    · intro h0; rw [hr, h0, root_zero, zero_mul]
  · intro i j
    rw [hr, hr, mul_pow, mul_pow, sq (root _ _ _), sq (root _ _ _), root_sq neg hl (hi i), root_sq neg hl (hi j)]
    ring

/-- **Unit length.** The result is never longer than 1, and if the sizes of the original values add up to 1 or more, its
squared length falls short of 1 by at most two machine epsilons. -/
theorem root_length {n : Nat} {useL2 neg : Bool} {d r : Fin n → ℝ} (h : rootSift useL2 neg d = some r) :
    ∑ i, r i ^ 2 < 1 ∧ (1 ≤ ∑ i, |d i| → 1 - 2 * eps ≤ ∑ i, r i ^ 2) := by
  obtain ⟨hd, _⟩ := rootSift_scaled h
  rw [rootSift, if_pos hd] at h
  have := Option.some.inj h
  subst this
  have hs := root_sum hd
  have hS := abs_nonneg_sum d
  have he := eps_pos
  generalize hq : (∑ i, |d i|) = S at hs hS ⊢
  have hlt : S / (S + eps) < 1 := by rw [div_lt_one (by linarith)]; linarith
  have hge : 0 ≤ S / (S + eps) := by positivity
  have hbig : 1 ≤ S → 1 - eps ≤ S / (S + eps) := by
    intro h1
    rw [le_div_iff₀ (by linarith)]
    nlinarith
  cases useL2
  · have : ∑ i, (fun i => root neg (l1 neg d) (d i)) i ^ 2 = S / (S + eps) := by
      rw [← hs]; exact Finset.sum_congr rfl fun i _ => sq _
    simp only [Bool.false_eq_true, if_false]
    rw [this]
    exact ⟨hlt, fun h1 => by have := hbig h1; linarith⟩
  · simp only [if_true]
    set q := S / (S + eps) with hqd
    have hl2 : l2 (fun i => root neg (l1 neg d) (d i)) = √q + eps := by rw [l2, hs]
    have hsum : ∑ i, (root neg (l1 neg d) (d i) / l2 (fun i => root neg (l1 neg d) (d i))) ^ 2 = q / (√q + eps) ^ 2 := by
      rw [← hs, div_eq_mul_inv, Finset.sum_mul]
      apply Finset.sum_congr rfl
      intro i _
      rw [hs, hl2, div_pow, div_eq_mul_inv, sq (root _ _ _)]
    rw [hsum]
    have hr0 := Real.sqrt_nonneg q
    have hrr := Real.sq_sqrt hge
    generalize √q = t at hr0 hrr
    have hpos : 0 < (t + eps) ^ 2 := by positivity
    constructor
    · rw [div_lt_one hpos, ← hrr]; nlinarith
    · intro h1
      have h2 := hbig h1
      rw [le_div_iff₀ hpos, ← hrr]
      have ht1 : t ≤ 1 := by nlinarith
      have ht : 1 - eps ≤ t := by nlinarith
      have hsm := eps_small
      have h3 : (1 - eps) * (t + eps) ≤ t := by nlinarith
      have h4 : 0 ≤ (1 - eps) * (t + eps) := by
        apply mul_nonneg <;> linarith
      have h5 : ((1 - eps) * (t + eps)) ^ 2 ≤ t ^ 2 := by nlinarith
      nlinarith

/-- **Hellinger kernel.** Inner products of normalized descriptors are the Hellinger kernel of the original ones, each
divided by its sum of values. -/
theorem root_hellinger {n : Nat} {a b r s : Fin n → ℝ} (ha : rootSift false false a = some r) (hb : rootSift false false b = some s) :
    ∑ i, r i * s i = ∑ i, √(a i / ((∑ i, a i) + eps) * (b i / ((∑ i, b i) + eps))) := by
  have hda := (rootSift_scaled ha).1
  have hdb := (rootSift_scaled hb).1
  rw [rootSift, if_pos hda] at ha
  rw [rootSift, if_pos hdb] at hb
  have := Option.some.inj ha
  have := Option.some.inj hb
  subst r s
  have hpa := l1_pos hda
  have hna : ∀ i, 0 ≤ a i := by simpa using hda
  simp only [Bool.false_eq_true, if_false]
  apply Finset.sum_congr rfl
  intro i _
  have hla : l1 false a = (∑ i, a i) + eps := by simp [l1]
  have hlb : l1 false b = (∑ i, b i) + eps := by simp [l1]
  rw [← hla, ← hlb, root, root, if_neg (by simp), if_neg (by simp), Real.sqrt_mul (div_nonneg (hna i) hpa.le)]

/-- **Sparseness, except for zero vectors.** The sparseness of a vector of two or more values which are not all zero is
between 0 and 1; it is 1 exactly if a single value differs from zero, and 0 exactly if all values have the same size. -/
theorem sparseness_range_partial {n : Nat} (v : Fin n → ℝ) (hn : 1 < n) (hv : ∃ i, v i ≠ 0) : ∃ s, sparseness v = some s ∧
    0 ≤ s ∧ s ≤ 1 ∧ (s = 1 ↔ Single v) ∧ (s = 0 ↔ Uniform v) := by
  have h0 : norm2 v ≠ 0 := fun h => by obtain ⟨i, hi⟩ := hv; exact hi ((norm2_zero v).1 h i)
  have hpos : 0 < norm2 v := lt_of_le_of_ne (norm2_nonneg v) (Ne.symm h0)
  have hroot : 1 < √(n : ℝ) := by
    rw [Real.lt_sqrt (by norm_num)]; rw [one_pow]; exact_mod_cast hn
  have hden : 0 < √(n : ℝ) - 1 := by linarith
  have h1 : norm1 v / norm2 v ≤ √n := by rw [div_le_iff₀ hpos]; exact norm1_le v
  have h2 : 1 ≤ norm1 v / norm2 v := by rw [le_div_iff₀ hpos, one_mul]; exact norm2_le_norm1 v
  refine ⟨_, by rw [sparseness, if_pos ⟨hn, h0⟩], div_nonneg (by linarith) hden.le, ?_, ?_, ?_⟩
  · rw [div_le_one hden]; linarith
  · rw [div_eq_one_iff_eq hden.ne', ← norm_single v h0, ← div_eq_one_iff_eq h0]
    constructor <;> intro h <;> linarith
  · rw [div_eq_zero_iff, or_iff_left hden.ne', ← norm_uniform v (by omega), sub_eq_zero, eq_comm, div_eq_iff h0]

/-- **Sparseness is a property of the direction**: neither positive or negative factors nor the order of values change
it. -/
theorem sparseness_invariant {n : Nat} (v : Fin n → ℝ) (k : ℝ) (hk : k ≠ 0) (p : Equiv.Perm (Fin n)) :
    sparseness (fun i => k * v (p i)) = sparseness v := by
  have h1 : norm1 (fun i => k * v (p i)) = |k| * norm1 v := by
    simp only [norm1, abs_mul, ← Finset.mul_sum]
    rw [Equiv.sum_comp p fun i => |v i|]
  have h2 : norm2 (fun i => k * v (p i)) = |k| * norm2 v := by
    simp only [norm2, mul_pow, ← Finset.mul_sum]
    rw [Equiv.sum_comp p fun i => v i ^ 2, Real.sqrt_mul (sq_nonneg k), Real.sqrt_sq_eq_abs]
  have hk' : |k| ≠ 0 := abs_ne_zero.2 hk
  by_cases h : 1 < n ∧ norm2 v ≠ 0
  · have h' : 1 < n ∧ norm2 (fun i => k * v (p i)) ≠ 0 := ⟨h.1, by rw [h2]; exact mul_ne_zero hk' h.2⟩
    rw [sparseness, if_pos h', sparseness, if_pos h, h1, h2, mul_div_mul_left _ _ hk']
  · have h' : ¬ (1 < n ∧ norm2 (fun i => k * v (p i)) ≠ 0) := by
      rintro ⟨a, b⟩
      exact h ⟨a, fun hz => b (by rw [h2, hz, mul_zero])⟩
    rw [sparseness, if_neg h', sparseness, if_neg h]

/-- **Zero vectors have no sparseness**: the result is zero divided by zero. -/
theorem sparseness_refuted (n : Nat) : sparseness (fun _ : Fin n => 0) = none := by
  rw [sparseness, if_neg]
  rintro ⟨_, h⟩
  exact h ((norm2_zero _).2 fun _ => rfl)

example : ∃ i, (![0, 2, 0] : Fin 3 → ℝ) i ≠ 0 := ⟨1, by simp⟩
example : Single (![0, 2, 0] : Fin 3 → ℝ) := ⟨1, by simp, by intro j hj; fin_cases j <;> simp_all⟩
example : Uniform (![2, -2] : Fin 2 → ℝ) := by intro i j; fin_cases i <;> fin_cases j <;> simp

end Litiv.RootSift
