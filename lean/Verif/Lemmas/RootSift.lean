import Verif.Model.RootSift
import Verif.Spec.RootSift
import Mathlib.Algebra.Order.Chebyshev
import Mathlib.Tactic.FieldSimp
import Mathlib.Tactic.Linarith
import Mathlib.Tactic.Positivity
import Mathlib.Tactic.NormNum

namespace Litiv.RootSift

theorem eps_pos : 0 < eps := by unfold eps; positivity
theorem eps_small : eps ≤ 1 / 4 := by unfold eps; norm_num

theorem l1_abs {n : Nat} {neg : Bool} {d : Fin n → ℝ} (h : neg = true ∨ ∀ i, 0 ≤ d i) : l1 neg d = (∑ i, |d i|) + eps := by
  rw [l1]
  congr 1
  apply Finset.sum_congr rfl
  intro i _
  rcases h with h | h
  · rw [if_pos h]
  · rw [abs_of_nonneg (h i), ite_self]

theorem abs_nonneg_sum {n : Nat} (d : Fin n → ℝ) : 0 ≤ ∑ i, |d i| := Finset.sum_nonneg fun i _ => abs_nonneg _

theorem l1_pos {n : Nat} {neg : Bool} {d : Fin n → ℝ} (h : neg = true ∨ ∀ i, 0 ≤ d i) : 0 < l1 neg d := by
  rw [l1_abs h]; have := abs_nonneg_sum d; have := eps_pos; linarith

/-- Sign times root. -/
theorem root_cases (neg : Bool) {l v : ℝ} (_hl : 0 < l) (h : neg = true ∨ 0 ≤ v) :
    (0 ≤ v ∧ root neg l v = √(v / l)) ∨ (v < 0 ∧ root neg l v = -√(-v / l)) := by
  by_cases hv : v < 0
  · right
    refine ⟨hv, ?_⟩
    rcases h with h | h
    · rw [root, if_pos ⟨h, hv⟩]
    · linarith
  · left
    refine ⟨not_lt.1 hv, ?_⟩
    rw [root, if_neg (fun h => hv h.2)]

theorem root_sq (neg : Bool) {l v : ℝ} (hl : 0 < l) (h : neg = true ∨ 0 ≤ v) : root neg l v * root neg l v = |v| / l := by
  rcases root_cases neg hl h with ⟨hv, he⟩ | ⟨hv, he⟩
  · rw [he, Real.mul_self_sqrt (by positivity), abs_of_nonneg hv]
  · rw [he, neg_mul_neg, Real.mul_self_sqrt (div_nonneg (by linarith) hl.le), abs_of_neg hv]

theorem root_lt (neg : Bool) {l v w : ℝ} (hl : 0 < l) (hv : neg = true ∨ 0 ≤ v) (hw : neg = true ∨ 0 ≤ w) (h : v < w) :
    root neg l v < root neg l w := by
  rcases root_cases neg hl hv with ⟨hv, he⟩ | ⟨hv, he⟩ <;> rcases root_cases neg hl hw with ⟨hw, hf⟩ | ⟨hw, hf⟩
  · rw [he, hf]; exact Real.sqrt_lt_sqrt (by positivity) (div_lt_div_of_pos_right h hl)
  · linarith
  · rw [he, hf]
    have h1 : 0 < √(-v / l) := Real.sqrt_pos.2 (div_pos (by linarith) hl)
    have h2 := Real.sqrt_nonneg (w / l)
    linarith
  · rw [he, hf, neg_lt_neg_iff]
    exact Real.sqrt_lt_sqrt (div_nonneg (by linarith) hl.le) (div_lt_div_of_pos_right (by linarith) hl)

theorem root_zero (neg : Bool) (l : ℝ) : root neg l 0 = 0 := by
  rw [root, if_neg (by simp), zero_div, Real.sqrt_zero]

theorem l2_pos {n : Nat} (r : Fin n → ℝ) : 0 < l2 r := by
  rw [l2]; have := Real.sqrt_nonneg (∑ i, r i * r i); have := eps_pos; linarith

/-- The values are a positive multiple of the roots. -/
theorem rootSift_scaled {n : Nat} {useL2 neg : Bool} {d r : Fin n → ℝ} (h : rootSift useL2 neg d = some r) :
    (neg = true ∨ ∀ i, 0 ≤ d i) ∧ ∃ k, 0 < k ∧ ∀ i, r i = root neg (l1 neg d) (d i) * k := by
  by_cases hd : neg = true ∨ ∀ i, 0 ≤ d i
  · refine ⟨hd, ?_⟩
    rw [rootSift, if_pos hd] at h
    have := Option.some.inj h
    subst this
    cases useL2
    · exact ⟨1, one_pos, fun i => by simp⟩
    · exact ⟨1 / l2 (fun i => root neg (l1 neg d) (d i)), one_div_pos.2 (l2_pos _), fun i => by simp [div_eq_mul_inv]⟩
  · rw [rootSift, if_neg hd] at h
    cases h

theorem root_sum {n : Nat} {neg : Bool} {d : Fin n → ℝ} (h : neg = true ∨ ∀ i, 0 ≤ d i) :
    ∑ i, root neg (l1 neg d) (d i) * root neg (l1 neg d) (d i) = (∑ i, |d i|) / ((∑ i, |d i|) + eps) := by
  rw [← l1_abs h, div_eq_mul_inv, Finset.sum_mul]
  apply Finset.sum_congr rfl
  intro i _
  rw [root_sq neg (l1_pos h) (h.imp id fun h => h i), div_eq_mul_inv]

/-! ### Sparseness -/

theorem norm2_sq {n : Nat} (v : Fin n → ℝ) : norm2 v ^ 2 = ∑ i, v i ^ 2 :=
  Real.sq_sqrt (Finset.sum_nonneg fun i _ => sq_nonneg _)

theorem norm2_zero {n : Nat} (v : Fin n → ℝ) : norm2 v = 0 ↔ ∀ i, v i = 0 := by
  rw [norm2, Real.sqrt_eq_zero (Finset.sum_nonneg fun i _ => sq_nonneg _), Finset.sum_eq_zero_iff_of_nonneg fun i _ => sq_nonneg _]
  simp

theorem norm1_nonneg {n : Nat} (v : Fin n → ℝ) : 0 ≤ norm1 v := abs_nonneg_sum v
theorem norm2_nonneg {n : Nat} (v : Fin n → ℝ) : 0 ≤ norm2 v := Real.sqrt_nonneg _

theorem norm1_sq {n : Nat} (v : Fin n → ℝ) : norm1 v ^ 2 = ∑ i, |v i| * norm1 v := by rw [← Finset.sum_mul, sq, norm1]

theorem abs_le_norm1 {n : Nat} (v : Fin n → ℝ) (i : Fin n) : |v i| ≤ norm1 v :=
  Finset.single_le_sum (f := fun i => |v i|) (fun i _ => abs_nonneg _) (Finset.mem_univ i)

theorem norm2_le_norm1 {n : Nat} (v : Fin n → ℝ) : norm2 v ≤ norm1 v := by
  apply le_of_sq_le_sq _ (norm1_nonneg v)
  rw [norm2_sq, norm1_sq]
  apply Finset.sum_le_sum
  intro i _
  rw [← sq_abs, sq]
  exact mul_le_mul_of_nonneg_left (abs_le_norm1 v i) (abs_nonneg _)

theorem norm1_le {n : Nat} (v : Fin n → ℝ) : norm1 v ≤ √n * norm2 v := by
  apply le_of_sq_le_sq _ (mul_nonneg (Real.sqrt_nonneg _) (norm2_nonneg v))
  rw [mul_pow, Real.sq_sqrt (Nat.cast_nonneg n), norm2_sq]
  have := sq_sum_le_card_mul_sum_sq (s := Finset.univ) (f := fun i => |v i|)
  simpa [norm1] using this

theorem norm_single {n : Nat} (v : Fin n → ℝ) (h0 : norm2 v ≠ 0) : norm1 v = norm2 v ↔ Single v := by
  constructor
  · intro h
    obtain ⟨i, hi⟩ : ∃ i, v i ≠ 0 := by
      by_contra hc
      exact h0 ((norm2_zero v).2 fun i => by by_contra hi; exact hc ⟨i, hi⟩)
    refine ⟨i, hi, ?_⟩
    intro j hj
    by_contra hne
    have hlt : ∑ i, v i ^ 2 < ∑ i, |v i| * norm1 v := by
      apply Finset.sum_lt_sum
      · intro k _
        rw [← sq_abs, sq]
        exact mul_le_mul_of_nonneg_left (abs_le_norm1 v k) (abs_nonneg _)
      · refine ⟨i, Finset.mem_univ i, ?_⟩
        rw [← sq_abs, sq]
        apply mul_lt_mul_of_pos_left _ (abs_pos.2 hi)
        have h2 : |v i| + |v j| ≤ norm1 v := by
          have := Finset.sum_le_sum_of_subset_of_nonneg (f := fun i => |v i|) (Finset.subset_univ {i, j}) (fun i _ _ => abs_nonneg _)
          rwa [Finset.sum_pair (Ne.symm hj)] at this
        have := abs_pos.2 hne
        linarith
    rw [← norm2_sq, ← norm1_sq, h] at hlt
    exact lt_irrefl _ hlt
  · rintro ⟨i, hi, hz⟩
    have h1 : norm1 v = |v i| := Finset.sum_eq_single i (fun j _ hj => by rw [hz j hj, abs_zero]) (by simp)
    have h2 : ∑ j, v j ^ 2 = v i ^ 2 := Finset.sum_eq_single i (fun j _ hj => by rw [hz j hj]; ring) (by simp)
    rw [h1, norm2, h2, Real.sqrt_sq_eq_abs]

theorem norm_uniform {n : Nat} (v : Fin n → ℝ) (hn : 0 < n) : norm1 v = √n * norm2 v ↔ Uniform v := by
  have hn' : (0 : ℝ) < n := by exact_mod_cast hn
  have key : ∑ i, (n * |v i| - norm1 v) ^ 2 = n * (n * norm2 v ^ 2 - norm1 v ^ 2) := by
    rw [norm2_sq]
    have : ∀ i, ((n : ℝ) * |v i| - norm1 v) ^ 2 = n ^ 2 * v i ^ 2 - 2 * n * norm1 v * |v i| + norm1 v ^ 2 := by
      intro i; rw [← sq_abs (v i)]; ring
    simp only [this, Finset.sum_add_distrib, Finset.sum_sub_distrib, ← Finset.mul_sum]
    rw [show ∑ i, |v i| = norm1 v from rfl]
    simp; ring
  constructor
  · intro h
    have h2 : norm1 v ^ 2 = n * norm2 v ^ 2 := by rw [h, mul_pow, Real.sq_sqrt hn'.le]
    rw [h2, sub_self, mul_zero, Finset.sum_eq_zero_iff_of_nonneg fun i _ => sq_nonneg _] at key
    intro i j
    have hi := pow_eq_zero_iff (two_ne_zero) |>.1 (key i (Finset.mem_univ i))
    have hj := pow_eq_zero_iff (two_ne_zero) |>.1 (key j (Finset.mem_univ j))
    have : (n : ℝ) * |v i| = n * |v j| := by linarith
    exact mul_left_cancel₀ hn'.ne' this
  · intro h
    have h1 : ∀ i, norm1 v = n * |v i| := by
      intro i
      rw [norm1, Finset.sum_congr rfl fun j _ => h j i]
      simp
    rw [Finset.sum_congr rfl (fun i _ => by rw [← h1 i, sub_self, zero_pow two_ne_zero])] at key
    rw [Finset.sum_const_zero] at key
    have h2 : norm1 v ^ 2 = n * norm2 v ^ 2 := by
      have := (mul_eq_zero.1 key.symm).resolve_left hn'.ne'
      linarith
    apply (sq_eq_sq₀ (norm1_nonneg v) (mul_nonneg (Real.sqrt_nonneg _) (norm2_nonneg v))).1
    rw [mul_pow, Real.sq_sqrt hn'.le, h2]

end Litiv.RootSift
