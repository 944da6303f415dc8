import Verif.Lemmas.LU
import Mathlib.Tactic.LinearCombination
import Mathlib.LinearAlgebra.Matrix.Notation

/-!
# Property C21: LU, determinant, inverse
-/

namespace Litiv.LU

set_option linter.unusedSectionVars false

variable {K : Type} [Field K] [LinearOrder K] [IsStrictOrderedRing K]

/-- The `N × N` matrix stored row by row in a flat array. -/
def ofFlat (N : Nat) (a : Nat → K) : Matrix (Fin N) (Fin N) K := fun r c => a (r * N + c)

/-- C21: whenever `LU` reports success, its second argument is replaced by the solution of `A X = B`, for every size,
every number of right-hand sides and every tolerance. -/
theorem lu_solves_system (eps : K) (heps : 0 < eps) (m n : Nat) (A B : Nat → Nat → K) (s : St K)
    (h : lu eps m n A B = some s) :
    Matrix.of (fun r c : Fin m => A r c) * Matrix.of (fun (r : Fin m) (j : Fin n) => s.B r j) =
      Matrix.of fun (r : Fin m) (j : Fin n) => B r j := by
  ext r j
  exact lu_solves eps heps m n A B s h r j r.2 j.2

/-- C21: `LU` only succeeds on invertible matrices, and then the determinant is the reciprocal of the sign times the
product of the stored diagonal. -/
theorem lu_success_invertible (eps : K) (heps : 0 < eps) (m n : Nat) (A B : Nat → Nat → K) (s : St K)
    (h : lu eps m n A B = some s) : (Matrix.of fun r c : Fin m => A r c).det ≠ 0 :=
  (lu_det eps heps m n A B s h).2

/-- C21: the pivot chosen in a column is an entry of largest magnitude at or below the diagonal, so every elimination
factor has magnitude at most 1. -/
theorem pivotRow_max (m : Nat) (A : Nat → Nat → K) (i j : Nat) (hij : i ≤ j) (hj : j < m) :
    |A j i| ≤ |A (pivotRow m A i) i| :=
  pivotRow_largest m A i j hij hj

/-- C21: `invert` yields a two-sided inverse whenever it reports success, for every size. -/
theorem invert_spec (eps : K) (heps : 0 < eps) (N : Nat) (a out : Nat → K) (h : invert eps N a = some out) :
    ofFlat N a * ofFlat N out = 1 ∧ ofFlat N out * ofFlat N a = 1 := by
  suffices hmain : ofFlat N a * ofFlat N out = 1 from ⟨hmain, mul_eq_one_comm.1 hmain⟩
  unfold invert at h
  split at h
  · subst N
    split at h
    · exact absurd h (by simp)
    injection h with h; subst h
    rename_i hne
    ext r c
    fin_cases r; fin_cases c
    simp [Matrix.mul_apply, ofFlat, hne]
  split at h
  · subst N
    dsimp only at h
    split at h
    · exact absurd h (by simp)
    injection h with h; subst h
    rename_i hne
    have hdet : determinant eps 2 a = a 0 * a 3 - a 1 * a 2 := by simp [determinant]
    rw [hdet] at hne ⊢
    have hdi := mul_one_div_cancel hne
    generalize 1 / (a 0 * a 3 - a 1 * a 2) = di at hdi ⊢
    ext r c
    rw [Matrix.mul_apply, Fin.sum_univ_two]
    fin_cases r <;> fin_cases c <;> simp [ofFlat] <;> first | (ring1; done) | linear_combination hdi
  split at h
  · subst N
    dsimp only at h
    split at h
    · exact absurd h (by simp)
    injection h with h; subst h
    rename_i hne
    have hdet : determinant eps 3 a =
      a 0 * (a 4 * a 8 - a 5 * a 7) - a 1 * (a 3 * a 8 - a 5 * a 6) + a 2 * (a 3 * a 7 - a 4 * a 6) := by simp [determinant]
    rw [hdet] at hne ⊢
    have hdi := mul_one_div_cancel hne
    generalize 1 / (a 0 * (a 4 * a 8 - a 5 * a 7) - a 1 * (a 3 * a 8 - a 5 * a 6) + a 2 * (a 3 * a 7 - a 4 * a 6)) = di at hdi ⊢
    ext r c
    rw [Matrix.mul_apply, Fin.sum_univ_three]
    fin_cases r <;> fin_cases c <;> simp [ofFlat] <;> first | (ring1; done) | linear_combination hdi
  · cases hlu : lu eps N N (fun r c => a (r * N + c)) (fun r c => if r = c then (1 : K) else 0) with
    | none => rw [hlu] at h; exact absurd h (by simp)
    | some s =>
      rw [hlu] at h
      simp only [Option.map_some] at h
      injection h with h; subst h
      have := lu_solves eps heps N N _ _ s hlu
      ext r c
      rw [Matrix.mul_apply, Matrix.one_apply]
      have h2 := this r c r.2 c.2
      simp only [Fin.ext_iff]
      rw [← h2]
      apply Finset.sum_congr rfl
      intro k _
      unfold ofFlat
      have hN : 0 < N := Nat.lt_of_le_of_lt (Nat.zero_le _) r.2
      dsimp only
      congr 2
      · rw [Nat.add_comm, Nat.add_mul_div_right _ _ hN, Nat.div_eq_of_lt c.2]; omega
      · rw [Nat.add_comm, Nat.add_mul_mod_self_right, Nat.mod_eq_of_lt c.2]

/-- C21: singular matrices are always rejected by `invert`. -/
theorem invert_singular (eps : K) (heps : 0 < eps) (N : Nat) (a : Nat → K) (h : (ofFlat N a).det = 0) :
    invert eps N a = none := by
  cases hi : invert eps N a with
  | none => rfl
  | some out =>
    have h1 := (invert_spec eps heps N a out hi).1
    have h2 := congrArg Matrix.det h1
    rw [Matrix.det_mul, h, zero_mul, Matrix.det_one] at h2
    exact absurd h2 (by simp)

/-- C21: up to size 3, `determinant` is the determinant and `invert` succeeds exactly on the invertible matrices. -/
theorem small_complete (eps : K) (N : Nat) (hN : N = 1 ∨ N = 2 ∨ N = 3) (a : Nat → K) :
    determinant eps N a = (ofFlat N a).det ∧ (invert eps N a = none ↔ (ofFlat N a).det = 0) := by
  have hdet : determinant eps N a = (ofFlat N a).det := by
    rcases hN with rfl | rfl | rfl
    · simp [determinant, ofFlat]
    · simp [determinant, ofFlat, Matrix.det_fin_two]
    · simp [determinant, ofFlat, Matrix.det_fin_three]; ring
  refine ⟨hdet, ?_⟩
  rw [← hdet]
  rcases hN with rfl | rfl | rfl
  · simp [invert, determinant]
  · simp [invert]
  · simp [invert]

/-- C21 (part): for every size, `determinant` returns the determinant, or 0 when a pivot was found to be smaller than the
tolerance. Missing: in the second case the determinant need not be 0 (`determinant_small_pivot`). -/
theorem determinant_spec_partial (eps : K) (heps : 0 < eps) (N : Nat) (hN : 0 < N) (a : Nat → K) :
    determinant eps N a = (ofFlat N a).det ∨
      (determinant eps N a = 0 ∧ 4 ≤ N ∧ lu eps N 0 (fun r c => a (r * N + c)) (fun _ _ => 0) = none) := by
  by_cases hs : N = 1 ∨ N = 2 ∨ N = 3
  · exact Or.inl (small_complete eps N hs a).1
  · unfold determinant
    rw [if_neg (by omega), if_neg (by omega), if_neg (by omega)]
    cases hlu : lu eps N 0 (fun r c => a (r * N + c)) (fun _ _ => (0 : K)) with
    | none => exact Or.inr ⟨rfl, by omega, rfl⟩
    | some s => exact Or.inl (lu_det eps heps N 0 _ _ s hlu).1

/-- C21: a zero returned for a singular matrix is right: on singular matrices of any size, `determinant` returns 0. -/
theorem determinant_singular (eps : K) (heps : 0 < eps) (N : Nat) (hN : 0 < N) (a : Nat → K) (h : (ofFlat N a).det = 0) :
    determinant eps N a = 0 := by
  rcases determinant_spec_partial eps heps N hN a with h1 | h1
  · rw [h1, h]
  · exact h1.1

/-- C21: the tolerance is the only obstacle: for every invertible matrix of every size there is a positive tolerance below
which `invert` succeeds and `determinant` is the determinant. -/
theorem invert_complete (N : Nat) (hN : 0 < N) (a : Nat → K) (h : (ofFlat N a).det ≠ 0) :
    ∃ d : K, 0 < d ∧ ∀ eps, 0 < eps → eps ≤ d →
      (invert eps N a).isSome = true ∧ determinant eps N a = (ofFlat N a).det := by
  by_cases hs : N = 1 ∨ N = 2 ∨ N = 3
  · refine ⟨1, one_pos, fun eps _ _ => ⟨?_, (small_complete eps N hs a).1⟩⟩
    rw [Option.isSome_iff_ne_none]
    exact fun hn => h ((small_complete eps N hs a).2.1 hn)
  · obtain ⟨d1, hd1, h1⟩ := lu_complete N N (fun r c => a (r * N + c)) (fun r c => if r = c then 1 else 0) h
    obtain ⟨d2, hd2, h2⟩ := lu_complete N 0 (fun r c => a (r * N + c)) (fun _ _ => 0) h
    refine ⟨min d1 d2, lt_min hd1 hd2, fun eps heps hle => ⟨?_, ?_⟩⟩
    · unfold invert
      rw [if_neg (by omega), if_neg (by omega), if_neg (by omega), Option.isSome_map]
      exact h1 eps (le_trans hle (min_le_left _ _))
    · rcases determinant_spec_partial eps heps N hN a with h3 | h3
      · exact h3
      · have := h2 eps (le_trans hle (min_le_right _ _))
        rw [h3.2.2] at this
        exact absurd this (by simp)

/-- C21: if the matrix does not shrink any vector by more than a factor `sqrt N * eps`, then `determinant` is the determinant and `invert` succeeds. -/
theorem well_conditioned (eps : K) (heps : 0 < eps) (N : Nat) (hN : 0 < N) (a : Nat → K)
    (hA : ∀ x : Fin N → K, (N : K) * eps ^ 2 * ∑ c, x c ^ 2 ≤ ∑ r, ((ofFlat N a).mulVec x r) ^ 2) :
    (invert eps N a).isSome = true ∧ determinant eps N a = (ofFlat N a).det := by
  have hcond : ∀ x : Nat → K, (N : K) * eps ^ 2 * ∑ c : Fin N, x c ^ 2 ≤ ∑ r : Fin N, (∑ c : Fin N, a (r * N + c) * x c) ^ 2 :=
    fun x => hA fun c => x c
  by_cases hs : N = 1 ∨ N = 2 ∨ N = 3
  · refine ⟨?_, (small_complete eps N hs a).1⟩
    rw [Option.isSome_iff_ne_none]
    intro hn
    have h0 := (small_complete eps N hs a).2.1 hn
    obtain ⟨v, hv, hz⟩ := Matrix.exists_mulVec_eq_zero_iff.2 h0
    have h1 := hA v
    simp only [hz, Pi.zero_apply, ne_eq, OfNat.ofNat_ne_zero, not_false_eq_true, zero_pow, Finset.sum_const_zero] at h1
    have hpos : 0 < ∑ c, v c ^ 2 := by
      obtain ⟨c, hc⟩ := Function.ne_iff.1 hv
      exact Finset.sum_pos' (fun _ _ => sq_nonneg _) ⟨c, Finset.mem_univ c, by have : v c ≠ 0 := hc; positivity⟩
    have hm : (0 : K) < N := by exact_mod_cast hN
    have := mul_pos (mul_pos hm (pow_pos heps 2)) hpos
    linarith
  · refine ⟨?_, ?_⟩
    · unfold invert
      rw [if_neg (by omega), if_neg (by omega), if_neg (by omega), Option.isSome_map]
      exact lu_conditioned eps heps N N (fun r c => a (r * N + c)) _ hcond
    · rcases determinant_spec_partial eps heps N hN a with h3 | h3
      · exact h3
      · have := lu_conditioned eps heps N 0 (fun r c => a (r * N + c)) (fun _ _ => 0) hcond
        rw [h3.2.2] at this
        exact absurd this (by simp)

/-- The identity, and any multiple of it by at least `sqrt N * eps`, is well-conditioned. -/
example : ∀ x : Fin 4 → ℚ, (4 : ℚ) * (1 / 1000) ^ 2 * ∑ c, x c ^ 2 ≤
    ∑ r, ((ofFlat 4 fun k => if k % 5 = 0 then (1 / 100 : ℚ) else 0).mulVec x r) ^ 2 := by
  intro x
  simp only [Matrix.mulVec, dotProduct, ofFlat, Fin.sum_univ_four]
  norm_num
  nlinarith [sq_nonneg (x 0), sq_nonneg (x 1), sq_nonneg (x 2), sq_nonneg (x 3)]

/-- A 4x4 array for the examples. -/
def sample4 : Nat → ℚ := fun k => ([0, 2, 0, 1, 3, 0, 0, 0, 1, 1, 4, 0, 0, 1, 2, 5] : List ℚ).getD k 0

example : determinant (1/1000) 4 sample4 = -114 ∧ (invert (1/1000) 4 sample4).isSome = true := by decide +kernel

/-- C21 fails for the determinant and the inverse of matrices with small pivots (size at least 4): a diagonal matrix whose
first entry is half the tolerance has a non-zero determinant and an inverse, but `determinant` returns 0 and `invert`
fails. -/
theorem determinant_small_pivot :
    ∃ a : Nat → ℚ, (ofFlat 4 a).det ≠ 0 ∧ determinant (1/1000) 4 a = 0 ∧ invert (1/1000) 4 a = none := by
  refine ⟨fun k => if k % 5 = 0 then (if k = 0 then 1/2000 else 1) else 0, ?_, by decide +kernel, ?_⟩
  · have : ofFlat 4 (fun k => if k % 5 = 0 then (if k = 0 then (1/2000 : ℚ) else 1) else 0) =
        Matrix.diagonal ![1/2000, 1, 1, 1] := by
      ext r c
      fin_cases r <;> fin_cases c <;> simp [ofFlat, Matrix.diagonal]
    rw [this, Matrix.det_diagonal]
    simp [Fin.prod_univ_four]
  · rw [← Option.not_isSome_iff_eq_none]
    decide +kernel

end Litiv.LU
