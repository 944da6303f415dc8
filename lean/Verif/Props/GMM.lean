import Verif.Lemmas.GMM

/-!
# Properties C101 and C102: learning of Gaussian mixtures, their densities
-/

namespace Litiv.GMM

open MeasureTheory

/-- The covariance matrix of component `c` as returned by the accessor. -/
def covOf (C D : Nat) (g : Gmm) (c : Nat) : Matrix (Fin D) (Fin D) ℝ := fun i j => covMat C D g c (i * D + j)

/-- The mean of component `c` as returned by the accessor. -/
def meanOf (C D : Nat) (g : Gmm) (c : Nat) : Fin D → ℝ := fun d => mean C D g c d

/-- A point of `ℝ^D` as an array. -/
def arr {D : Nat} (y : Fin D → ℝ) : Nat → ℝ := fun d => if h : d < D then y ⟨d, h⟩ else 0

/-- C101: a learning session never throws, whatever the samples (none, identical ones, degenerate ones), the component counts and the previous
state; it leaves learning mode and writes nothing outside the model data. -/
theorem learn_defined (C D : Nat) (hD : 0 < D) (hD2 : D ≤ 10 ^ 20) (g : Gmm) (S : List (Nat × (Nat → ℝ))) :
    ∃ g', learn luEps C D g S = some g' ∧ g'.learning = false ∧ ∀ k, modelSize C D ≤ k → g'.data k = g.data k := by
  obtain ⟨g', h1, h2, h3, _⟩ := learn_main C D hD hD2 g S
  exact ⟨g', h1, h2, h3⟩

/-- C101: the weight of each component is its share of the samples, and the weights sum to 1. -/
theorem learn_weights (C D : Nat) (hD : 0 < D) (hD2 : D ≤ 10 ^ 20) (g g' : Gmm) (S : List (Nat × (Nat → ℝ)))
    (h : learn luEps C D g S = some g') :
    (∀ c, c < C → Spec.comp S c = [] → weight g' c = 0) ∧
    (∀ c, c < C → S ≠ [] → weight g' c = (Spec.comp S c).length / S.length) ∧
    (S ≠ [] → (∀ s ∈ S, s.1 < C) → ∑ c : Fin C, weight g' c = 1) := by
  obtain ⟨g2, h1, _, _, h4⟩ := learn_main C D hD hD2 g S
  rw [h] at h1
  injection h1 with h1
  subst h1
  have hw : ∀ c, c < C → weight g' c = (Spec.comp S c).length / S.length := by
    intro c hc
    by_cases he : Spec.comp S c = []
    · rw [he]
      show g'.data c = _
      rw [((h4 c hc).1 he).1]
      simp
    · obtain ⟨a, out, nu, hw, _⟩ := (h4 c hc).2 he
      exact hw
  refine ⟨fun c hc he => ((h4 c hc).1 he).1, fun c hc _ => hw c hc, fun hne hS => ?_⟩
  have hpos : (S.length : ℝ) ≠ 0 := by
    have := List.length_pos_iff.2 hne
    positivity
  calc ∑ c : Fin C, weight g' c = ∑ c : Fin C, ((Spec.comp S c).length : ℝ) / S.length := Finset.sum_congr rfl fun c _ => hw c c.2
    _ = (∑ c : Fin C, ((Spec.comp S c).length : ℝ)) / S.length := by rw [Finset.sum_div]
    _ = 1 := by
      rw [← Nat.cast_sum, comp_length_sum C S hS, div_self hpos]

/-- C101: the mean of a component is the mean of its samples; its covariance matrix is the covariance matrix of its samples, with `0.01` added to
the diagonal when the determinant is below `1e-6` (and, in dimensions up to 3, only then). -/
theorem learn_params (C D : Nat) (hD : 0 < D) (hD2 : D ≤ 10 ^ 20) (g g' : Gmm) (S : List (Nat × (Nat → ℝ)))
    (h : learn luEps C D g S = some g') (c : Nat) (hc : c < C) (hne : Spec.comp S c ≠ []) :
    (∀ d, d < D → mean C D g' c d = Spec.mean (Spec.comp S c) d) ∧
    ∃ nu : ℝ, covOf C D g' c = Spec.cov D (Spec.comp S c) + nu • (1 : Matrix (Fin D) (Fin D) ℝ) ∧ (nu = 0 ∨ nu = 1 / 100) ∧
      ((Spec.cov D (Spec.comp S c)).det < 1 / 10 ^ 6 → nu = 1 / 100) ∧
      (D ≤ 3 → nu = 1 / 100 → (Spec.cov D (Spec.comp S c)).det < 1 / 10 ^ 6) ∧ (covOf C D g' c).PosDef := by
  obtain ⟨g2, h1, _, _, h4⟩ := learn_main C D hD hD2 g S
  rw [h] at h1
  injection h1 with h1
  subst h1
  obtain ⟨a, out, nu, q1, q2, q3, q4, q5, q6, q7, q8, q9, q10, q11, q12, q13, q14⟩ := (h4 c hc).2 hne
  have ha : covOf C D g' c = LU.ofFlat D a := by
    ext i j
    exact q3 _ (mat_idx D i j i.2 j.2).1
  exact ⟨q2, nu, by rw [ha, q9], q12, q13, q14, by rw [ha]; exact q8⟩

/-- C101: a component without samples keeps its mean and covariance matrix. -/
theorem learn_empty (C D : Nat) (hD : 0 < D) (hD2 : D ≤ 10 ^ 20) (g g' : Gmm) (S : List (Nat × (Nat → ℝ)))
    (h : learn luEps C D g S = some g') (c : Nat) (hc : c < C) (he : Spec.comp S c = []) :
    meanOf C D g' c = meanOf C D g c ∧ covOf C D g' c = covOf C D g c := by
  obtain ⟨g2, h1, _, _, h4⟩ := learn_main C D hD hD2 g S
  rw [h] at h1
  injection h1 with h1
  subst h1
  have hf := ((h4 c hc).1 he).2
  refine ⟨?_, ?_⟩
  · funext d
    refine hf _ (.mean d d.2) ?_
    have : oMeans C D = C := rfl
    omega
  · ext i j
    refine hf _ (.cov _ (mat_idx D i j i.2 j.2).1) ?_
    have : oCovs C D = C + D * C := rfl
    omega

/-- C101: the order in which the samples are added does not matter. -/
theorem learn_perm (eps : ℝ) (C D : Nat) (g : Gmm) (S T : List (Nat × (Nat → ℝ))) (h : S.Perm T) :
    learn eps C D g S = learn eps C D g T := by
  unfold learn
  have : S.foldl (addSample D) (initLearning C D g) = T.foldl (addSample D) (initLearning C D g) := by
    refine h.foldl_eq' ?_ _
    intro x _ y _ z
    exact addSample_comm D z x y
  rw [this]

/-- C101: a constructed mixture has weights, means and covariance matrices 0, density 0 everywhere. -/
theorem construct_zero (C D : Nat) (hC : 0 < C) (junk : Gmm) (x : Nat → ℝ) :
    (∀ c, c < C → weight (construct C D junk) c = 0) ∧ (∀ c, c < C → meanOf C D (construct C D junk) c = 0) ∧
    (∀ c, c < C → covOf C D (construct C D junk) c = 0) ∧ mixture C D (construct C D junk) x = 0 := by
  have h0 : ∀ c k, c < C → Own C D c k → (construct C D junk).data k = 0 := fun c k hc hk => if_pos (own_bound C D c k hc hk)
  refine ⟨fun c hc => h0 c _ hc .w, fun c hc => ?_, fun c hc => ?_, ?_⟩
  · funext d
    exact h0 c _ hc (.mean d d.2)
  · ext i j
    exact h0 c _ hc (.cov _ (mat_idx D i j i.2 j.2).1)
  · unfold mixture
    rw [range_fold_sum (fun c => (construct C D junk).data c * density C D (construct C D junk) c x), h0 (C - 1) _ (by omega) .w, zero_mul, zero_add]
    apply Finset.sum_eq_zero
    intro c _
    rw [h0 c _ (by omega) .w, zero_mul]

/-- C102: the density of a component that was given samples is the normal density of its mean and covariance matrix; the density of a component
without samples is 0. -/
theorem density_gauss (C D : Nat) (hD : 0 < D) (hD2 : D ≤ 10 ^ 20) (g g' : Gmm) (S : List (Nat × (Nat → ℝ)))
    (h : learn luEps C D g S = some g') (c : Nat) (hc : c < C) (x : Nat → ℝ) :
    (Spec.comp S c ≠ [] → density C D g' c x = Spec.gauss D (meanOf C D g' c) (covOf C D g' c) fun d => x d) ∧
    (Spec.comp S c = [] → density C D g' c x = 0) := by
  obtain ⟨g2, h1, _, _, h4⟩ := learn_main C D hD hD2 g S
  rw [h] at h1
  injection h1 with h1
  subst h1
  refine ⟨fun hne => ?_, fun he => ?_⟩
  · obtain ⟨a, out, nu, q1, q2, q3, q4, q5, q6, q7, q8, q9, q10, q11, q12, q13, q14⟩ := (h4 c hc).2 hne
    have ha : covOf C D g' c = LU.ofFlat D a := by
      ext i j
      exact q3 _ (mat_idx D i j i.2 j.2).1
    have hw : 0 < g'.data c := by
      rw [q1]
      have h1 := List.length_pos_iff.2 hne
      have h2 : (Spec.comp S c).length ≤ S.length := by
        unfold Spec.comp
        rw [List.length_map]
        exact List.length_filter_le _ _
      have h3 : 0 < S.length := by omega
      positivity
    rw [ha]
    exact density_stored C D hD g' c hw a out q4 q6 q7 x
  · unfold density
    rw [if_neg]
    rw [((h4 c hc).1 he).1]
    exact lt_irrefl _

/-- C102: the density of the mixture is the sum of the normal densities of the components that were given samples, weighted by their share. -/
theorem mixture_gauss (C D : Nat) (hC : 0 < C) (hD : 0 < D) (hD2 : D ≤ 10 ^ 20) (g g' : Gmm) (S : List (Nat × (Nat → ℝ)))
    (h : learn luEps C D g S = some g') (x : Nat → ℝ) :
    mixture C D g' x = ∑ c : Fin C, if Spec.comp S c = [] then 0
      else (Spec.comp S c).length / S.length * Spec.gauss D (meanOf C D g' c) (covOf C D g' c) fun d => x d := by
  unfold mixture
  rw [range_fold_sum (fun c => g'.data c * density C D g' c x)]
  obtain ⟨n, rfl⟩ : ∃ n, C = n + 1 := ⟨C - 1, by omega⟩
  have ht : ∀ c : Nat, c < n + 1 → g'.data c * density (n + 1) D g' c x = if Spec.comp S c = [] then 0
      else (Spec.comp S c).length / S.length * Spec.gauss D (meanOf (n + 1) D g' c) (covOf (n + 1) D g' c) fun d => x d := by
    intro c hc
    obtain ⟨d1, d2⟩ := density_gauss (n + 1) D hD hD2 g g' S h c hc x
    obtain ⟨w1, w2, _⟩ := learn_weights (n + 1) D hD hD2 g g' S h
    by_cases he : Spec.comp S c = []
    · rw [if_pos he, d2 he, mul_zero]
    · rw [if_neg he, d1 he]
      have hS : S ≠ [] := by rintro rfl; exact he rfl
      have := w2 c hc hS
      unfold weight at this
      rw [this]
  rw [Fin.sum_univ_castSucc, add_comm]
  simp only [Nat.add_sub_cancel, Fin.val_castSucc, Fin.val_last]
  rw [ht n (by omega)]
  congr 1
  exact Finset.sum_congr rfl fun c _ => ht c (by omega)

/-- C102: a learned mixture is a probability density: non-negative, with integral 1 over `ℝ^D`. -/
theorem mixture_integral (C D : Nat) (hC : 0 < C) (hD : 0 < D) (hD2 : D ≤ 10 ^ 20) (g g' : Gmm) (S : List (Nat × (Nat → ℝ)))
    (h : learn luEps C D g S = some g') (hne : S ≠ []) (hS : ∀ s ∈ S, s.1 < C) :
    (∀ x, 0 ≤ mixture C D g' x) ∧ ∫ y : Fin D → ℝ, mixture C D g' (arr y) = 1 := by
  refine ⟨fun x => ?_, ?_⟩
  · rw [mixture_gauss C D hC hD hD2 g g' S h]
    apply Finset.sum_nonneg
    intro c _
    split
    · exact le_rfl
    · apply mul_nonneg (by positivity)
      unfold Spec.gauss
      positivity
  · have e : ∀ y : Fin D → ℝ, mixture C D g' (arr y) = ∑ c : Fin C, if Spec.comp S c = [] then 0
        else (Spec.comp S c).length / S.length * Spec.gauss D (meanOf C D g' c) (covOf C D g' c) y := by
      intro y
      rw [mixture_gauss C D hC hD hD2 g g' S h]
      have : (fun d : Fin D => arr y d) = y := by
        funext d
        unfold arr
        rw [dif_pos d.2]
      rw [this]
    simp only [e]
    have hpd : ∀ c : Fin C, Spec.comp S c ≠ [] → (covOf C D g' c).PosDef := by
      intro c he
      obtain ⟨_, nu, _, _, _, _, hp⟩ := learn_params C D hD hD2 g g' S h c c.2 he
      exact hp
    rw [integral_finset_sum]
    · obtain ⟨_, w2, w3⟩ := learn_weights C D hD hD2 g g' S h
      rw [← w3 hne hS]
      apply Finset.sum_congr rfl
      intro c _
      rw [w2 c c.2 hne]
      by_cases he : Spec.comp S c = []
      · simp [he]
      · simp only [if_neg he]
        rw [integral_const_mul, integral_gauss D _ _ (hpd c he), mul_one]
    · intro c _
      by_cases he : Spec.comp S c = []
      · simp only [if_pos he]
        exact integrable_zero _ _ _
      · simp only [if_neg he]
        exact (integrable_gauss D _ _ (hpd c he)).const_mul _

/-- C102: the best component of a sample is one of largest density; among several of these, the last component is preferred, then the first. -/
theorem best_max (C D : Nat) (hC : 0 < C) (g : Gmm) (x : Nat → ℝ) :
    best C D g x < C ∧ (∀ c, c < C → density C D g c x ≤ density C D g (best C D g x) x) ∧
    (best C D g x = C - 1 ∨ (density C D g (C - 1) x < density C D g (best C D g x) x ∧
      ∀ c, c < best C D g x → density C D g c x < density C D g (best C D g x) x)) := by
  obtain ⟨h1, h2, h3, h4, h5⟩ := best_fold (fun c => density C D g c x) (C - 1) (C - 1)
  unfold best
  rw [h1] at h3 h4 h5
  refine ⟨by omega, fun c hc => ?_, h5⟩
  rcases Nat.lt_or_ge c (C - 1) with hl | hl
  · exact h4 c hl
  · have : c = C - 1 := by omega
    rw [this]
    exact h3

/-- C102 (part): in debug builds and dimensions up to 7, no assertion fails when a learned mixture is evaluated. Missing: dimension 8 and above
(`debug_assertion_refuted`). -/
theorem debug_assertion_partial (C D : Nat) (hD : 0 < D) (hD7 : D ≤ 7) (g g' : Gmm) (S : List (Nat × (Nat → ℝ)))
    (h : learn luEps C D g S = some g') (c : Nat) (hc : c < C) (x : Nat → ℝ) :
    densityDbg C D g' c x = some (density C D g' c x) := by
  obtain ⟨g2, h1, h2, _, h4⟩ := learn_main C D hD (by omega) g S
  rw [h] at h1
  injection h1 with h1
  subst h1
  unfold densityDbg
  rw [h2, if_neg (by simp), if_neg]
  rintro ⟨p1, p2⟩
  apply p2
  by_cases he : Spec.comp S c = []
  · rw [((h4 c hc).1 he).1] at p1
    exact absurd p1 (lt_irrefl _)
  · obtain ⟨a, out, nu, q1, q2, q3, q4, q5, q6, q7, q8, q9, q10, q11, q12, q13, q14⟩ := (h4 c hc).2 he
    rw [q5]
    rcases q12 with h0 | h0
    · exact lt_of_lt_of_le (by norm_num) (q10 h0)
    · refine lt_of_lt_of_le ?_ (q11 h0)
      have : (1 / 100 : ℝ) ^ 7 ≤ (1 / 100) ^ D := pow_le_pow_of_le_one (by norm_num) (by norm_num) hD7
      refine lt_of_lt_of_le ?_ this
      norm_num

/-- C102: in dimension 8, a component whose samples are all equal gets covariance matrix `0.01` times the identity, whose determinant `1e-16` is below the
machine epsilon: evaluating the mixture fails an assertion in debug builds. -/
theorem debug_assertion_refuted (g : Gmm) (x : Nat → ℝ) :
    ∃ g', learn luEps 1 8 g [(0, fun _ => 5), (0, fun _ => 5)] = some g' ∧ densityDbg 1 8 g' 0 x = none := by
  obtain ⟨g', h1, h2, _, h4⟩ := learn_main 1 8 (by norm_num) (by norm_num) g [(0, fun _ => 5), (0, fun _ => 5)]
  refine ⟨g', h1, ?_⟩
  have hcomp : Spec.comp [(0, fun _ => (5 : ℝ)), (0, fun _ => 5)] 0 = [fun _ => 5, fun _ => 5] := by simp [Spec.comp]
  obtain ⟨a, out, nu, q1, q2, q3, q4, q5, q6, q7, q8, q9, q10, q11, q12, q13, q14⟩ := (h4 0 (by norm_num)).2 (by rw [hcomp]; simp)
  rw [hcomp] at q1 q9 q13
  have hcov : Spec.cov 8 [fun _ => (5 : ℝ), fun _ => 5] = 0 := by
    ext i j
    simp [Spec.cov, Spec.mean]
  rw [hcov] at q9 q13
  have hnu : nu = 1 / 100 := q13 (by rw [Matrix.det_zero]; norm_num)
  have hdet : (LU.ofFlat 8 a).det = (1 / 100) ^ 8 := by
    rw [q9, hnu, zero_add, Matrix.det_smul, Matrix.det_one, mul_one, Fintype.card_fin]
  unfold densityDbg
  rw [h2, if_neg (by simp), if_pos]
  refine ⟨?_, ?_⟩
  · rw [q1]; simp
  · rw [q5, hdet]
    norm_num

/-! ### The hypotheses are met -/

/-- Three samples in two components. -/
def sampleData : List (Nat × (Nat → ℝ)) := [(0, fun _ => 0), (0, fun _ => 2), (1, fun d => d)]

example : Spec.comp sampleData 0 ≠ [] ∧ Spec.comp sampleData 1 ≠ [] ∧ Spec.comp sampleData 2 = [] ∧ ∀ s ∈ sampleData, s.1 < 3 := by
  simp [Spec.comp, sampleData]

example (g : Gmm) : ∃ g', learn luEps 3 2 g sampleData = some g' ∧ weight g' 0 = 2 / 3 ∧ weight g' 2 = 0 ∧ mean 3 2 g' 0 1 = 1 := by
  obtain ⟨g', h, _⟩ := learn_defined 3 2 (by norm_num) (by norm_num) g sampleData
  obtain ⟨w1, w2, _⟩ := learn_weights 3 2 (by norm_num) (by norm_num) g g' _ h
  obtain ⟨p1, _⟩ := learn_params 3 2 (by norm_num) (by norm_num) g g' _ h 0 (by norm_num) (by simp [Spec.comp, sampleData])
  refine ⟨g', h, ?_, w1 2 (by norm_num) (by simp [Spec.comp, sampleData]), ?_⟩
  · rw [w2 0 (by norm_num) (by simp [sampleData])]
    simp [Spec.comp, sampleData]
  · rw [p1 1 (by norm_num)]
    simp [Spec.comp, Spec.mean, sampleData]

example : (Spec.cov 1 [fun _ => (0 : ℝ), fun _ => 2]).det = 1 := by
  simp [Spec.cov, Spec.mean]
  norm_num

end Litiv.GMM
