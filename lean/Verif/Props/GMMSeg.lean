import Verif.Lemmas.GMMSeg

/-!
# Property C103: foreground and background mixtures are trained on their own pixels
-/

namespace Litiv.GMMSeg

open Litiv.GMM

theorem train_defined (km : Kmeans) (hk : Spec.KmeansOk km) (C D : Nat) (hC : 0 < C) (hD : 0 < D) (hD2 : D ≤ 10 ^ 20) (g : Gmm)
    (img : Nat → Nat → ℝ) (b : Buf) (P : List Nat) (h : Holds D img b P) (hn : P.length ≤ D ∨ C ≤ P.length) :
    ∃ g', train km C D g b = some g' ∧ (P.length ≤ D → ∀ c, c < C → weight g' c = 0) ∧
      (D < P.length → ∃ lab, km (P.map fun k => (List.range D).map (img k)) C = some lab ∧ (∀ i, i < P.length → lab i < C) ∧
        learn luEps C D g (Spec.labelled img P lab) = some g') := by
  rw [train_spec km C D g img b P h]
  by_cases hc : P.length ≤ D
  · rw [if_pos hc]
    obtain ⟨g', h1, _⟩ := learn_defined C D hD hD2 g []
    exact ⟨g', h1, fun _ c hc => (learn_weights C D hD hD2 g g' [] h1).1 c hc rfl, fun h => absurd h (by omega)⟩
  · rw [if_neg hc]
    obtain ⟨lab, h1, h2⟩ := hk.labels (P.map fun k => (List.range D).map (img k)) C hC (by rw [List.length_map]; omega)
    rw [h1]
    obtain ⟨g', h3, _⟩ := learn_defined C D hD hD2 g (Spec.labelled img P lab)
    exact ⟨g', h3, fun h => absurd h hc, fun _ => ⟨lab, rfl, fun i hi => h2 i (by rw [List.length_map]; exact hi), h3⟩⟩

/-- C103 (part): `initGaussianMixtureParams` trains the background mixture on the background pixels of the region with the clusters found by `kmeans` in
them, and the foreground mixture likewise, whatever the previous contents of the static buffers; a segment with no more pixels than dimensions
leaves an empty mixture. Missing: segments with more pixels than dimensions but fewer than components (`init_small_refuted`). -/
theorem init_spec_partial (km : Kmeans) (hk : Spec.KmeansOk km) (C1 C2 D : Nat) (hC1 : 0 < C1) (hC2 : 0 < C2) (hD : 0 < D) (hD2 : D ≤ 10 ^ 20)
    (img : Nat → Nat → ℝ) (mask roi : Nat → Bool) (n : Nat) (bg0 fg0 : Nat → ℝ) (gb gf : Gmm) (P Q : List Nat)
    (hP : P = Spec.segment mask roi n false) (hQ : Q = Spec.segment mask roi n true)
    (h1 : P.length ≤ D ∨ C1 ≤ P.length) (h2 : Q.length ≤ D ∨ C2 ≤ Q.length) :
    ∃ gb' gf', initParams km C1 C2 D img mask roi n bg0 fg0 gb gf = some (gb', gf') ∧
      (P.length ≤ D → ∀ c, c < C1 → weight gb' c = 0) ∧
      (D < P.length → ∃ lab, km (P.map fun k => (List.range D).map (img k)) C1 = some lab ∧ (∀ i, i < P.length → lab i < C1) ∧
        learn luEps C1 D gb (Spec.labelled img P lab) = some gb') ∧
      (Q.length ≤ D → ∀ c, c < C2 → weight gf' c = 0) ∧
      (D < Q.length → ∃ lab, km (Q.map fun k => (List.range D).map (img k)) C2 = some lab ∧ (∀ i, i < Q.length → lab i < C2) ∧
        learn luEps C2 D gf (Spec.labelled img Q lab) = some gf') := by
  obtain ⟨s1, s2⟩ := separate_spec D img mask roi n bg0 fg0
  rw [← hP] at s1
  rw [← hQ] at s2
  obtain ⟨gb', b1, b2, b3⟩ := train_defined km hk C1 D hC1 hD hD2 gb img _ P s1 h1
  obtain ⟨gf', f1, f2, f3⟩ := train_defined km hk C2 D hC2 hD hD2 gf img _ Q s2 h2
  refine ⟨gb', gf', ?_, b2, b3, f2, f3⟩
  unfold initParams
  dsimp only
  rw [b1, f1]
  rfl

/-- C103: `initGaussianMixtureParams` throws when a segment has more pixels than dimensions but fewer than components, as four pixels of three channels with the
default five components, since `cv::kmeans` cannot find more clusters than samples. -/
theorem init_small_refuted (km : Kmeans) (hk : Spec.KmeansOk km) (img : Nat → Nat → ℝ) (bg0 fg0 : Nat → ℝ) (gb gf : Gmm) :
    initParams km 5 5 3 img (fun _ => false) (fun _ => true) 4 bg0 fg0 gb gf = none := by
  obtain ⟨s1, _⟩ := separate_spec 3 img (fun _ => false) (fun _ => true) 4 bg0 fg0
  have hseg : Spec.segment (fun _ => false) (fun _ => true) 4 false = [0, 1, 2, 3] := by decide
  rw [hseg] at s1
  unfold initParams
  dsimp only
  rw [train_spec km 5 3 gb img _ _ s1, if_neg (by decide), hk.fails _ 5 (by simp)]
  rfl

/-- C103: `assignGaussianMixtureComponents` labels every pixel of the region with a component, of the mixture of its segment, of largest density at the
pixel. -/
theorem assign_best (C1 C2 D : Nat) (hC1 : 0 < C1) (hC2 : 0 < C2) (img : Nat → Nat → ℝ) (mask roi : Nat → Bool) (n : Nat) (gb gf : Gmm) (old : Nat → Int)
    (k : Nat) (hk : k < n) (hr : roi k = true) :
    let l := assign C1 C2 D img mask roi n gb gf old k
    0 ≤ l ∧
    (mask k = false → l < C1 ∧ ∀ c, c < C1 → density C1 D gb c (img k) ≤ density C1 D gb l.toNat (img k)) ∧
    (mask k = true → l < C2 ∧ ∀ c, c < C2 → density C2 D gf c (img k) ≤ density C2 D gf l.toNat (img k)) := by
  dsimp only
  rw [assign_eq, if_pos (show k < n ∧ roi k = true from ⟨hk, hr⟩)]
  cases hm : mask k with
  | false =>
    rw [if_neg (by simp)]
    obtain ⟨b1, b2, _⟩ := best_max C1 D hC1 gb (img k)
    exact ⟨by omega, fun _ => ⟨by omega, b2⟩, fun h => absurd h (by simp)⟩
  | true =>
    rw [if_pos rfl]
    obtain ⟨b1, b2, _⟩ := best_max C2 D hC2 gf (img k)
    exact ⟨by omega, fun h => absurd h (by simp), fun _ => ⟨by omega, b2⟩⟩

/-- C103: pixels outside of the region keep whatever was in the output map. -/
theorem assign_outside (C1 C2 D : Nat) (img : Nat → Nat → ℝ) (mask roi : Nat → Bool) (n : Nat) (gb gf : Gmm) (old : Nat → Int) (k : Nat)
    (h : n ≤ k ∨ roi k = false) : assign C1 C2 D img mask roi n gb gf old k = old k := by
  rw [assign_eq, if_neg]
  rintro ⟨h1, h2⟩
  rcases h with h | h
  · omega
  · rw [h] at h2; exact absurd h2 (by simp)

/-- C103: `learnGaussianMixtureParams` never throws, and trains each mixture on the pixels of its segment whose label is a component of that mixture,
whatever the labels. -/
theorem relearn_spec (C1 C2 D : Nat) (hD : 0 < D) (hD2 : D ≤ 10 ^ 20) (img : Nat → Nat → ℝ) (mask roi : Nat → Bool) (n : Nat)
    (labels : Nat → Int) (gb gf : Gmm) :
    ∃ gb' gf', relearn C1 C2 D img mask roi n labels gb gf = some (gb', gf') ∧
      learn luEps C1 D gb (Spec.valid C1 img labels (Spec.segment mask roi n false)) = some gb' ∧
      learn luEps C2 D gf (Spec.valid C2 img labels (Spec.segment mask roi n true)) = some gf' := by
  obtain ⟨gb', h1, _⟩ := learn_defined C1 D hD hD2 gb (Spec.valid C1 img labels (Spec.segment mask roi n false))
  obtain ⟨gf', h2, _⟩ := learn_defined C2 D hD hD2 gf (Spec.valid C2 img labels (Spec.segment mask roi n true))
  refine ⟨gb', gf', ?_, h1, h2⟩
  unfold relearn
  dsimp only
  rw [relearnLoop_eq]
  unfold learn at h1 h2
  rw [h1, h2]
  rfl

/-- C103: learning after an assignment uses every pixel of the region: the weights of the mixture of a segment with a pixel sum to 1. -/
theorem round_weights (C1 C2 D : Nat) (hC1 : 0 < C1) (hC2 : 0 < C2) (hD : 0 < D) (hD2 : D ≤ 10 ^ 20) (img : Nat → Nat → ℝ)
    (mask roi : Nat → Bool) (n : Nat) (gb gf gb' gf' : Gmm) (old : Nat → Int)
    (h : relearn C1 C2 D img mask roi n (assign C1 C2 D img mask roi n gb gf old) gb gf = some (gb', gf')) :
    ((∃ k, k < n ∧ roi k = true ∧ mask k = false) → ∑ c : Fin C1, weight gb' c = 1) ∧
    ((∃ k, k < n ∧ roi k = true ∧ mask k = true) → ∑ c : Fin C2, weight gf' c = 1) := by
  obtain ⟨gb2, gf2, h1, h2, h3⟩ := relearn_spec C1 C2 D hD hD2 img mask roi n (assign C1 C2 D img mask roi n gb gf old) gb gf
  rw [h] at h1
  injection h1 with h1
  injection h1 with e1 e2
  subst e1 e2
  have hlab := fun k hk hr => assign_best C1 C2 D hC1 hC2 img mask roi n gb gf old k hk hr
  refine ⟨?_, ?_⟩
  · rintro ⟨k, k1, k2, k3⟩
    refine (learn_weights C1 D hD hD2 gb gb' _ h2).2.2 ?_ ?_
    · unfold Spec.valid Spec.segment
      rw [Ne, List.map_eq_nil_iff, List.filter_eq_nil_iff]
      intro hall
      have := hall k (by rw [List.mem_filter]; exact ⟨List.mem_range.2 k1, by simp [k2, k3]⟩)
      obtain ⟨l1, l2, _⟩ := hlab k k1 k2
      exact this (by simpa using ⟨l1, (l2 k3).1⟩)
    · intro s hs
      unfold Spec.valid at hs
      obtain ⟨k, hk, rfl⟩ := List.mem_map.1 hs
      have := (List.mem_filter.1 hk).2
      have h2 : 0 ≤ assign C1 C2 D img mask roi n gb gf old k ∧ assign C1 C2 D img mask roi n gb gf old k < C1 := by simpa using this
      dsimp only
      omega
  · rintro ⟨k, k1, k2, k3⟩
    refine (learn_weights C2 D hD hD2 gf gf' _ h3).2.2 ?_ ?_
    · unfold Spec.valid Spec.segment
      rw [Ne, List.map_eq_nil_iff, List.filter_eq_nil_iff]
      intro hall
      have := hall k (by rw [List.mem_filter]; exact ⟨List.mem_range.2 k1, by simp [k2, k3]⟩)
      obtain ⟨l1, _, l2⟩ := hlab k k1 k2
      exact this (by simpa using ⟨l1, (l2 k3).1⟩)
    · intro s hs
      unfold Spec.valid at hs
      obtain ⟨k, hk, rfl⟩ := List.mem_map.1 hs
      have := (List.mem_filter.1 hk).2
      have h2 : 0 ≤ assign C1 C2 D img mask roi n gb gf old k ∧ assign C1 C2 D img mask roi n gb gf old k < C2 := by simpa using this
      dsimp only
      omega

/-! ### The hypotheses are met -/

example : Spec.segment (fun k => k % 2 == 0) (fun k => k != 3) 6 true = [0, 2, 4] ∧ Spec.segment (fun k => k % 2 == 0) (fun k => k != 3) 6 false = [1, 5] := by
  decide

/-- A clustering that meets the contract. -/
example : Spec.KmeansOk fun S K => if S.length < K then none else some fun i => i % K :=
  ⟨fun _ _ h => if_pos h, fun _ _ hK h => ⟨_, if_neg (by omega), fun i _ => Nat.mod_lt i hK⟩⟩

end Litiv.GMMSeg
