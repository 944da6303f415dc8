import Verif.Lemmas.BsdsScore

/-!
# Properties C183-C185: scores of the edge map evaluation
-/

namespace Litiv.BsdsScore
open Spec
open Bsds (Counts)

/-! ## C183: best score -/

/-- C183: for every nonempty list of consistent scores, the best score is consistent, lies on the curve through them, and its
F-measure is at least that of every score and of every point at a whole percentage of the way between two
consecutive scores. -/
theorem best_score (l : List Score) (hl : l ≠ []) (hv : ∀ s ∈ l, Valid s) :
    ∃ b, findMax l = some b ∧ Valid b ∧ OnCurve l b ∧ (∀ s ∈ l, s.f ≤ b.f) ∧
      ∀ x y n f, Consecutive l x y → n ≤ 100 → IsF (At x.recall y.recall n) (At x.prec y.prec n) f → f ≤ b.f := by
  match l, hl with
  | s :: l, _ =>
    obtain ⟨h1, h2, h3⟩ := scan_spec l s s hv
    refine ⟨scan s l s, rfl, ?_, ?_, fun t ht => ?_, h3⟩
    · rcases h1 with h1 | ⟨_, _, _, _, _, _, _, _, h1⟩
      · rw [h1]; exact hv s (by simp)
      · exact h1
    · rcases h1 with h1 | ⟨x, y, n, hc, hn, a, b, c, _⟩
      · exact .inl (by rw [h1]; rfl)
      · exact .inr ⟨x, y, n, hc, hn, a, b, c⟩
    · obtain ⟨i, hi⟩ := List.mem_iff_getElem?.1 ht
      match i, hi with
      | 0, hi =>
        simp at hi
        rw [← hi]
        exact h2
      | i + 1, hi =>
        have hlt : i + 1 < (s :: l).length := (List.getElem?_eq_some_iff.1 hi).1
        have hx : (s :: l)[i]? = some (s :: l)[i] := List.getElem?_eq_getElem (by omega)
        refine h3 (s :: l)[i] t 100 t.f ⟨i, hx, hi⟩ (le_refl _) ?_
        have e : ∀ u v : ℚ, At u v 100 = v := by intro u v; unfold At; norm_num
        rw [e, e]
        exact (hv t ht).2.2

/-- Two scores with an interpolated best score: recalls 1/4 and 1, precisions 1 and 1/4. -/
def twoScores : List Score := [⟨1, 1 / 4, 1, 2 / 5⟩, ⟨0, 1, 1 / 4, 2 / 5⟩]

example : (∀ s ∈ twoScores, Valid s) ∧ ∃ b, findMax twoScores = some b ∧ 2 / 5 < b.f := by
  refine ⟨?_, ?_⟩
  · simp only [twoScores, List.mem_cons, List.not_mem_nil, or_false, forall_eq_or_imp, forall_eq, Valid, IsF]
    norm_num
  · obtain ⟨b, h1, _, _, _, h2⟩ := best_score twoScores (by simp [twoScores]) (by
      simp only [twoScores, List.mem_cons, List.not_mem_nil, or_false, forall_eq_or_imp, forall_eq, Valid, IsF]
      norm_num)
    refine ⟨b, h1, lt_of_lt_of_le (b := 5 / 8) (by norm_num) ?_⟩
    exact h2 ⟨1, 1 / 4, 1, 2 / 5⟩ ⟨0, 1, 1 / 4, 2 / 5⟩ 50 _ ⟨0, rfl, rfl⟩ (by norm_num) (by norm_num [At, IsF])

/-! ## C184: cumulated scores -/

/-- C184: for every list of thresholds and every list of images with one entry per threshold, the scores are computed. The
score of a threshold is that of the sums of the counters of all images at this threshold (so it does not depend on the
order of the images). The best score of each image, and that of the thresholds, are the best ones of `best_score`.
The "max" recall and precision are those of the sums of the counters of each image at the first threshold where this
image has its largest F-measure. -/
theorem scores_cumulated (ths : List Nat) (hne : ths ≠ []) (imgs : List (List Counts)) (hlen : ∀ img ∈ imgs, img.length = ths.length) :
    ∃ S, scores ths imgs = some S ∧ S.threshold.length = ths.length ∧
      (∀ (k t : Nat) (s : Score), ths[k]? = some t → S.threshold[k]? = some s →
        ScoreOf t (imgs.map fun img => (img.getD k ⟨0, 0, 0, 0⟩).indivTP).sum (imgs.map fun img => (img.getD k ⟨0, 0, 0, 0⟩).indivTPFN).sum
          (imgs.map fun img => (img.getD k ⟨0, 0, 0, 0⟩).totalTP).sum (imgs.map fun img => (img.getD k ⟨0, 0, 0, 0⟩).totalTPFP).sum s) ∧
      findMax S.threshold = some S.best ∧ S.bestImage.length = imgs.length ∧
      (∀ (i : Nat) (img : List Counts) (b : Score), imgs[i]? = some img → S.bestImage[i]? = some b →
        ∃ l : List Score, l.length = ths.length ∧ findMax l = some b ∧ ∀ (k t : Nat) (c : Counts) (s : Score), ths[k]? = some t → img[k]? = some c →
          l[k]? = some s → ScoreOf t c.indivTP c.indivTPFN c.totalTP c.totalTPFP s) ∧
      ∃ w : List Counts → Nat,
        (∀ img ∈ imgs, ∃ (t : Nat) (c : Counts) (m : Score), ths[w img]? = some t ∧ img[w img]? = some c ∧
          ScoreOf t c.indivTP c.indivTPFN c.totalTP c.totalTPFP m ∧
          ∀ (k t' : Nat) (c' : Counts) (m' : Score), ths[k]? = some t' → img[k]? = some c' →
            ScoreOf t' c'.indivTP c'.indivTPFN c'.totalTP c'.totalTPFP m' → m'.f ≤ m.f ∧ (k < w img → m'.f < m.f)) ∧
        IsRatio (imgs.map fun img => (img.getD (w img) ⟨0, 0, 0, 0⟩).indivTP).sum (imgs.map fun img => (img.getD (w img) ⟨0, 0, 0, 0⟩).indivTPFN).sum S.maxRec ∧
        IsRatio (imgs.map fun img => (img.getD (w img) ⟨0, 0, 0, 0⟩).totalTP).sum (imgs.map fun img => (img.getD (w img) ⟨0, 0, 0, 0⟩).totalTPFP).sum S.maxPrec ∧
        IsF S.maxRec S.maxPrec S.maxF := by
  have hpos : 0 < ths.length := List.length_pos_iff.2 hne
  have hl : ∀ img ∈ imgs, (List.zipWith scoreOf ths img).length = ths.length := by
    intro img hi; rw [List.length_zipWith, hlen img hi, Nat.min_self]
  have hzne : ∀ img ∈ imgs, List.zipWith scoreOf ths img ≠ [] := by
    intro img hi hc
    have := hl img hi
    rw [hc] at this
    simp at this
    omega
  have hmax : ∀ img ∈ imgs, maxIdx (List.zipWith scoreOf ths img) < img.length := by
    intro img hi
    obtain ⟨m, hm, _⟩ := maxIdx_spec _ (hzne img hi)
    have := (List.getElem?_eq_some_iff.1 hm).1
    rw [hl img hi] at this
    rw [hlen img hi]; exact this
  have hfm : ∀ l : List Score, l ≠ [] → (findMax l).isSome := by
    intro l h
    match l, h with
    | _ :: _, _ => rfl
  have hcl : (imgs.foldl (List.zipWith addCounts) (List.replicate ths.length ⟨0, 0, 0, 0⟩)).length = ths.length := by
    rw [foldl_zip_length _ _ (fun i hi => by rw [hlen i hi]; simp)]; simp
  have hthr : (List.zipWith scoreOf ths (imgs.foldl (List.zipWith addCounts) (List.replicate ths.length ⟨0, 0, 0, 0⟩))).length = ths.length := by
    rw [List.length_zipWith, hcl, Nat.min_self]
  obtain ⟨bi, hbi, hbl⟩ := mapM_some (fun img => findMax (List.zipWith scoreOf ths img)) imgs (fun img hi => hfm _ (hzne img hi))
  have hbi' : ∀ (i : Nat) (img : List Counts) (b : Score), imgs[i]? = some img → bi[i]? = some b → findMax (List.zipWith scoreOf ths img) = some b := by
    clear hlen hl hzne hmax hcl hthr
    intro i img b h1 h2
    induction imgs generalizing bi i with
    | nil => simp at h1
    | cons a imgs ih =>
      rw [List.mapM_cons] at hbi
      rcases hx : findMax (List.zipWith scoreOf ths a) with _ | x
      · rw [hx] at hbi; cases hbi
      · rw [hx] at hbi
        rcases hy : imgs.mapM (fun img => findMax (List.zipWith scoreOf ths img)) with _ | y
        · rw [hy] at hbi; cases hbi
        · rw [hy] at hbi
          cases hbi
          match i, h1, h2 with
          | 0, h1, h2 =>
            simp at h1 h2
            rw [← h1, ← h2]; exact hx
          | i + 1, h1, h2 =>
            exact ih y hy (by simpa using hbl) i (by simpa using h1) (by simpa using h2)
  obtain ⟨b, hb⟩ := Option.isSome_iff_exists.1 (hfm (List.zipWith scoreOf ths (imgs.foldl (List.zipWith addCounts) (List.replicate ths.length ⟨0, 0, 0, 0⟩)))
    (by intro hc; rw [hc] at hthr; simp at hthr; omega))
  have hsm := sumMax_spec ths imgs ⟨0, 0, 0, 0⟩ hmax
  unfold scores
  dsimp only
  rw [hbi, Option.bind_some, hsm, Option.bind_some, hb, Option.map_some]
  refine ⟨_, rfl, hthr, fun k t s hk hs => ?_, hb, hbl, fun i img c hi hc => ?_, fun img => maxIdx (List.zipWith scoreOf ths img), ?_, ?_, ?_, ?_⟩
  · have hkl : k < ths.length := (List.getElem?_eq_some_iff.1 hk).1
    have := foldl_zip_getElem imgs (List.replicate ths.length ⟨0, 0, 0, 0⟩) k ⟨0, 0, 0, 0⟩ (by rw [List.getElem?_replicate, if_pos hkl])
      (fun img hi => by rw [hlen img hi]; exact hkl)
    rw [List.getElem?_zipWith, hk, this] at hs
    simp only [Nat.zero_add] at hs
    cases hs
    exact scoreOf_spec t ⟨_, _, _, _⟩
  · refine ⟨_, hl img (List.mem_of_getElem? hi), hbi' i img c hi hc, fun k t d s hk hd hs => ?_⟩
    rw [List.getElem?_zipWith, hk, hd] at hs
    cases hs
    exact scoreOf_spec t d
  · intro img hi
    obtain ⟨m, hm, h1, h2⟩ := maxIdx_spec _ (hzne img hi)
    rw [List.getElem?_zipWith] at hm
    dsimp only
    rcases ht : ths[maxIdx (List.zipWith scoreOf ths img)]? with _ | t
    · rw [ht] at hm; simp at hm
    rcases hc : img[maxIdx (List.zipWith scoreOf ths img)]? with _ | c
    · rw [ht, hc] at hm; simp at hm
    rw [ht, hc] at hm
    cases hm
    refine ⟨t, c, _, rfl, rfl, scoreOf_spec t c, fun k t' c' m' hk hc' hm' => ?_⟩
    have hz : (List.zipWith scoreOf ths img)[k]? = some (scoreOf t' c') := by rw [List.getElem?_zipWith, hk, hc']
    have hr : ∀ (a b : Nat) (x y : ℚ), IsRatio a b x → IsRatio a b y → x = y := by
      rintro a b x y (⟨e1, n1⟩ | ⟨n1, e1⟩) (⟨e2, n2⟩ | ⟨n2, e2⟩)
      · exact mul_right_cancel₀ (by exact_mod_cast n1) (e1.trans e2.symm)
      · exact absurd n2 n1
      · exact absurd n1 n2
      · rw [e1, e2]
    have e : m'.f = (scoreOf t' c').f := by
      obtain ⟨_, a1, a2, a3⟩ := hm'
      obtain ⟨_, b1, b2, b3⟩ := scoreOf_spec t' c'
      rw [hr _ _ _ _ a1 b1, hr _ _ _ _ a2 b2] at a3
      exact isF_unique a3 b3
    rw [e]
    exact ⟨h1 k _ hz, fun h => h2 k _ h hz⟩
  · simpa using ratio_isRatio _ _
  · simpa using ratio_isRatio _ _
  · exact fMeasure_isF _ _ (ratio_nonneg _ _) (ratio_nonneg _ _)

/-- Two images, two thresholds. -/
def twoImages : List (List Counts) := [[⟨8, 10, 6, 9⟩, ⟨4, 10, 4, 4⟩], [⟨3, 5, 3, 6⟩, ⟨0, 5, 0, 0⟩]]

example : ∀ img ∈ twoImages, img.length = [127, 255].length := by decide

example : (scores [127, 255] twoImages).map (fun S => (S.threshold.map (·.recall), S.maxPrec)) = some ([11 / 15, 4 / 15], 3 / 5) := by
  decide +kernel

/-! ## C185: area under the precision-recall curve -/

/-- C185 (part): for every nonempty list of scores and every outcome of the sort, the computation of the area ends with a value only
if all the recalls are equal (the area is then 0). Otherwise it throws a domain error, unless the recalls
span [0, 1], and then it reads one value past the end. Missing: the area under the curve is never computed. -/
theorem area_partial (thr : List Score) (idx : List Nat) (hs : Sorted thr idx) :
    ((∀ s ∈ thr, ∀ t ∈ thr, s.recall = t.recall) → area thr idx = .value 0) ∧
    ((∃ s ∈ thr, ∃ t ∈ thr, s.recall ≠ t.recall) → ((∃ s ∈ thr, s.recall ≤ 0) ∧ ∃ s ∈ thr, 1 ≤ s.recall) → area thr idx = .outOfBounds) ∧
    ((∃ s ∈ thr, ∃ t ∈ thr, s.recall ≠ t.recall) → ¬((∃ s ∈ thr, s.recall ≤ 0) ∧ ∃ s ∈ thr, 1 ≤ s.recall) → area thr idx = .domainError) := by
  obtain ⟨hp, ho⟩ := hs
  set f : Nat → ℚ := fun i => ((thr[i]?).map (·.recall)).getD 0 with hf
  have hmem : ∀ i ∈ idx, ∃ s ∈ thr, f i = s.recall := by
    intro i hi
    have : i < thr.length := List.mem_range.1 (hp.mem_iff.1 hi)
    exact ⟨thr[i], List.getElem_mem this, by simp [hf, List.getElem?_eq_getElem this]⟩
  have hmem' : ∀ s ∈ thr, ∃ i ∈ idx, f i = s.recall := by
    intro s hs
    obtain ⟨i, hi⟩ := List.mem_iff_getElem?.1 hs
    exact ⟨i, hp.mem_iff.2 (List.mem_range.2 (List.getElem?_eq_some_iff.1 hi).1), by simp [hf, hi]⟩
  have hsort : idx.Pairwise fun a b => f a ≤ f b := by
    rw [List.pairwise_iff_getElem]
    intro i j hi hj hij
    have h1 : idx[i] < thr.length := List.mem_range.1 (hp.mem_iff.1 (List.getElem_mem hi))
    have h2 : idx[j] < thr.length := List.mem_range.1 (hp.mem_iff.1 (List.getElem_mem hj))
    have := ho i j idx[i] idx[j] thr[idx[i]] thr[idx[j]] hij (List.getElem?_eq_getElem hi) (List.getElem?_eq_getElem hj)
      (List.getElem?_eq_getElem h1) (List.getElem?_eq_getElem h2)
    simpa [hf, List.getElem?_eq_getElem h1, List.getElem?_eq_getElem h2] using this
  match idx, hp, hmem, hmem', hsort with
  | [], _, _, hmem', _ =>
    refine ⟨fun _ => by simp [area, Seq.stdUnique], ?_, ?_⟩ <;>
    · rintro ⟨s, h, _⟩
      obtain ⟨i, hi, _⟩ := hmem' s h
      simp at hi
  | x :: xs, _, hmem, hmem', hsort =>
    obtain ⟨⟨a, ha, ha'⟩, ⟨b, hb, hb'⟩, hsub, hlen⟩ := unique_go f x xs hsort
    have hmin : ∀ i ∈ x :: xs, f a ≤ f i := by
      intro i hi
      rw [ha']
      rcases List.mem_cons.1 hi with rfl | hi
      · exact le_refl _
      · exact (List.pairwise_cons.1 hsort).1 i hi
    have hamem : a ∈ x :: xs := hsub a (List.mem_of_head? ha)
    have hbmem : b ∈ x :: xs := hsub b (List.mem_of_getLast? hb)
    have hall : (∀ y ∈ xs, f y = f x) ↔ ∀ s ∈ thr, ∀ t ∈ thr, s.recall = t.recall := by
      constructor
      · intro h s hs t ht
        have key : ∀ u ∈ thr, u.recall = f x := by
          intro u hu
          obtain ⟨i, hi, e⟩ := hmem' u hu
          rw [← e]
          rcases List.mem_cons.1 hi with rfl | hi
          · rfl
          · exact h i hi
        rw [key s hs, key t ht]
      · intro h y hy
        obtain ⟨s, hs, e1⟩ := hmem y (by simp [hy])
        obtain ⟨t, ht, e2⟩ := hmem x (by simp)
        rw [e1, e2]; exact h s hs t ht
    have hun : area thr (x :: xs) = if (Seq.stdUnique.go (fun a b => f a == f b) x xs).length > 1 then
        match (List.range 101).mapM fun n : Nat => MathSeq.interp1
          ((Seq.stdUnique.go (fun a b => f a == f b) x xs).map fun i => (f i, ((thr[i]?).map (·.prec)).getD 0)) ((n : ℚ) / 100) with
        | none => .domainError
        | some vals => sumArea vals (vals.length + 1)
      else .value 0 := rfl
    refine ⟨fun h => ?_, fun hd hspan => ?_, fun hd hspan => ?_⟩
    · rw [hun, if_neg (by have := hlen.2 (hall.2 h); omega)]
    all_goals
      have hgt : (Seq.stdUnique.go (fun a b => f a == f b) x xs).length > 1 := by
        by_contra hc
        obtain ⟨s, hs, t, ht, hne⟩ := hd
        exact hne (hall.1 (hlen.1 (by omega)) s hs t ht)
      rw [hun, if_pos hgt]
    · obtain ⟨⟨s, hs, hs0⟩, t, ht, ht1⟩ := hspan
      obtain ⟨i, hi, ei⟩ := hmem' s hs
      obtain ⟨j, hj, ej⟩ := hmem' t ht
      obtain ⟨r, hr, _⟩ := mapM_some (fun n : Nat => MathSeq.interp1
          ((Seq.stdUnique.go (fun a b => f a == f b) x xs).map fun i => (f i, ((thr[i]?).map (·.prec)).getD 0)) ((n : ℚ) / 100)) (List.range 101) (by
        intro n hn
        have hn' : n ≤ 100 := by have := List.mem_range.1 hn; omega
        have hn'' : (n : ℚ) ≤ 100 := by exact_mod_cast hn'
        refine interp1_inside _ _ (f a, ((thr[a]?).map (·.prec)).getD 0) (f b, ((thr[b]?).map (·.prec)).getD 0)
          (by rw [List.head?_map, ha]; rfl) (by rw [List.getLast?_map, hb]; rfl) ?_ ?_
        · exact (hmin i hi).trans (by rw [ei]; exact hs0.trans (by positivity))
        · refine le_trans ?_ (hb' j hj)
          rw [ej]
          exact le_trans (by rw [div_le_one (by norm_num)]; exact hn'') ht1)
      rw [hr]
      exact sumArea_past r
    · by_cases h0 : f a ≤ 0
      · have h1 : f b < 1 := by
          by_contra hc
          obtain ⟨s, hs, es⟩ := hmem a hamem
          obtain ⟨t, ht, et⟩ := hmem b hbmem
          exact hspan ⟨⟨s, hs, es ▸ h0⟩, t, ht, et ▸ not_lt.1 hc⟩
        rw [mapM_none (fun n : Nat => MathSeq.interp1
          ((Seq.stdUnique.go (fun a b => f a == f b) x xs).map fun i => (f i, ((thr[i]?).map (·.prec)).getD 0)) ((n : ℚ) / 100)) (List.range 101) 100 (by simp) (MathSeq.interp1_domain _ _ (f a, ((thr[a]?).map (·.prec)).getD 0)
          (f b, ((thr[b]?).map (·.prec)).getD 0) (by rw [List.head?_map, ha]; rfl) (by rw [List.getLast?_map, hb]; rfl)
          (.inr (by norm_num; exact h1)))]
      · rw [mapM_none (fun n : Nat => MathSeq.interp1
          ((Seq.stdUnique.go (fun a b => f a == f b) x xs).map fun i => (f i, ((thr[i]?).map (·.prec)).getD 0)) ((n : ℚ) / 100)) (List.range 101) 0 (by simp) (MathSeq.interp1_domain _ _ (f a, ((thr[a]?).map (·.prec)).getD 0)
          (f b, ((thr[b]?).map (·.prec)).getD 0) (by rw [List.head?_map, ha]; rfl) (by rw [List.getLast?_map, hb]; rfl)
          (.inl (by norm_num; exact not_le.1 h0)))]

/-- C185 fails on an ordinary evaluation: two images at two thresholds have overall recalls 11/15 and 4/15, and the
evaluation ends with an exception instead of scores. -/
theorem area_refuted : ∃ S, scores [127, 255] twoImages = some S ∧
    ∀ idx, Sorted S.threshold idx → area S.threshold idx = .domainError := by
  have hS : (scores [127, 255] twoImages).map (·.threshold) = some [scoreOf 127 ⟨11, 15, 9, 15⟩, scoreOf 255 ⟨4, 15, 4, 4⟩] := by
    decide +kernel
  rcases hx : scores [127, 255] twoImages with _ | S
  · rw [hx] at hS; cases hS
  · refine ⟨S, rfl, fun idx hi => ?_⟩
    rw [hx] at hS
    have hS' : S.threshold = _ := Option.some.inj hS
    refine (area_partial S.threshold idx hi).2.2 ?_ ?_
    · rw [hS']
      exact ⟨_, List.mem_cons_self, _, List.mem_cons_of_mem _ List.mem_cons_self, by norm_num [scoreOf, ratio]⟩
    · rw [hS']
      rintro ⟨_, s, hs, h1⟩
      simp only [List.mem_cons, List.not_mem_nil, or_false] at hs
      rcases hs with rfl | rfl <;> norm_num [scoreOf, ratio] at h1

example : Sorted [scoreOf 127 ⟨11, 15, 9, 15⟩, scoreOf 255 ⟨4, 15, 4, 4⟩] [1, 0] := by
  refine ⟨by decide, fun i j a b s t hij hi hj hs ht => ?_⟩
  match i, j, hij, hi, hj with
  | 0, 1, _, hi, hj =>
    simp at hi hj
    subst hi hj
    simp at hs ht
    rw [← hs, ← ht]
    norm_num [scoreOf, ratio]
  | 0, j + 2, _, _, hj => simp at hj
  | i + 1, j + 2, _, _, hj => simp at hj

end Litiv.BsdsScore
