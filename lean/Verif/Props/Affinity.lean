import Verif.Lemmas.Affinity

/-!
# Properties of affinity maps

Properties C96 (`computeImageAffinity`) and C97 (`computeDescriptorAffinity`).
-/

namespace Litiv.Affinity

open MI (Data)

/-! ## C96 -/

/-- A run: the iterations in any order, each on any thread. -/
def Schedule (g : Img) (size : Nat) (sched : List (Nat × Nat × Nat × Nat)) : Prop :=
  (sched.map fun it => (it.1, it.2.1, it.2.2.1)).Perm (imgIters g size)

/-- **C96 (values).** For every pair of images of bytes, odd patch size that fits, list of disparities and regions; for every order of the
iterations, distribution over threads, and content of the threads' buffers: the map has at each cell the distance of the two patches if both pixels
are in their regions and the second patch is inside the image, and -1 otherwise. -/
theorem image_affinity (g : Img) (dist : Dist) (size : Nat) (buf : Nat → Data) (sched : List (Nat × Nat × Nat × Nat)) (hb : Bytes g)
    (hodd : size % 2 = 1) (hr : size ≤ g.rows) (hc : size ≤ g.cols) (hd : g.disp ≠ []) (hs : Schedule g size sched) :
    ∃ m, computeImageAffinity g dist size buf sched = some m ∧ ∀ i j o, i + size ≤ g.rows → j + size ≤ g.cols → o < g.disp.length →
      (Matched g size i j o → m i j o = value g dist size i j o) ∧ (¬ Matched g size i j o → m i j o = -1) := by
  have hmem : ∀ r c o, (∃ it ∈ sched, it.1 = r ∧ it.2.1 = c ∧ it.2.2.1 = o) ↔ (r, c, o) ∈ imgIters g size := by
    intro r c o
    rw [← hs.mem_iff, List.mem_map]
    constructor
    · rintro ⟨it, h, rfl, rfl, rfl⟩; exact ⟨it, h, rfl⟩
    · rintro ⟨it, h, e⟩; injection e with e1 e; injection e with e2 e3; exact ⟨it, h, e1, e2, e3⟩
  have hit : ∀ r c o, (r, c, o) ∈ imgIters g size ↔ ∃ i j, r = i + size / 2 ∧ c = j + size / 2 ∧ i + size ≤ g.rows ∧ j + size ≤ g.cols ∧ o < g.disp.length := by
    intro r c o
    simp only [imgIters, List.mem_flatMap, List.mem_range, List.mem_map, Prod.mk.injEq]
    constructor
    · rintro ⟨i, hi, j, hj, o', ho, rfl, rfl, rfl⟩
      exact ⟨i, j, by omega, by omega, by omega, by omega, ho⟩
    · rintro ⟨i, j, rfl, rfl, hi, hj, ho⟩
      exact ⟨i, by omega, j, by omega, o, ho, by omega, by omega, rfl⟩
  obtain ⟨s, hfold, hval⟩ := imgFold g dist size hb (by omega) hodd sched ⟨fun _ _ _ => -1, buf⟩ (by
    intro it h
    obtain ⟨i, j, h1, h2, h3, h4, _⟩ := (hit _ _ _).1 ((hmem _ _ _).1 ⟨it, h, rfl, rfl, rfl⟩)
    exact ⟨i, j, h1, h2, h3, h4⟩)
  refine ⟨s.map, ?_, ?_⟩
  · unfold computeImageAffinity
    rw [if_pos ⟨by omega, by omega, by omega, hodd, hr, hc, hd⟩, hfold]
    rfl
  · intro i j o hi hj ho
    obtain ⟨hA, hB⟩ := hval i j o
    refine ⟨fun hm => hA ⟨hm, ?_⟩, fun hm => ?_⟩
    · exact (hmem _ _ _).2 ((hit _ _ _).2 ⟨i, j, rfl, rfl, hi, hj, ho⟩)
    · rw [hB fun h => hm h.1]

/-- **C96 (range).** With mutual information every cell is -1 or between 0 and 1; with the sum of squared differences -1 or not negative, and zero
exactly for equal patches. -/
theorem image_affinity_range (g : Img) (dist : Dist) (size : Nat) (buf : Nat → Data) (sched : List (Nat × Nat × Nat × Nat)) (hb : Bytes g)
    (hodd : size % 2 = 1) (hr : size ≤ g.rows) (hc : size ≤ g.cols) (hd : g.disp ≠ []) (hs : Schedule g size sched) :
    ∃ m, computeImageAffinity g dist size buf sched = some m ∧ ∀ i j o, i + size ≤ g.rows → j + size ≤ g.cols → o < g.disp.length →
      m i j o = -1 ∨ (0 ≤ m i j o ∧ (dist = .mi → m i j o ≤ 1) ∧
        (dist = .ssd → (m i j o = 0 ↔ ∀ k < size, ∀ l < size, g.im1 (i + k) (j + l) = g.im2 (i + k) (((j : Int) + g.disp.getD o 0).toNat + l)))) := by
  obtain ⟨m, hm, hval⟩ := image_affinity g dist size buf sched hb hodd hr hc hd hs
  refine ⟨m, hm, fun i j o hi hj ho => ?_⟩
  obtain ⟨hA, hB⟩ := hval i j o hi hj ho
  by_cases hmat : Matched g size i j o
  · right
    rw [hA hmat]
    cases dist with
    | mi =>
      have := normalized_bounds (size * size) (Spec.patch g.im1 size i j) (Spec.patch g.im2 size i ((j : Int) + g.disp.getD o 0).toNat)
      unfold value
      dsimp only
      refine ⟨by linarith, fun _ => by linarith, fun h => by cases h⟩
    | ssd =>
      unfold value
      dsimp only
      refine ⟨Real.sqrt_nonneg _, (fun h => by cases h), fun _ => ?_⟩
      unfold Spec.euclid
      rw [Real.sqrt_eq_zero (Finset.sum_nonneg fun _ _ => sq_nonneg _), Finset.sum_eq_zero_iff_of_nonneg fun _ _ => sq_nonneg _]
      constructor
      · intro h k hk l hl
        have := h (k * size + l) (Finset.mem_range.2 (by nlinarith))
        rw [sq_eq_zero_iff, sub_eq_zero] at this
        unfold Spec.patch at this
        have e1 : (k * size + l) / size = k := by
          rw [mul_comm, Nat.mul_add_div (by omega), Nat.div_eq_of_lt hl, add_zero]
        have e2 : (k * size + l) % size = l := by
          rw [mul_comm, Nat.mul_add_mod, Nat.mod_eq_of_lt hl]
        rw [e1, e2] at this
        exact_mod_cast this
      · intro h k hk
        rw [sq_eq_zero_iff, sub_eq_zero]
        unfold Spec.patch
        have hk' := Finset.mem_range.1 hk
        rw [h (k / size) (Nat.div_lt_of_lt_mul hk') (k % size) (Nat.mod_lt _ (by omega))]
  · left
    exact hB hmat

/-- **C96 (equal patches).** Two equal patches are at distance 0, except for the distance by mutual information if all their pixels have the
same value: then the distance is 1, the largest. -/
theorem image_affinity_equal (g : Img) (dist : Dist) (size : Nat) (buf : Nat → Data) (sched : List (Nat × Nat × Nat × Nat)) (hb : Bytes g)
    (hodd : size % 2 = 1) (hr : size ≤ g.rows) (hc : size ≤ g.cols) (hd : g.disp ≠ []) (hs : Schedule g size sched) :
    ∃ m, computeImageAffinity g dist size buf sched = some m ∧ ∀ i j o, i + size ≤ g.rows → j + size ≤ g.cols → o < g.disp.length →
      Matched g size i j o → (∀ k < size, ∀ l < size, g.im1 (i + k) (j + l) = g.im2 (i + k) (((j : Int) + g.disp.getD o 0).toNat + l)) →
      ((dist = .ssd ∨ ∃ k < size, ∃ l < size, g.im1 (i + k) (j + l) ≠ g.im1 i j) → m i j o = 0) ∧
      ((dist = .mi ∧ ∀ k < size, ∀ l < size, g.im1 (i + k) (j + l) = g.im1 i j) → m i j o = 1) := by
  obtain ⟨m, hm, hval⟩ := image_affinity g dist size buf sched hb hodd hr hc hd hs
  refine ⟨m, hm, fun i j o hi hj ho hmat hsame => ?_⟩
  rw [(hval i j o hi hj ho).1 hmat]
  have hpos : 0 < size := by omega
  have hxy : ∀ k < size * size, Spec.patch g.im2 size i ((j : Int) + g.disp.getD o 0).toNat k = Spec.patch g.im1 size i j k := by
    intro k hk
    unfold Spec.patch
    exact (hsame (k / size) (Nat.div_lt_of_lt_mul hk) (k % size) (Nat.mod_lt _ hpos)).symm
  have hfreq : MI.Spec.mutualInfo (size * size) (Spec.patch g.im1 size i j) (Spec.patch g.im2 size i ((j : Int) + g.disp.getD o 0).toNat) =
      MI.Spec.mutualInfo (size * size) (Spec.patch g.im1 size i j) (Spec.patch g.im1 size i j) := by
    rw [MI.Spec.mutualInfo_pixels, MI.Spec.mutualInfo_pixels]
    congr 1
    apply Finset.sum_congr rfl
    intro k hk
    have hk' := Finset.mem_range.1 hk
    have e1 : MI.Spec.cxy (size * size) (Spec.patch g.im1 size i j) (Spec.patch g.im2 size i ((j : Int) + g.disp.getD o 0).toNat) k =
        MI.Spec.cxy (size * size) (Spec.patch g.im1 size i j) (Spec.patch g.im1 size i j) k := by
      unfold MI.Spec.cxy
      apply MI.Spec.cnt_congr
      intro e he
      rw [hxy e he, hxy k hk']
    have e2 : MI.Spec.cx (size * size) (Spec.patch g.im2 size i ((j : Int) + g.disp.getD o 0).toNat) k =
        MI.Spec.cx (size * size) (Spec.patch g.im1 size i j) k := by
      unfold MI.Spec.cx
      apply MI.Spec.cnt_congr
      intro e he
      rw [hxy e he, hxy k hk']
    rw [e1, e2]
  have hent : MI.Spec.entropy (size * size) (Spec.patch g.im2 size i ((j : Int) + g.disp.getD o 0).toNat) =
      MI.Spec.entropy (size * size) (Spec.patch g.im1 size i j) := by
    rw [MI.Spec.entropy_pixels, MI.Spec.entropy_pixels]
    congr 1
    apply Finset.sum_congr rfl
    intro k hk
    have hk' := Finset.mem_range.1 hk
    have e2 : MI.Spec.cx (size * size) (Spec.patch g.im2 size i ((j : Int) + g.disp.getD o 0).toNat) k =
        MI.Spec.cx (size * size) (Spec.patch g.im1 size i j) k := by
      unfold MI.Spec.cx
      apply MI.Spec.cnt_congr
      intro e he
      rw [hxy e he, hxy k hk']
    rw [e2]
  have hposs : 0 < size * size := Nat.mul_pos hpos hpos
  constructor
  · rintro (rfl | ⟨k, hk, l, hl, hne⟩)
    · unfold value
      dsimp only
      unfold Spec.euclid
      rw [Finset.sum_eq_zero, Real.sqrt_zero]
      intro k hk
      rw [hxy k (Finset.mem_range.1 hk)]
      ring
    · have he : 0 < MI.Spec.entropy (size * size) (Spec.patch g.im1 size i j) := by
        rw [entropy_pos _ _ hposs]
        refine ⟨k * size + l, by nlinarith, 0, hposs, ?_⟩
        have e1 : (k * size + l) / size = k := by
          rw [mul_comm, Nat.mul_add_div (by omega), Nat.div_eq_of_lt hl, add_zero]
        have e2 : (k * size + l) % size = l := by
          rw [mul_comm, Nat.mul_add_mod, Nat.mod_eq_of_lt hl]
        unfold Spec.patch
        rw [e1, e2, Nat.zero_div, Nat.zero_mod]
        exact hne
      cases dist with
      | mi =>
        unfold value
        dsimp only
        unfold Spec.normalized
        rw [hfreq, hent, if_pos ⟨he, he⟩, MI.Spec.mutualInfo_self, Real.sqrt_mul_self he.le, div_self he.ne', sub_self]
      | ssd =>
        unfold value
        dsimp only
        unfold Spec.euclid
        rw [Finset.sum_eq_zero, Real.sqrt_zero]
        intro k hk
        rw [hxy k (Finset.mem_range.1 hk)]
        ring
  · rintro ⟨rfl, hflat⟩
    have he : ¬ 0 < MI.Spec.entropy (size * size) (Spec.patch g.im1 size i j) := by
      rw [entropy_pos _ _ hposs]
      rintro ⟨k, hk, k', hk', hne⟩
      apply hne
      unfold Spec.patch
      rw [hflat _ (Nat.div_lt_of_lt_mul hk) _ (Nat.mod_lt _ hpos), hflat _ (Nat.div_lt_of_lt_mul hk') _ (Nat.mod_lt _ hpos)]
    unfold value
    dsimp only
    unfold Spec.normalized
    rw [hfreq, hent, if_neg fun h => he h.1, MI.Spec.mutualInfo_self]
    have := MI.Spec.entropy_nonneg (size * size) (Spec.patch g.im1 size i j)
    linarith

/-- Two images of three rows and five columns, patch of three by three, disparities -1 and 1. -/
def demo : Img := ⟨3, 5, fun r c => (r + c : Nat) % 200, fun r c => (r + c + 1 : Nat) % 200, [-1, 1], none, some fun _ c => decide (c ≠ 2)⟩

example : Bytes demo ∧ 3 % 2 = 1 ∧ 3 ≤ demo.rows ∧ 3 ≤ demo.cols ∧ demo.disp ≠ [] ∧
    Schedule demo 3 ((imgIters demo 3).reverse.map fun it => (it.1, it.2.1, it.2.2, it.2.2 % 2)) := by
  refine ⟨?_, by decide, by decide, by decide, by decide, ?_⟩
  · intro r c; simp only [demo]; omega
  · unfold Schedule
    rw [List.map_map]
    simp only [Function.comp_def, List.map_id']
    exact List.reverse_perm _

example : Matched demo 3 0 1 1 := ⟨3, by decide, by decide, by decide, by simp [Spec.inside, demo], by simp [Spec.inside, demo]⟩

example : Matched demo 3 0 1 0 ∧ (∀ k < 3, ∀ l < 3, demo.im1 (0 + k) (1 + l) = demo.im2 (0 + k) ((((1 : Nat) : Int) + demo.disp.getD 0 0).toNat + l)) ∧
    (∃ k < 3, ∃ l < 3, demo.im1 (0 + k) (1 + l) ≠ demo.im1 0 1) := by
  exact ⟨⟨1, by decide, by decide, by decide, by simp [Spec.inside, demo], by simp [Spec.inside, demo]⟩, by decide, by decide⟩

/-! ## C97 -/

/-- **C97 (values).** For all descriptor maps, non-negative distance, disparities, regions and orders of the iterations: with patches of one
pixel a cell is the distance of the two descriptors where they can be compared and -1 elsewhere; with larger patches it is the mean of the
distances that can be computed at the same disparity in the patch around the pixel, and -1 if there is none. -/
theorem desc_affinity (g : Desc) (size : Nat) (order1 : List (Nat × Nat)) (order2 : List (Nat × Nat × Nat))
    (hr : 0 < g.rows) (hc : 0 < g.cols) (hodd : size % 2 = 1) (hd : g.disp ≠ []) (hD : ∀ r c c', 0 ≤ g.D r c c')
    (h1 : order1.Perm (rawIters g)) (h2 : order2.Perm (meanIters g)) :
    ∃ m, computeDescriptorAffinity g size order1 order2 = some m ∧ ∀ r c o, r < g.rows → c < g.cols → o < g.disp.length →
      let S := (Spec.around g.rows g.cols (size / 2) r c).filter fun p => RawOk g p.1 p.2 o
      m r c o = if S = ∅ then -1 else (∑ p ∈ S, rawVal g p.1 p.2 o) / S.card := by
  have hraw : ∀ r c o, r < g.rows → c < g.cols → o < g.disp.length →
      order1.foldl (rawStep g) (fun _ _ _ => -1) r c o = if RawOk g r c o then rawVal g r c o else -1 := by
    intro r c o hr hc ho
    rw [rawFold]
    have : (r, c) ∈ order1 := by
      rw [h1.mem_iff]
      simp only [rawIters, List.mem_flatMap, List.mem_map, List.mem_range, Prod.mk.injEq]
      exact ⟨r, hr, c, hc, rfl, rfl⟩
    simp [this, ho]
  have hne : ∀ r c o, rawVal g r c o ≠ -1 := by
    intro r c o h
    have := hD r c ((c : Int) + g.disp.getD o 0).toNat
    unfold rawVal at h
    linarith
  unfold computeDescriptorAffinity
  rw [if_pos ⟨hr, hc, by omega, hodd, hd⟩]
  dsimp only
  by_cases hs1 : size = 1
  · subst hs1
    rw [if_pos rfl]
    refine ⟨_, rfl, ?_⟩
    intro r c o hr hc ho
    rw [hraw r c o hr hc ho]
    have hset : Spec.around g.rows g.cols (1 / 2) r c = {(r, c)} := by
      ext ⟨a, b⟩
      simp only [Spec.around, Finset.mem_filter, Finset.mem_product, Finset.mem_range, Finset.mem_singleton, Prod.mk.injEq]
      omega
    rw [hset, Finset.filter_singleton]
    by_cases hok : RawOk g r c o
    · simp [hok]
    · simp [hok]
  · rw [if_neg hs1]
    refine ⟨_, rfl, ?_⟩
    intro r c o hr hc ho
    rw [meanFold, around_spec g _ _ r c o hr hc]
    have hin : (r, c, o) ∈ order2 := by
      rw [h2.mem_iff]
      simp only [meanIters, List.mem_flatMap, List.mem_map, List.mem_range, Prod.mk.injEq]
      exact ⟨r, hr, c, hc, o, ho, rfl, rfl, rfl⟩
    have hS : ((Spec.around g.rows g.cols (size / 2) r c).filter fun p => order1.foldl (rawStep g) (fun _ _ _ => -1) p.1 p.2 o ≠ -1) =
        (Spec.around g.rows g.cols (size / 2) r c).filter fun p => RawOk g p.1 p.2 o := by
      apply Finset.filter_congr
      intro p hp
      simp only [Spec.around, Finset.mem_filter, Finset.mem_product, Finset.mem_range] at hp
      rw [hraw p.1 p.2 o hp.1.1 hp.1.2 ho]
      by_cases hok : RawOk g p.1 p.2 o
      · simp [hok, hne]
      · simp [hok]
    dsimp only
    rw [hS]
    have hsum : ∑ p ∈ (Spec.around g.rows g.cols (size / 2) r c).filter (fun p => RawOk g p.1 p.2 o), order1.foldl (rawStep g) (fun _ _ _ => -1) p.1 p.2 o =
        ∑ p ∈ (Spec.around g.rows g.cols (size / 2) r c).filter (fun p => RawOk g p.1 p.2 o), rawVal g p.1 p.2 o := by
      apply Finset.sum_congr rfl
      intro p hp
      simp only [Spec.around, Finset.mem_filter, Finset.mem_product, Finset.mem_range] at hp
      rw [hraw p.1 p.2 o hp.1.1.1 hp.1.1.2 ho, if_pos hp.2]
    rw [hsum]
    by_cases he : ((Spec.around g.rows g.cols (size / 2) r c).filter fun p => RawOk g p.1 p.2 o) = ∅
    · simp [he]
    · rw [if_pos ⟨hin, fun h => he (Finset.card_eq_zero.1 h)⟩, if_neg he]

/-- **C97 (range).** Every cell is -1 or lies between the bounds of the distances; in particular between 0 and √2 for descriptors of
non-negative numbers with norm one. -/
theorem desc_affinity_range (g : Desc) (size : Nat) (order1 : List (Nat × Nat)) (order2 : List (Nat × Nat × Nat)) (hi : ℝ)
    (hr : 0 < g.rows) (hc : 0 < g.cols) (hodd : size % 2 = 1) (hd : g.disp ≠ []) (hD : ∀ r c c', 0 ≤ g.D r c c' ∧ g.D r c c' ≤ hi)
    (h1 : order1.Perm (rawIters g)) (h2 : order2.Perm (meanIters g)) :
    ∃ m, computeDescriptorAffinity g size order1 order2 = some m ∧ ∀ r c o, r < g.rows → c < g.cols → o < g.disp.length →
      m r c o = -1 ∨ (0 ≤ m r c o ∧ m r c o ≤ hi) := by
  obtain ⟨m, hm, hval⟩ := desc_affinity g size order1 order2 hr hc hodd hd (fun r c c' => (hD r c c').1) h1 h2
  refine ⟨m, hm, fun r c o hr hc ho => ?_⟩
  have h := hval r c o hr hc ho
  dsimp only at h
  rw [h]
  split
  · exact Or.inl rfl
  · rename_i hne
    right
    have hpos : (0 : ℝ) < ((Spec.around g.rows g.cols (size / 2) r c).filter fun p => RawOk g p.1 p.2 o).card := by
      exact_mod_cast Finset.card_pos.2 (Finset.nonempty_iff_ne_empty.2 hne)
    constructor
    · exact div_nonneg (Finset.sum_nonneg fun p _ => (hD _ _ _).1) hpos.le
    · rw [div_le_iff₀ hpos]
      calc _ ≤ ∑ _p ∈ (Spec.around g.rows g.cols (size / 2) r c).filter (fun p => RawOk g p.1 p.2 o), hi := Finset.sum_le_sum fun p _ => (hD _ _ _).2
        _ = _ := by rw [Finset.sum_const, nsmul_eq_mul]; ring

/-- The Euclidean distance of two non-negative vectors of norm one is at most √2 (the assertion of the code). -/
theorem unit_distance {ι : Type} (s : Finset ι) (x y : ι → ℝ) (hx : ∀ i ∈ s, 0 ≤ x i) (hy : ∀ i ∈ s, 0 ≤ y i)
    (nx : ∑ i ∈ s, x i ^ 2 = 1) (ny : ∑ i ∈ s, y i ^ 2 = 1) : Real.sqrt (∑ i ∈ s, (x i - y i) ^ 2) ≤ Real.sqrt 2 := by
  apply Real.sqrt_le_sqrt
  have h : ∑ i ∈ s, (x i - y i) ^ 2 ≤ ∑ i ∈ s, (x i ^ 2 + y i ^ 2) := by
    apply Finset.sum_le_sum
    intro i hi
    nlinarith [mul_nonneg (hx i hi) (hy i hi)]
  rw [Finset.sum_add_distrib, nx, ny] at h
  linarith

/-- Two pixels, one disparity, the second pixel of the first map outside of its region. -/
noncomputable def demoD : Desc := ⟨1, 2, fun _ c _ => if c = 0 then 1 else 0, [0], some fun _ c => decide (c = 0), none⟩

theorem demoD_ok : (0 < demoD.rows ∧ 0 < demoD.cols ∧ demoD.disp ≠ []) ∧ ∀ r c c', 0 ≤ demoD.D r c c' ∧ demoD.D r c c' ≤ 1 := by
  refine ⟨by simp [demoD], fun r c c' => ?_⟩
  simp only [demoD]
  split <;> norm_num

/-- **C97 (regions, refuted for patches).** A pixel outside of the first region is left at -1 only for patches of one pixel: with larger patches
it gets the mean of its neighbours. -/
theorem roi_refuted : ∃ m, computeDescriptorAffinity demoD 3 (rawIters demoD) (meanIters demoD) = some m ∧ ¬ Spec.inside demoD.roi1 0 1 ∧ m 0 1 0 = 1 := by
  obtain ⟨m, hm, hval⟩ := desc_affinity demoD 3 (rawIters demoD) (meanIters demoD) demoD_ok.1.1 demoD_ok.1.2.1 (by decide) demoD_ok.1.2.2
    (fun r c c' => (demoD_ok.2 r c c').1) (List.Perm.refl _) (List.Perm.refl _)
  refine ⟨m, hm, by simp [Spec.inside, demoD], ?_⟩
  have h := hval 0 1 0 (by simp [demoD]) (by simp [demoD]) (by simp [demoD])
  dsimp only at h
  have hS : ((Spec.around demoD.rows demoD.cols (3 / 2) 0 1).filter fun p => RawOk demoD p.1 p.2 0) = {(0, 0)} := by
    ext ⟨a, b⟩
    rw [Finset.mem_filter]
    simp only [Spec.around, Finset.mem_filter, Finset.mem_product, Finset.mem_range, Finset.mem_singleton, Prod.mk.injEq]
    simp only [RawOk, Spec.inside, demoD]
    constructor
    · rintro ⟨⟨⟨ha, hb⟩, _⟩, _, _, _, h3, _⟩
      have := h3 _ rfl
      simp at this
      omega
    · rintro ⟨rfl, rfl⟩
      exact ⟨⟨⟨by decide, by decide⟩, by decide⟩, 0, by simp, by simp, by simp, by simp⟩
  rw [h, hS, if_neg (Finset.singleton_ne_empty _), Finset.sum_singleton, Finset.card_singleton]
  simp [rawVal, demoD]

/-- **C97 (regions, patches of one pixel).** -/
theorem desc_affinity_roi_partial (g : Desc) (order1 : List (Nat × Nat)) (order2 : List (Nat × Nat × Nat))
    (hr : 0 < g.rows) (hc : 0 < g.cols) (hd : g.disp ≠ []) (hD : ∀ r c c', 0 ≤ g.D r c c')
    (h1 : order1.Perm (rawIters g)) (h2 : order2.Perm (meanIters g)) :
    ∃ m, computeDescriptorAffinity g 1 order1 order2 = some m ∧ ∀ r c o, r < g.rows → c < g.cols → o < g.disp.length →
      (RawOk g r c o → m r c o = rawVal g r c o) ∧ (¬ RawOk g r c o → m r c o = -1) := by
  obtain ⟨m, hm, hval⟩ := desc_affinity g 1 order1 order2 hr hc (by decide) hd hD h1 h2
  refine ⟨m, hm, fun r c o hr hc ho => ?_⟩
  have h := hval r c o hr hc ho
  have hset : Spec.around g.rows g.cols (1 / 2) r c = {(r, c)} := by
    ext ⟨a, b⟩
    simp only [Spec.around, Finset.mem_filter, Finset.mem_product, Finset.mem_range, Finset.mem_singleton, Prod.mk.injEq]
    omega
  dsimp only at h
  rw [hset, Finset.filter_singleton] at h
  by_cases hok : RawOk g r c o
  · simp [hok] at h; exact ⟨fun _ => h, fun hn => absurd hok hn⟩
  · simp [hok] at h; exact ⟨fun hn => absurd hn hok, fun _ => h⟩

end Litiv.Affinity
