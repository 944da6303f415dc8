import Verif.Lemmas.SC
import Verif.Props.LSS

/-!
# Shape contexts: what descriptors count (C106), and which key points they are computed for (C109)
-/

namespace Litiv.SC

open Classical

/-- The contour point `p` is counted in bin `b` of the descriptor of the key point `k`, for an extractor which uses relative distances or relative
angles: distances are divided by their mean if the former, and directions are relative to those seen from the centre of mass if the latter. -/
def CountedIn (c : Cfg) (keys contour : List ℂ) (k p : ℂ) (b : Nat) : Prop :=
  Spec.Counted c.A c.R c.inner c.outer (if c.relative then Spec.meanDistance keys contour + 1 / 2 ^ 23 else 1)
    (if c.rot then Spec.direction (Spec.centroid contour) p else 0) k p b

/-- The key point rounds to the pixel at row `r` and column `q`. -/
def At (r q : Int) (k : ℂ) : Prop := cround k.im = r ∧ cround k.re = q

/-- The key point rounds to a pixel of the image. -/
def Inside (rows cols : Nat) (k : ℂ) : Prop := 0 ≤ cround k.im ∧ cround k.im < rows ∧ 0 ≤ cround k.re ∧ cround k.re < cols

theorem initVal_start (c : Cfg) : initVal c = Spec.start (c.R * c.A) c.nonzero := rfl

theorem skipped_map (c : Cfg) (hm : c.relative = true ∨ c.rot = true) (kernel : Int → Int → Bool) (rows cols : Nat) (img : Int → Int → Bool) (r q : Int) :
    skipped c kernel rows cols img r q = false := by
  unfold skipped
  rcases hm with h | h <;> simp [h]

theorem number_eq (P : ℂ → Prop) (l : List ℂ) : Spec.number P l = ((l.filter fun p => decide (P p)).length : ℝ) := rfl

theorem number_len (P : ℂ → Prop) [i : DecidablePred P] (l : List ℂ) : ((l.filter fun p => @decide (P p) (i p)).length : ℝ) = Spec.number P l := by
  rw [number_eq]
  congr 3
  funext p
  congr

theorem number_congr (P Q : ℂ → Prop) (l : List ℂ) (h : ∀ p ∈ l, P p ↔ Q p) : Spec.number P l = Spec.number Q l := by
  have : (l.filter fun p => decide (P p)) = l.filter fun p => decide (Q p) := List.filter_congr fun p hp => by simp [h p hp]
  rw [number_eq, number_eq, this]

theorem list_sum_range (f : Nat → ℝ) (D : Nat) : ((List.range D).map f).sum = ∑ b ∈ Finset.range D, f b := by
  induction D with
  | zero => simp
  | succ n ih => rw [List.range_succ, List.map_append, List.sum_append, ih, Finset.sum_range_succ]; simp

theorem mapM_get {α β : Type} (f : α → Option β) : ∀ (l : List α) (ys : List β), l.mapM f = some ys →
    ys.length = l.length ∧ ∀ (i : Nat) (a : α), l[i]? = some a → ∃ y, ys[i]? = some y ∧ f a = some y
  | [], ys, h => by
    simp only [List.mapM_nil] at h
    injection h with h
    subst h
    exact ⟨rfl, fun i a hi => by simp at hi⟩
  | x :: xs, ys, h => by
    rw [List.mapM_cons] at h
    cases hx : f x with
    | none => rw [hx] at h; cases h
    | some y =>
      cases hxs : xs.mapM f with
      | none => rw [hx, hxs] at h; cases h
      | some zs =>
        rw [hx, hxs] at h
        injection h with h
        subst h
        obtain ⟨h1, h2⟩ := mapM_get f xs zs hxs
        refine ⟨by simp [h1], fun i a hi => ?_⟩
        cases i with
        | zero => simp at hi; subst hi; exact ⟨y, by simp, hx⟩
        | succ j => simpa using h2 j a (by simpa using hi)

/-! ## C106 -/

/-- **C106 (counts).** With relative distances or angles and no normalization, descriptors are computed for all key points, in order; each bin
holds its initial value plus the number of contour points in its ring and sector. -/
theorem list_counts (c : Cfg) (hv : c.Valid) (hm : c.relative = true ∨ c.rot = true) (hn : c.normalize = false) (outer : Nat)
    (kernel : Int → Int → Bool) (rows cols : Nat) (img : Int → Int → Bool) (keys contour : List ℂ) :
    ∃ ds, fillList c outer kernel rows cols img keys contour = some ds ∧ ds.length = keys.length ∧
      ∀ (i : Nat) (k : ℂ), keys[i]? = some k → ∃ d, ds[i]? = some d ∧ ∀ b, d b = Spec.start (c.R * c.A) c.nonzero + Spec.number (fun p => CountedIn c keys contour k p b) contour := by
  have hstep : ∀ k : ℂ, listStep c outer kernel rows cols img keys contour k = some (accum (binOf c outer keys contour k) contour fun _ => initVal c) := by
    intro k
    unfold listStep
    dsimp only
    rw [skipped_map c hm]
    rcases hm with h | h <;> simp [h]
  have hall : keys.mapM (listStep c outer kernel rows cols img keys contour) =
      some (keys.map fun k => accum (binOf c outer keys contour k) contour fun _ => initVal c) := LSS.mapM_some _ _ keys fun k _ => hstep k
  refine ⟨_, by unfold fillList; rw [hall]; rfl, by simp, fun i k hi => ?_⟩
  refine ⟨_, by rw [List.getElem?_map, List.getElem?_map, hi]; rfl, fun b => ?_⟩
  unfold finish
  rw [hn, if_neg (by decide)]
  dsimp only
  rw [accum_count, initVal_start]
  congr 1
  rw [number_eq]
  congr 3
  funext p
  rw [decide_eq_decide]
  exact binOf_map c hv hm outer keys contour k p b

/-- Which points a bin counts. -/
theorem counted_iff (c : Cfg) (hv : c.Valid) (keys contour : List ℂ) (k p : ℂ) :
    (∃ b < c.R * c.A, CountedIn c keys contour k p b) ↔
      ¬ Spec.Coincident k p ∧ ‖p - k‖ / (if c.relative then Spec.meanDistance keys contour + 1 / 2 ^ 23 else 1) < c.outer := by
  constructor
  · rintro ⟨b, _, h1, r, a, _, ⟨hr, _, h2⟩, _⟩
    exact ⟨h1, lt_of_lt_of_le h2 (le_trans (bound_mono c hv r (c.R - 1) (by omega) (by have := hv.rad; omega)) (bound_last c hv).le)⟩
  · rintro ⟨h1, h2⟩
    generalize hd : ‖p - k‖ / (if c.relative then Spec.meanDistance keys contour + 1 / 2 ^ 23 else 1) = d at h2
    have hex : ∃ r, r < c.R ∧ d < Spec.bound c.R c.inner c.outer r := ⟨c.R - 1, by have := hv.rad; omega, by rw [bound_last c hv]; exact h2⟩
    obtain ⟨a, ha⟩ := inSector_exists c.A hv.ang (Spec.direction k p - (if c.rot then Spec.direction (Spec.centroid contour) p else 0) + 1 / 2 ^ 23)
    refine ⟨a + Nat.find hex * c.A, ?_, h1, Nat.find hex, a, rfl, ?_, ha⟩
    · have h3 := (Nat.find_spec hex).1
      have h4 : (Nat.find hex + 1) * c.A ≤ c.R * c.A := Nat.mul_le_mul_right _ h3
      have h5 := ha.1
      rw [Nat.add_mul, Nat.one_mul] at h4
      omega
    · rw [hd]
      refine ⟨(Nat.find_spec hex).1, fun h0 => ?_, (Nat.find_spec hex).2⟩
      have := Nat.find_min hex (m := Nat.find hex - 1) (by omega)
      have h3 := (Nat.find_spec hex).1
      by_contra hc
      exact this ⟨by omega, not_le.1 hc⟩

/-- **C106 (bins are disjoint).** -/
theorem counted_unique (c : Cfg) (hv : c.Valid) (keys contour : List ℂ) (k p : ℂ) (b b' : Nat) (h : CountedIn c keys contour k p b)
    (h' : CountedIn c keys contour k p b') : b = b' := by
  have e := (mapBin_some c hv (Spec.centroid contour) (if c.relative then Spec.meanDistance keys contour + 1 / 2 ^ 23 else 1) k p b).2 h
  have e' := (mapBin_some c hv (Spec.centroid contour) (if c.relative then Spec.meanDistance keys contour + 1 / 2 ^ 23 else 1) k p b').2 h'
  rw [e] at e'
  injection e'

theorem sum_number (P : ℂ → Nat → Prop) (hP : ∀ p b b', P p b → P p b' → b = b') (D : Nat) (contour : List ℂ) :
    ∑ b ∈ Finset.range D, Spec.number (fun p => P p b) contour = Spec.number (fun p => ∃ b < D, P p b) contour := by
  let bin : ℂ → Option Nat := fun p => if h : ∃ b, P p b then some h.choose else none
  have hbin : ∀ p b, bin p = some b ↔ P p b := by
    intro p b
    by_cases h : ∃ b, P p b
    · have e : bin p = some h.choose := dif_pos h
      rw [e]
      constructor
      · intro he; injection he with he; rw [← he]; exact h.choose_spec
      · intro hb; rw [hP p b _ hb h.choose_spec]
    · have e : bin p = none := dif_neg h
      rw [e]
      constructor
      · intro he; cases he
      · intro hb; exact absurd ⟨b, hb⟩ h
  have := sum_bins bin D contour
  rw [list_sum_range] at this
  calc ∑ b ∈ Finset.range D, Spec.number (fun p => P p b) contour
      = ∑ b ∈ Finset.range D, ((contour.filter fun p => decide (bin p = some b)).length : ℝ) := by
        refine Finset.sum_congr rfl fun b _ => ?_
        rw [number_congr _ (fun p => bin p = some b) contour fun p _ => (hbin p b).symm]
        exact (number_len _ _).symm
    _ = _ := this
    _ = Spec.number (fun p => ∃ b < D, bin p = some b) contour := number_len _ _
    _ = _ := number_congr _ _ contour fun p _ => by simp only [hbin]

/-- **C106 (conservation).** The bins of a descriptor add up to the number of contour points closer than the outer radius, the key point itself excepted. -/
theorem list_total (c : Cfg) (hv : c.Valid) (hm : c.relative = true ∨ c.rot = true) (hn : c.normalize = false) (outer : Nat)
    (kernel : Int → Int → Bool) (rows cols : Nat) (img : Int → Int → Bool) (keys contour : List ℂ) :
    ∃ ds, fillList c outer kernel rows cols img keys contour = some ds ∧ ∀ (i : Nat) (k : ℂ), keys[i]? = some k → ∃ d, ds[i]? = some d ∧
      ∑ b ∈ Finset.range (c.R * c.A), d b = (c.R * c.A : Nat) * Spec.start (c.R * c.A) c.nonzero +
        Spec.number (fun p => ¬ Spec.Coincident k p ∧ ‖p - k‖ / (if c.relative then Spec.meanDistance keys contour + 1 / 2 ^ 23 else 1) < c.outer) contour := by
  obtain ⟨ds, h1, _, h2⟩ := list_counts c hv hm hn outer kernel rows cols img keys contour
  refine ⟨ds, h1, fun i k hk => ?_⟩
  obtain ⟨d, h3, h4⟩ := h2 i k hk
  refine ⟨d, h3, ?_⟩
  simp only [h4]
  rw [Finset.sum_add_distrib, Finset.sum_const, Finset.card_range, nsmul_eq_mul,
    sum_number (CountedIn c keys contour k) (fun p b b' => counted_unique c hv keys contour k p b b')]
  congr 1
  exact number_congr _ _ contour fun p _ => counted_iff c hv keys contour k p

/-- **C106 (maps).** The pixels of a map of descriptors: whatever the order in which the key points are visited, a bin holds its initial value plus, for
each key point that rounds to the pixel and is not skipped, the number of contour points with that bin. -/
theorem map_any (c : Cfg) (hn : c.normalize = false) (outer : Nat) (kernel : Int → Int → Bool) (rows cols : Nat) (img : Int → Int → Bool)
    (keys contour order : List ℂ) (ho : order.Perm keys) (hin : ∀ k ∈ keys, Inside rows cols k) :
    ∃ d, fillMap c outer kernel rows cols img keys contour order = some d ∧ ∀ r q b, d r q b = Spec.start (c.R * c.A) c.nonzero +
      ((keys.filter fun k => decide (At r q k ∧ skipped c kernel rows cols img r q = false)).map fun k =>
        Spec.number (fun p => binOf c outer keys contour k p = some b) contour).sum := by
  obtain ⟨d, h1, h2⟩ := foldMap c outer kernel rows cols img keys contour order (fun _ _ _ => initVal c) fun k hk => hin k (ho.mem_iff.1 hk)
  refine ⟨d, ?_, fun r q b => ?_⟩
  · unfold fillMap
    rw [h1]
    simp [finish, hn]
  · rw [h2, initVal_start]
    congr 1
    have hp := ((ho.filter fun k => decide (At r q k ∧ skipped c kernel rows cols img r q = false)).map fun k =>
      Spec.number (fun p => binOf c outer keys contour k p = some b) contour).sum_eq
    rw [← hp]
    simp only [number_len]
    have hf : (order.filter fun k => decide (cround k.im = r ∧ cround k.re = q ∧ skipped c kernel rows cols img r q = false)) =
        order.filter fun k => decide (At r q k ∧ skipped c kernel rows cols img r q = false) := by
      apply List.filter_congr
      intro k _
      rw [decide_eq_decide]
      unfold At
      tauto
    rw [hf]

/-- **C106 (schedule).** The map does not depend on the order in which the key points are visited. -/
theorem map_schedule (c : Cfg) (outer : Nat) (kernel : Int → Int → Bool) (rows cols : Nat) (img : Int → Int → Bool)
    (keys contour order : List ℂ) (ho : order.Perm keys) :
    fillMap c outer kernel rows cols img keys contour order = fillMap c outer kernel rows cols img keys contour keys := by
  by_cases hin : ∀ k ∈ keys, Inside rows cols k
  · obtain ⟨d, h1, h2⟩ := foldMap c outer kernel rows cols img keys contour order (fun _ _ _ => initVal c) fun k hk => hin k (ho.mem_iff.1 hk)
    obtain ⟨d', h1', h2'⟩ := foldMap c outer kernel rows cols img keys contour keys (fun _ _ _ => initVal c) hin
    unfold fillMap
    rw [h1, h1']
    have : d = d' := by
      funext r q b
      rw [h2, h2']
      congr 1
      exact ((ho.filter _).map _).sum_eq
    rw [this]
  · push Not at hin
    obtain ⟨k, hk, hno⟩ := hin
    unfold fillMap
    rw [foldMap_out c outer kernel rows cols img keys contour order _ ⟨k, ho.mem_iff.2 hk, hno⟩,
      foldMap_out c outer kernel rows cols img keys contour keys _ ⟨k, hk, hno⟩]

/-- **C106 (bounds, refuted).** A map is not defined if a key point rounds to a pixel out of the image: nothing rejects such key points. -/
theorem map_outside_refuted (c : Cfg) (outer : Nat) (kernel : Int → Int → Bool) (rows cols : Nat) (img : Int → Int → Bool)
    (keys contour : List ℂ) (h : ∃ k ∈ keys, ¬ Inside rows cols k) : fillMap c outer kernel rows cols img keys contour keys = none := by
  unfold fillMap
  rw [foldMap_out c outer kernel rows cols img keys contour keys _ h]
  rfl

theorem filter_pixel (l : List ℂ) (hd : l.Pairwise fun k k' => ¬ (cround k.im = cround k'.im ∧ cround k.re = cround k'.re)) (k : ℂ) (hk : k ∈ l) :
    (l.filter fun k' => decide (At (cround k.im) (cround k.re) k')) = [k] := by
  induction l with
  | nil => cases hk
  | cons x xs ih =>
    rw [List.pairwise_cons] at hd
    rw [List.filter_cons]
    rcases List.mem_cons.1 hk with rfl | hk'
    · rw [if_pos (by simp [At])]
      congr 1
      rw [List.filter_eq_nil_iff]
      intro a ha
      have := hd.1 a ha
      rw [decide_eq_true_eq]
      rintro ⟨h1, h2⟩
      exact this ⟨h1.symm, h2.symm⟩
    · rw [if_neg, ih hd.2 hk']
      have := hd.1 k hk'
      rw [decide_eq_true_eq]
      exact this

/-- **C106 (maps, partial).** With relative distances or angles, no normalization, and key points that round to different pixels of the image, the map holds
the descriptor of each key point at its pixel, and the initial value elsewhere. Missing: key points that round to the same pixel, see
`map_duplicates_refuted`. -/
theorem map_counts_partial (c : Cfg) (hv : c.Valid) (hm : c.relative = true ∨ c.rot = true) (hn : c.normalize = false) (outer : Nat)
    (kernel : Int → Int → Bool) (rows cols : Nat) (img : Int → Int → Bool) (keys contour order : List ℂ) (ho : order.Perm keys)
    (hin : ∀ k ∈ keys, Inside rows cols k) (hd : keys.Pairwise fun k k' => ¬ (cround k.im = cround k'.im ∧ cround k.re = cround k'.re)) :
    ∃ d, fillMap c outer kernel rows cols img keys contour order = some d ∧
      (∀ k ∈ keys, ∀ b, d (cround k.im) (cround k.re) b = Spec.start (c.R * c.A) c.nonzero + Spec.number (fun p => CountedIn c keys contour k p b) contour) ∧
      ∀ r q b, (∀ k ∈ keys, ¬ At r q k) → d r q b = Spec.start (c.R * c.A) c.nonzero := by
  obtain ⟨d, h1, h2⟩ := map_any c hn outer kernel rows cols img keys contour order ho hin
  refine ⟨d, h1, fun k hk b => ?_, fun r q b hno => ?_⟩
  · rw [h2]
    simp only [skipped_map c hm, and_true]
    rw [filter_pixel keys hd k hk]
    simp only [List.map_cons, List.map_nil, List.sum_cons, List.sum_nil, add_zero]
    congr 1
    exact number_congr _ _ contour fun p _ => binOf_map c hv hm outer keys contour k p b
  · rw [h2]
    have : (keys.filter fun k => decide (At r q k ∧ skipped c kernel rows cols img r q = false)) = [] := by
      rw [List.filter_eq_nil_iff]
      intro k hk
      simp only [decide_eq_true_eq]
      exact fun h => hno k hk h.1
    rw [this]
    simp

end Litiv.SC
