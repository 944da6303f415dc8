import Verif.Lemmas.Coseg

/-! # Theorems about the bases of the cosegmentation algorithms -/

namespace Litiv.Coseg

open Spec

/-- The start is accepted exactly when every stream is usable. -/
theorem accepted_iff (o : Obj) (imgs : List Img) (rois : List Mask) (hl : imgs.length = rois.length)
    (hs : rois.length = o.slots.length) :
    (initializeCommon o imgs rois).2 = true ↔ ∀ p ∈ imgs.zip rois, Usable o.border p.1 p.2 :=
  ⟨init_bad o imgs rois hl hs, fun h => by rw [init_ok o imgs rois hl hs h]⟩

/-- After an accepted start each stream is ready, whatever the object held before, and the counters of frames
start again. -/
theorem ready_after (o : Obj) (imgs : List Img) (rois : List Mask) (hl : imgs.length = rois.length)
    (hs : rois.length = o.slots.length) (h0 : imgs ≠ []) (h : (initializeCommon o imgs rois).2 = true) :
    ((initializeCommon o imgs rois).1.frameIdx = 0 ∧ (initializeCommon o imgs rois).1.sinceReset = 0 ∧
      (initializeCommon o imgs rois).1.cooldown = 0) ∧
    (initializeCommon o imgs rois).1.slots.length = imgs.length ∧
    ∀ (k : Nat) (i : Img) (r : Mask) (s : Slot), imgs[k]? = some i → rois[k]? = some r →
      (initializeCommon o imgs rois).1.slots[k]? = some s → Ready o.border i r s := by
  have hu := init_bad o imgs rois hl hs h
  rw [init_ok o imgs rois hl hs hu]
  simp only [if_neg h0]
  refine ⟨⟨rfl, rfl, rfl⟩, ?_, ?_⟩
  · simp [List.length_zip]
    omega
  · intro k i r s hi hr hk
    rw [List.getElem?_zipWith] at hk
    have hz : (imgs.zip rois)[k]? = some (i, r) := by
      rw [List.getElem?_zip_eq_some]
      exact ⟨hi, hr⟩
    rw [hz] at hk
    cases hq : o.slots[k]? with
    | none => rw [hq] at hk; simp at hk
    | some q =>
      rw [hq] at hk
      simp only [Option.some.injEq] at hk
      rw [← hk]
      exact ready_spec o.border (i, r) q (hu _ (List.mem_of_getElem? hz))

/-- Whether or not it is accepted, a start leaves the object marked as not started, and keeps its settings. -/
theorem not_started (o : Obj) (imgs : List Img) (rois : List Mask) :
    (initializeCommon o imgs rois).1.init = false ∧ (initializeCommon o imgs rois).1.modelInit = false ∧
    (initializeCommon o imgs rois).1.autoReset = o.autoReset ∧
    (initializeCommon o imgs rois).1.border = o.border ∧
    (initializeCommon o imgs rois).1.slots.length = o.slots.length := by
  unfold initializeCommon
  dsimp only
  cases (gather (imgs.zip rois) o.slots).2 with
  | none => exact ⟨rfl, rfl, rfl, rfl, gather_length _ _⟩
  | some ms =>
    dsimp only
    by_cases hv : (validateROIs o.border ms).2 = true
    · rw [if_pos hv]
      have := install_frame { o with init := false, modelInit := false }
        (imgs.zip (validateROIs o.border ms).1) (gather (imgs.zip rois) o.slots).1
      exact ⟨this.1, this.2.1, this.2.2.1, this.2.2.2.1, by
        simp only
        rw [this.2.2.2.2, gather_length]⟩
    · rw [if_neg hv]
      exact ⟨rfl, rfl, rfl, rfl, gather_length _ _⟩

/-- Without masks, images in one piece that are larger than the two borders are accepted. -/
theorem images_only (o : Obj) (imgs : List Img) (hs : imgs.length = o.slots.length) :
    (initializeImages o imgs).2 = true ↔
      ∀ i ∈ imgs, i.cont = true ∧ 2 * o.border < i.rows ∧ 2 * o.border < i.cols := by
  unfold initializeImages
  rw [accepted_iff o imgs _ (by simp) (by simpa using hs)]
  have hw : NotGiven noMask := Or.inl rfl
  constructor
  · intro h i hi
    obtain ⟨k, hk⟩ := List.mem_iff_getElem?.mp hi
    have hlt : k < imgs.length := (List.getElem?_eq_some_iff.mp hk).1
    have hz : (imgs.zip (List.replicate imgs.length noMask))[k]? = some (i, noMask) := by
      rw [List.getElem?_zip_eq_some]
      exact ⟨hk, by rw [List.getElem?_replicate, if_pos hlt]⟩
    obtain ⟨hc, _, y, x, hin, _⟩ := h _ (List.mem_of_getElem? hz)
    unfold Inner at hin
    exact ⟨hc, by simp only at hin; omega, by simp only at hin; omega⟩
  · intro h p hp
    have h1 := List.of_mem_zip hp
    obtain ⟨hc, hr, hcol⟩ := h p.1 h1.1
    have h2 : p.2 = noMask := List.eq_of_mem_replicate h1.2
    rw [h2]
    refine ⟨hc, Or.inl hw, o.border, o.border, ?_, ?_⟩
    · unfold Inner
      omega
    · unfold wanted
      rw [if_pos hw]
      decide

/-- A start refused because of an image or a mask by itself leaves the working masks and the counters of frames as
they were. The full claim, for every refused start, is false: see `refused_keeps_refuted`. -/
theorem refused_keeps_partial (o : Obj) (imgs : List Img) (rois : List Mask) (hl : imgs.length = rois.length)
    (hs : rois.length = o.slots.length) (h : ∃ p ∈ imgs.zip rois, ¬ Usable 0 p.1 p.2) :
    (initializeCommon o imgs rois).2 = false ∧
    getROIsCopy (initializeCommon o imgs rois).1 = getROIsCopy o ∧
    (initializeCommon o imgs rois).1.frameIdx = o.frameIdx := by
  obtain ⟨p, hp, hn⟩ := h
  rw [usable_zero] at hn
  have hg : (gather (imgs.zip rois) o.slots).2 = none := by
    cases hh : (gather (imgs.zip rois) o.slots).2 with
    | none => rfl
    | some l =>
      exact absurd (gather_bad _ o.slots (by simp [List.length_zip]; omega) (by rw [hh]; rfl) p hp) hn
  unfold initializeCommon
  dsimp only
  rw [hg]
  exact ⟨rfl, gather_rois _ _, rfl⟩

/-- The second mask is useful only on the border: the start is refused after the first stream was replaced. -/
theorem refused_keeps_refuted : ∃ (o : Obj) (imgs : List Img) (rois : List Mask),
    imgs.length = rois.length ∧ rois.length = o.slots.length ∧
    (initializeCommon o imgs rois).2 = false ∧
    ((initializeCommon o imgs rois).1.slots.map fun s => (s.roi.rows, s.fin)) = [(3, 1), (0, 0)] ∧
    (o.slots.map fun s => (s.roi.rows, s.fin)) = [(0, 0), (0, 0)] ∧
    (initializeCommon o imgs rois).1.frameIdx ≠ o.frameIdx := by
  refine ⟨make 2 1, [⟨3, 3, 0, true⟩, ⟨3, 3, 0, true⟩],
    [noMask, ⟨3, 3, fun y _ => if y = 0 then 255 else 0⟩], rfl, rfl, ?_⟩
  decide +kernel

/-- Masks that are accepted replace the working masks, black near the borders; the caller finds the working masks
in place of theirs, and nothing else changes. -/
theorem set_masks (o : Obj) (rois : List Mask) (hs : rois.length = o.slots.length)
    (h : (setROIs o rois).2.2 = true) :
    getROIsCopy (setROIs o rois).1 = (setROIs o rois).2.1 ∧
    ((setROIs o rois).1.slots.map fun s => (s.orig, s.fin, s.tot, s.info)) =
      (o.slots.map fun s => (s.orig, s.fin, s.tot, s.info)) ∧
    ((setROIs o rois).1.init = o.init ∧ (setROIs o rois).1.frameIdx = o.frameIdx) ∧
    ∀ (k : Nat) (r m : Mask), rois[k]? = some r → (getROIsCopy (setROIs o rois).1)[k]? = some m →
      (m.rows = r.rows ∧ m.cols = r.cols) ∧
      ∀ y x, y < r.rows → x < r.cols →
        m.px y x = if Inner o.border r.rows r.cols y x then r.px y x else 0 := by
  have hv : (validateROIs o.border rois).2 = true := by
    unfold setROIs at h
    dsimp only at h
    by_cases hv : (validateROIs o.border rois).2 = true
    · exact hv
    · rw [if_neg hv] at h
      simp at h
  have hb := validate_bad _ _ hv
  have hok := validate_ok _ _ hb.1 hb.2
  have hset : setROIs o rois =
      ({ o with
          slots := List.zipWith (fun (s : Slot) (m : Mask) => { s with roi := m }) o.slots
            (rois.map (final o.border)) },
        rois.map (final o.border), true) := by
    unfold setROIs
    dsimp only
    rw [hok]
    rfl
  have hget : ∀ (ss : List Slot) (ms : List Mask), ms.length = ss.length →
      (List.zipWith (fun (s : Slot) (m : Mask) => { s with roi := m }) ss ms).map (fun s => s.roi) = ms := by
    intro ss
    induction ss with
    | nil =>
      intro ms hm
      cases ms with
      | nil => rfl
      | cons _ _ => simp at hm
    | cons s ss ih =>
      intro ms hm
      cases ms with
      | nil => simp at hm
      | cons m ms =>
        simp only [List.zipWith_cons_cons, List.map_cons]
        rw [ih ms (by simpa using hm)]
  have hkeep : ∀ (ss : List Slot) (ms : List Mask), ms.length = ss.length →
      (List.zipWith (fun (s : Slot) (m : Mask) => { s with roi := m }) ss ms).map
        (fun s => (s.orig, s.fin, s.tot, s.info)) = ss.map fun s => (s.orig, s.fin, s.tot, s.info) := by
    intro ss
    induction ss with
    | nil => intro ms _; rfl
    | cons s ss ih =>
      intro ms hm
      cases ms with
      | nil => simp at hm
      | cons m ms =>
        simp only [List.zipWith_cons_cons, List.map_cons]
        rw [ih ms (by simpa using hm)]
  have hg : getROIsCopy (setROIs o rois).1 = rois.map (final o.border) := by
    rw [hset]
    exact hget _ _ (by simpa using hs)
  refine ⟨?_, ?_, ?_, ?_⟩
  · rw [hg, hset]
  · rw [hset]
    exact hkeep _ _ (by simpa using hs)
  · rw [hset]
    exact ⟨rfl, rfl⟩
  · intro k r m hr hm
    rw [hg, List.getElem?_map, hr] at hm
    simp only [Option.map_some, Option.some.injEq] at hm
    subst hm
    exact ⟨final_dims _ _, fun y x hy hx =>
      final_px _ _ (hb.2 r (List.mem_of_getElem? hr)) y x hy hx⟩

/-- Masks that are refused leave the object as it was. -/
theorem set_refused (o : Obj) (rois : List Mask) (h : (setROIs o rois).2.2 = false) :
    (setROIs o rois).1 = o := by
  unfold setROIs at h ⊢
  dsimp only at h ⊢
  by_cases hv : (validateROIs o.border rois).2 = true
  · rw [if_pos hv] at h
    simp at h
  · rw [if_neg hv]

/-- Which masks are accepted: not black, and not smaller than the two borders. -/
theorem set_iff (o : Obj) (rois : List Mask) :
    (setROIs o rois).2.2 = true ↔
      ∀ r ∈ rois, 0 < count r.rows r.cols r.px ∧ 2 * o.border ≤ r.rows ∧ 2 * o.border ≤ r.cols := by
  have hv : (setROIs o rois).2.2 = (validateROIs o.border rois).2 := by
    unfold setROIs
    dsimp only
    by_cases hv : (validateROIs o.border rois).2 = true
    · rw [if_pos hv, hv]
    · rw [if_neg hv]
      simpa using hv
  rw [hv]
  constructor
  · intro h r hr
    have hb := validate_bad _ _ h
    rw [← nonZero_count]
    exact ⟨(hb.1 r hr).2, (hb.2 r hr).2, (hb.2 r hr).1⟩
  · intro h
    rw [validate_ok]
    · intro m hm
      have h1 := (h m hm).1
      refine ⟨?_, by rw [nonZero_count]; exact h1⟩
      rw [Bool.eq_false_iff]
      intro he
      rw [isEmpty_iff] at he
      obtain ⟨y, x, hy, hx, _⟩ := count_pos.mp h1
      unfold NotGiven at he
      omega
    · intro m hm
      exact ⟨(h m hm).2.2, (h m hm).2.1⟩

/-- After an accepted start, giving the working masks back changes none of their pixels. -/
theorem set_back (o : Obj) (imgs : List Img) (rois : List Mask) (hl : imgs.length = rois.length)
    (hs : rois.length = o.slots.length) (h0 : imgs ≠ []) (h : (initializeCommon o imgs rois).2 = true) :
    (setROIs (initializeCommon o imgs rois).1 (getROIsCopy (initializeCommon o imgs rois).1)).2.2 = true ∧
    ∀ (k : Nat) (m m' : Mask), (getROIsCopy (initializeCommon o imgs rois).1)[k]? = some m →
      (getROIsCopy (setROIs (initializeCommon o imgs rois).1
        (getROIsCopy (initializeCommon o imgs rois).1)).1)[k]? = some m' →
      (m'.rows = m.rows ∧ m'.cols = m.cols) ∧ ∀ y x, y < m.rows → x < m.cols → m'.px y x = m.px y x := by
  have hr := ready_after o imgs rois hl hs h0 h
  have hn := not_started o imgs rois
  generalize ho : (initializeCommon o imgs rois).1 = o' at hr hn ⊢
  have hready : ∀ (k : Nat) (m : Mask), (getROIsCopy o')[k]? = some m →
      ∃ i r s, Ready o.border i r s ∧ s.roi = m := by
    intro k m hm
    unfold getROIsCopy at hm
    rw [List.getElem?_map] at hm
    cases hq : o'.slots[k]? with
    | none => rw [hq] at hm; simp at hm
    | some s =>
      rw [hq] at hm
      simp only [Option.map_some, Option.some.injEq] at hm
      have hk := (List.getElem?_eq_some_iff.mp hq).1
      have hk1 : k < imgs.length := by omega
      have hk2 : k < rois.length := by omega
      exact ⟨imgs[k], rois[k], s, hr.2.2 k _ _ s (List.getElem?_eq_getElem hk1)
        (List.getElem?_eq_getElem hk2) hq, hm⟩
  have hset : (setROIs o' (getROIsCopy o')).2.2 = true := by
    rw [set_iff]
    intro m hm
    obtain ⟨k, hk⟩ := List.mem_iff_getElem?.mp hm
    obtain ⟨i, r, s, hrd, rfl⟩ := hready k m hk
    obtain ⟨hd, hpx, _, hfin, _, hpos, _⟩ := hrd
    rw [hd.1, hd.2, ← hfin, hn.2.2.2.1]
    refine ⟨hpos.1, ?_⟩
    obtain ⟨y, x, hy, hx, hp⟩ := count_pos.mp (by rw [← hfin]; exact hpos.1)
    rw [hpx y x hy hx] at hp
    by_cases hi : Inner o.border i.rows i.cols y x
    · unfold Inner at hi
      omega
    · rw [if_neg hi] at hp
      exact absurd rfl hp
  refine ⟨hset, ?_⟩
  intro k m m' hm hm'
  have := (set_masks o' (getROIsCopy o') (by unfold getROIsCopy; simp) hset).2.2.2 k m m' hm hm'
  refine ⟨this.1, fun y x hy hx => ?_⟩
  rw [this.2 y x hy hx, hn.2.2.2.1]
  obtain ⟨i, r, s, hrd, rfl⟩ := hready k m hm
  obtain ⟨hd, hpx, _⟩ := hrd
  by_cases hi : Inner o.border s.roi.rows s.roi.cols y x
  · rw [if_pos hi]
  · rw [if_neg hi, hpx y x (by omega) (by omega), if_neg]
    rw [← hd.1, ← hd.2]
    exact hi

/-- After masks are accepted the counts need not be those of the working masks, a working mask may have no useful
pixel left, and its size need not be that of the images. -/
theorem set_counts_refuted : ∃ (o : Obj) (rois : List Mask), rois.length = o.slots.length ∧
    (∃ o0 : Obj, ∃ imgs rois0, initializeCommon o0 imgs rois0 = (o, true)) ∧
    (setROIs o rois).2.2 = true ∧
    ((setROIs o rois).1.slots.map fun s => (s.roi.rows, s.info.1, s.fin, count s.roi.rows s.roi.cols s.roi.px)) =
      [(5, 3, 1, 0)] := by
  refine ⟨(initializeImages (make 1 1) [⟨3, 3, 0, true⟩]).1, [⟨5, 5, fun y _ => if y = 0 then 255 else 0⟩],
    rfl, ⟨make 1 1, [⟨3, 3, 0, true⟩], [noMask], ?_⟩, ?_⟩
  · refine Prod.ext rfl ?_
    change (initializeCommon (make 1 1) [⟨3, 3, 0, true⟩] [noMask]).2 = true
    decide +kernel
  · decide +kernel

/-- Masks refused because the second is too small for the borders: the first mask of the caller was already
changed. -/
theorem caller_masks_refuted : ∃ (o : Obj) (rois : List Mask), rois.length = o.slots.length ∧
    (setROIs o rois).2.2 = false ∧
    (rois.map fun m => count m.rows m.cols m.px) = [9, 1] ∧
    ((setROIs o rois).2.1.map fun m => count m.rows m.cols m.px) = [1, 1] := by
  refine ⟨make 2 1, [⟨3, 3, fun _ _ => 255⟩, ⟨1, 1, fun _ _ => 255⟩], rfl, ?_⟩
  decide +kernel

/-- The form of `apply` on lists: the right numbers of images and masks (or no mask) are needed, the algorithm sees
the images and masks in the order of the lists, and its masks come back in order. -/
theorem apply_list {I M : Type} (nIn nOut : Nat) (core : List I → List M → List M) (dflt : M)
    (hcore : ∀ a b, a.length = nIn → b.length = nOut → (core a b).length = nOut)
    (imgs : List I) (masks out : List M) :
    applyVec nIn nOut core dflt imgs masks = some out ↔
      imgs.length = nIn ∧ (masks = [] ∨ masks.length = nOut) ∧
        out = core imgs (if masks = [] then List.replicate nOut dflt else masks) := by
  unfold applyVec
  by_cases h1 : imgs.length = nIn
  · rw [if_pos h1]
    have ht : imgs.take nIn = imgs := List.take_of_length_le (Nat.le_of_eq h1)
    dsimp only
    rw [ht]
    by_cases h2 : masks = []
    · have hc := hcore imgs (List.replicate nOut dflt) h1 (by simp)
      rw [if_pos (by simp [h2]), if_pos h2, List.take_of_length_le (Nat.le_of_eq hc)]
      simp only [Option.some.injEq]
      exact ⟨fun h => ⟨h1, Or.inl h2, h.symm⟩, fun h => h.2.2.symm⟩
    · rw [if_neg (by simpa using h2), if_neg h2]
      by_cases h3 : masks.length = nOut
      · have hc := hcore imgs masks h1 h3
        rw [if_pos h3, List.take_of_length_le (Nat.le_of_eq hc)]
        simp only [Option.some.injEq]
        exact ⟨fun h => ⟨h1, Or.inr h3, h.symm⟩, fun h => h.2.2.symm⟩
      · rw [if_neg h3]
        constructor
        · intro h
          simp at h
        · rintro ⟨_, h | h, _⟩
          · exact absurd h h2
          · exact absurd h h3
  · rw [if_neg h1]
    constructor
    · intro h
      simp at h
    · exact fun h => absurd h.1 h1

/-! Concrete cases. -/

/-- Two streams, one without mask, one with two useful pixels of which one is on the border. -/
def demoRois : List Mask := [noMask, ⟨4, 5, fun y x => if (y = 1 ∧ x = 2) ∨ (y = 0 ∧ x = 0) then 255 else 0⟩]

example : (initializeCommon (make 2 1) [⟨3, 3, 0, true⟩, ⟨4, 5, 16, true⟩] demoRois).2 = true := by
  decide +kernel

example : ((initializeCommon (make 2 1) [⟨3, 3, 0, true⟩, ⟨4, 5, 16, true⟩] demoRois).1.slots.map
    fun s => (s.orig, s.fin, s.tot)) = [(9, 1, 9), (2, 1, 20)] := by decide +kernel

example : (initializeImages (make 2 1) [⟨3, 3, 0, true⟩, ⟨2, 5, 16, true⟩]).2 = false := by decide +kernel

example : ∃ p ∈ [(⟨3, 3, 0, false⟩ : Img)].zip [noMask], ¬ Usable 0 p.1 p.2 :=
  ⟨_, List.mem_singleton.mpr rfl, fun h => absurd h.1 (by decide)⟩

example : (setROIs (make 1 1) [⟨3, 3, fun _ _ => 255⟩]).2.2 = true := by decide +kernel

example : (setROIs (make 1 2) [⟨3, 3, fun _ _ => 255⟩]).2.2 = false := by decide +kernel

example : applyVec 2 2 (fun a _ => a.map fun v => v + 1) 0 [3, 4] [] = some [4, 5] := by decide +kernel

end Litiv.Coseg
