import Verif.Spec.Coseg

namespace Litiv.Coseg

open Spec

theorem nonZero_count (m : Mask) : nonZero m = count m.rows m.cols m.px := by
  unfold nonZero count cells
  rw [List.countP_flatMap]
  congr 1
  apply List.map_congr_left
  intro y _
  simp only [Function.comp, List.countP_map]
  rfl

theorem mem_cells {rows cols : Nat} {c : Nat × Nat} : c ∈ cells rows cols ↔ c.1 < rows ∧ c.2 < cols := by
  unfold cells
  simp only [List.mem_flatMap, List.mem_range, List.mem_map]
  constructor
  · rintro ⟨y, hy, x, hx, rfl⟩
    exact ⟨hy, hx⟩
  · intro h
    exact ⟨c.1, h.1, c.2, h.2, rfl⟩

theorem cells_length (rows cols : Nat) : (cells rows cols).length = rows * cols := by
  unfold cells
  simp [List.length_flatMap]

theorem count_le (rows cols : Nat) (px : Nat → Nat → Nat) : count rows cols px ≤ rows * cols := by
  rw [← cells_length]
  exact List.countP_le_length

theorem count_mono {rows cols : Nat} {p q : Nat → Nat → Nat}
    (h : ∀ y x, y < rows → x < cols → p y x ≠ 0 → q y x ≠ 0) : count rows cols p ≤ count rows cols q := by
  unfold count
  apply List.countP_mono_left
  intro c hc hp
  have := mem_cells.mp hc
  simp only [bne_iff_ne, ne_eq] at hp ⊢
  exact h _ _ this.1 this.2 hp

theorem count_congr {rows cols : Nat} {p q : Nat → Nat → Nat}
    (h : ∀ y x, y < rows → x < cols → p y x = q y x) : count rows cols p = count rows cols q :=
  Nat.le_antisymm (count_mono fun y x hy hx hp => by rw [← h y x hy hx]; exact hp)
    (count_mono fun y x hy hx hp => by rw [h y x hy hx]; exact hp)

theorem count_pos {rows cols : Nat} {p : Nat → Nat → Nat} :
    0 < count rows cols p ↔ ∃ y x, y < rows ∧ x < cols ∧ p y x ≠ 0 := by
  unfold count
  rw [List.countP_pos_iff]
  constructor
  · rintro ⟨c, hc, hp⟩
    have := mem_cells.mp hc
    exact ⟨c.1, c.2, this.1, this.2, by simpa using hp⟩
  · rintro ⟨y, x, hy, hx, hp⟩
    exact ⟨(y, x), mem_cells.mpr ⟨hy, hx⟩, by simpa using hp⟩

/-- The mask a stream starts from. -/
def full (p : Img × Mask) : Mask := if p.2.isEmpty then ⟨p.1.rows, p.1.cols, fun _ _ => 255⟩ else p.2

/-- The first loop accepts the stream. -/
def Good (p : Img × Mask) : Prop :=
  (p.1.rows ≠ 0 ∧ p.1.cols ≠ 0 ∧ p.1.cont = true) ∧
    (NotGiven p.2 ∨ (p.2.rows = p.1.rows ∧ p.2.cols = p.1.cols)) ∧ nonZero (full p) ≠ 0

theorem isEmpty_iff (m : Mask) : m.isEmpty = true ↔ NotGiven m := by
  unfold Mask.isEmpty NotGiven
  simp

theorem newROI_some {p : Img × Mask} (h : NotGiven p.2 ∨ (p.2.rows = p.1.rows ∧ p.2.cols = p.1.cols)) :
    newROI p.1 p.2 = some (full p) := by
  unfold newROI full
  by_cases he : p.2.isEmpty
  · rw [if_pos he, if_pos he]
  · rw [if_neg he, if_neg he, if_pos]
    rcases h with h | h
    · exact absurd ((isEmpty_iff _).mpr h) he
    · exact h

theorem newROI_none {p : Img × Mask} (h : ¬ (NotGiven p.2 ∨ (p.2.rows = p.1.rows ∧ p.2.cols = p.1.cols))) :
    newROI p.1 p.2 = none := by
  unfold newROI
  rw [if_neg, if_neg]
  · exact fun hh => h (Or.inr hh)
  · exact fun hh => h (Or.inl ((isEmpty_iff _).mp hh))

theorem gather_ok : ∀ (ps : List (Img × Mask)) (ss : List Slot), ps.length = ss.length →
    (∀ p ∈ ps, Good p) →
    gather ps ss = (List.zipWith (fun p (s : Slot) => { s with orig := nonZero (full p) }) ps ss,
      some (ps.map full))
  | [], [], _, _ => rfl
  | (i, r) :: t, s :: ss, hl, hg => by
    have h := hg (i, r) (by simp)
    have ih := gather_ok t ss (by simpa using hl) fun p hp => hg p (by simp [hp])
    unfold gather
    rw [if_neg (by
      rintro (h1 | h1 | h1)
      · exact h.1.1 h1
      · exact h.1.2.1 h1
      · have := h.1.2.2
        simp only at this
        rw [h1] at this
        exact absurd this (by decide))]
    have hn : newROI i r = some (full (i, r)) := newROI_some (p := (i, r)) h.2.1
    rw [hn]
    dsimp only
    rw [if_neg h.2.2, ih]
    rfl

theorem gather_bad : ∀ (ps : List (Img × Mask)) (ss : List Slot), ps.length = ss.length →
    (gather ps ss).2.isSome = true → ∀ p ∈ ps, Good p
  | [], [], _, _, p, hp => by simp at hp
  | (i, r) :: t, s :: ss, hl, hs, p, hp => by
    unfold gather at hs
    by_cases h1 : i.rows = 0 ∨ i.cols = 0 ∨ i.cont = false
    · rw [if_pos h1] at hs
      simp at hs
    rw [if_neg h1] at hs
    by_cases h2 : NotGiven r ∨ (r.rows = i.rows ∧ r.cols = i.cols)
    · have hn : newROI i r = some (full (i, r)) := newROI_some (p := (i, r)) h2
      rw [hn] at hs
      dsimp only at hs
      by_cases h3 : nonZero (full (i, r)) = 0
      · rw [if_pos h3] at hs
        simp at hs
      rw [if_neg h3] at hs
      rcases List.mem_cons.mp hp with rfl | hp
      · push Not at h1
        exact ⟨⟨h1.1, h1.2.1, by simpa using h1.2.2⟩, h2, h3⟩
      · exact gather_bad t ss (by simpa using hl) (by simpa using hs) p hp
    · have hn : newROI i r = none := newROI_none (p := (i, r)) h2
      rw [hn] at hs
      simp at hs

/-- The mask that `validateROIs` leaves. -/
def final (b : Nat) (m : Mask) : Mask := if 0 < b then (shrink b m).getD m else m

/-- The rectangle away from the borders is not negative. -/
def Fits (b : Nat) (m : Mask) : Prop := 2 * b ≤ m.cols ∧ 2 * b ≤ m.rows

theorem shrinkAll_ok (b : Nat) : ∀ (ms : List Mask), (∀ m ∈ ms, Fits b m) →
    shrinkAll b ms = (ms.map fun m => (shrink b m).getD m, true)
  | [], _ => rfl
  | m :: t, h => by
    have hm := h m (by simp)
    have ih := shrinkAll_ok b t fun x hx => h x (by simp [hx])
    unfold shrinkAll
    have : ∃ m', shrink b m = some m' := by
      unfold shrink
      rw [if_pos (show 2 * b ≤ m.cols ∧ 2 * b ≤ m.rows from hm)]
      exact ⟨_, rfl⟩
    obtain ⟨m', hm'⟩ := this
    rw [hm', ih]
    simp [hm']

theorem shrinkAll_bad (b : Nat) : ∀ (ms : List Mask), (shrinkAll b ms).2 = true → ∀ m ∈ ms, Fits b m
  | [], _, m, hm => by simp at hm
  | a :: t, h, m, hm => by
    unfold shrinkAll at h
    by_cases hf : Fits b a
    · have : ∃ m', shrink b a = some m' := by
        unfold shrink
        rw [if_pos (show 2 * b ≤ a.cols ∧ 2 * b ≤ a.rows from hf)]
        exact ⟨_, rfl⟩
      obtain ⟨m', hm'⟩ := this
      rw [hm'] at h
      rcases List.mem_cons.mp hm with rfl | hm
      · exact hf
      · exact shrinkAll_bad b t h m hm
    · have : shrink b a = none := by
        unfold shrink
        rw [if_neg (show ¬ (2 * b ≤ a.cols ∧ 2 * b ≤ a.rows) from hf)]
      rw [this] at h
      simp at h

theorem shrink_length (b : Nat) : ∀ ms : List Mask, (shrinkAll b ms).1.length = ms.length
  | [] => rfl
  | m :: t => by
    unfold shrinkAll
    cases shrink b m with
    | none => rfl
    | some m' => simp [shrink_length b t]

theorem fits_zero (m : Mask) : Fits 0 m := by simp [Fits]

theorem validate_ok (b : Nat) (ms : List Mask) (h0 : ∀ m ∈ ms, m.isEmpty = false ∧ 0 < nonZero m)
    (hf : ∀ m ∈ ms, Fits b m) : validateROIs b ms = (ms.map (final b), true) := by
  unfold validateROIs
  rw [if_pos]
  · by_cases hb : 0 < b
    · rw [if_pos hb, shrinkAll_ok b ms hf]
      congr 1
      apply List.map_congr_left
      intro m _
      unfold final
      rw [if_pos hb]
    · rw [if_neg hb]
      congr 1
      conv_lhs => rw [← List.map_id ms]
      apply List.map_congr_left
      intro m _
      unfold final
      rw [if_neg hb]
      rfl
  · rw [List.all_eq_true]
    intro m hm
    have := h0 m hm
    simp [this.1, this.2]

theorem validate_bad (b : Nat) (ms : List Mask) (h : (validateROIs b ms).2 = true) :
    (∀ m ∈ ms, m.isEmpty = false ∧ 0 < nonZero m) ∧ ∀ m ∈ ms, Fits b m := by
  unfold validateROIs at h
  by_cases ha : ms.all (fun m => !m.isEmpty && decide (0 < nonZero m))
  · rw [if_pos ha] at h
    refine ⟨fun m hm => ?_, fun m hm => ?_⟩
    · have := List.all_eq_true.mp ha m hm
      simpa using this
    · by_cases hb : 0 < b
      · rw [if_pos hb] at h
        exact shrinkAll_bad b ms h m hm
      · have : b = 0 := by omega
        subst this
        exact fits_zero m
  · rw [if_neg ha] at h
    simp at h

/-- Frame counters after the second loop. -/
def reset (o : Obj) : Obj := { o with frameIdx := 0, sinceReset := 0, cooldown := 0 }

theorem install_ok : ∀ (o : Obj) (ps : List (Img × Mask)) (ss : List Slot), ps.length = ss.length →
    (∀ p ∈ ps, nonZero p.2 ≠ 0) →
    installAll o ps ss =
      (if ps = [] then o else reset o, List.zipWith (fun p s => install p.1 p.2 s) ps ss, true)
  | o, [], [], _, _ => rfl
  | o, (i, m) :: t, s :: ss, hl, h => by
    have ih := install_ok (reset o) t ss (by simpa using hl) fun p hp => h p (by simp [hp])
    unfold installAll
    rw [if_neg (h (i, m) (by simp))]
    change (let r := installAll (reset o) t ss; (r.1, install i m s :: r.2.1, r.2.2)) = _
    rw [ih]
    dsimp only
    have hc : (i, m) :: t ≠ [] := by simp
    rw [if_neg hc]
    by_cases ht : t = []
    · rw [if_pos ht]; rfl
    · rw [if_neg ht]; rfl

theorem install_bad : ∀ (o : Obj) (ps : List (Img × Mask)) (ss : List Slot), ps.length = ss.length →
    (installAll o ps ss).2.2 = true → ∀ p ∈ ps, nonZero p.2 ≠ 0
  | o, [], [], _, _, p, hp => by simp at hp
  | o, (i, m) :: t, s :: ss, hl, h, p, hp => by
    unfold installAll at h
    by_cases h0 : nonZero m = 0
    · rw [if_pos h0] at h
      simp at h
    rw [if_neg h0] at h
    rcases List.mem_cons.mp hp with rfl | hp
    · exact h0
    · exact install_bad _ t ss (by simpa using hl) h p hp

theorem full_rows (p : Img × Mask) (h : NotGiven p.2 ∨ (p.2.rows = p.1.rows ∧ p.2.cols = p.1.cols)) :
    (full p).rows = p.1.rows ∧ (full p).cols = p.1.cols := by
  unfold full
  by_cases he : p.2.isEmpty
  · rw [if_pos he]
    exact ⟨rfl, rfl⟩
  · rw [if_neg he]
    rcases h with h | h
    · exact absurd ((isEmpty_iff _).mpr h) he
    · exact h

theorem full_px (p : Img × Mask) (y x : Nat) : (full p).px y x = wanted p.2 y x := by
  unfold full wanted
  by_cases he : p.2.isEmpty
  · rw [if_pos he, if_pos ((isEmpty_iff _).mp he)]
  · rw [if_neg he, if_neg (fun h => he ((isEmpty_iff _).mpr h))]

theorem final_dims (b : Nat) (m : Mask) : (final b m).rows = m.rows ∧ (final b m).cols = m.cols := by
  unfold final
  by_cases hb : 0 < b
  · rw [if_pos hb]
    unfold shrink
    by_cases hf : 2 * b ≤ m.cols ∧ 2 * b ≤ m.rows
    · rw [if_pos hf]
      exact ⟨rfl, rfl⟩
    · rw [if_neg hf]
      exact ⟨rfl, rfl⟩
  · rw [if_neg hb]
    exact ⟨rfl, rfl⟩

theorem final_px (b : Nat) (m : Mask) (hf : Fits b m) (y x : Nat) (hy : y < m.rows) (hx : x < m.cols) :
    (final b m).px y x = if Inner b m.rows m.cols y x then m.px y x else 0 := by
  unfold final
  by_cases hb : 0 < b
  · rw [if_pos hb]
    unfold shrink
    rw [if_pos (show 2 * b ≤ m.cols ∧ 2 * b ≤ m.rows from hf)]
    simp only [Option.getD_some]
    unfold Fits at hf
    by_cases hi : Inner b m.rows m.cols y x
    · rw [if_pos hi, if_pos]
      unfold Inner at hi
      omega
    · rw [if_neg hi, if_neg]
      intro hh
      apply hi
      unfold Inner
      omega
  · rw [if_neg hb, if_pos]
    unfold Inner
    omega

theorem final_pos (b : Nat) (m : Mask) (hf : Fits b m) :
    nonZero (final b m) ≠ 0 ↔ ∃ y x, Inner b m.rows m.cols y x ∧ m.px y x ≠ 0 := by
  have hd := final_dims b m
  rw [nonZero_count, ← Nat.pos_iff_ne_zero, count_pos, hd.1, hd.2]
  constructor
  · rintro ⟨y, x, hy, hx, hp⟩
    rw [final_px b m hf y x hy hx] at hp
    by_cases hi : Inner b m.rows m.cols y x
    · rw [if_pos hi] at hp
      exact ⟨y, x, hi, hp⟩
    · rw [if_neg hi] at hp
      exact absurd rfl hp
  · rintro ⟨y, x, hi, hp⟩
    have h := hi
    unfold Inner at h
    refine ⟨y, x, by omega, by omega, ?_⟩
    rw [final_px b m hf y x (by omega) (by omega), if_pos hi]
    exact hp

/-- A stream is usable exactly when all the tests of the three loops pass. -/
theorem usable_iff (b : Nat) (p : Img × Mask) :
    Usable b p.1 p.2 ↔ Good p ∧ Fits b (full p) ∧ nonZero (final b (full p)) ≠ 0 := by
  constructor
  · rintro ⟨hc, hs, y, x, hi, hp⟩
    have hd := full_rows p hs
    have h := hi
    unfold Inner at h
    have hf : Fits b (full p) := by
      unfold Fits
      omega
    refine ⟨⟨⟨by omega, by omega, hc⟩, hs, ?_⟩, hf, ?_⟩
    · rw [nonZero_count, ← Nat.pos_iff_ne_zero, count_pos]
      exact ⟨y, x, by omega, by omega, by rw [full_px]; exact hp⟩
    · rw [final_pos b _ hf]
      refine ⟨y, x, ?_, by rw [full_px]; exact hp⟩
      rw [hd.1, hd.2]
      exact hi
  · rintro ⟨⟨⟨_, _, hc⟩, hs, _⟩, hf, hn⟩
    rw [final_pos b _ hf] at hn
    obtain ⟨y, x, hi, hp⟩ := hn
    have hd := full_rows p hs
    rw [hd.1, hd.2] at hi
    rw [full_px] at hp
    exact ⟨hc, hs, y, x, hi, hp⟩

theorem good_nonempty {p : Img × Mask} (h : Good p) : (full p).isEmpty = false ∧ 0 < nonZero (full p) := by
  have hd := full_rows p h.2.1
  refine ⟨?_, Nat.pos_iff_ne_zero.mpr h.2.2⟩
  rw [Bool.eq_false_iff]
  intro he
  rw [isEmpty_iff] at he
  unfold NotGiven at he
  have := h.1
  omega

/-- The streams after a successful start. -/
def ready (b : Nat) (p : Img × Mask) (s : Slot) : Slot :=
  install p.1 (final b (full p)) { s with orig := nonZero (full p) }

theorem zip_final (b : Nat) : ∀ (imgs : List Img) (rois : List Mask), imgs.length = rois.length →
    imgs.zip (((imgs.zip rois).map full).map (final b)) =
      (imgs.zip rois).map fun p => (p.1, final b (full p))
  | [], _, _ => by simp
  | i :: is, [], h => by simp at h
  | i :: is, r :: rs, h => by
    simp only [List.zip_cons_cons, List.map_cons]
    rw [zip_final b is rs (by simpa using h)]

theorem zip_ready (b : Nat) : ∀ (ps : List (Img × Mask)) (ss : List Slot),
    List.zipWith (fun (p : Img × Mask) s => install p.1 p.2 s) (ps.map fun p => (p.1, final b (full p)))
      (List.zipWith (fun p (s : Slot) => { s with orig := nonZero (full p) }) ps ss) =
      List.zipWith (ready b) ps ss
  | [], _ => by simp
  | _ :: _, [] => by simp
  | p :: ps, s :: ss => by
    simp only [List.map_cons, List.zipWith_cons_cons]
    rw [zip_ready b ps ss]
    rfl

theorem init_ok (o : Obj) (imgs : List Img) (rois : List Mask) (hl : imgs.length = rois.length)
    (hs : rois.length = o.slots.length) (h : ∀ p ∈ imgs.zip rois, Usable o.border p.1 p.2) :
    initializeCommon o imgs rois =
      ({ (if imgs = [] then o else reset o) with
          init := false, modelInit := false,
          slots := List.zipWith (ready o.border) (imgs.zip rois) o.slots }, true) := by
  have hlen : (imgs.zip rois).length = o.slots.length := by simp [List.length_zip]; omega
  have hg : ∀ p ∈ imgs.zip rois, Good p := fun p hp => ((usable_iff _ p).mp (h p hp)).1
  unfold initializeCommon
  dsimp only
  rw [gather_ok _ _ hlen hg]
  dsimp only
  rw [validate_ok]
  · dsimp only
    rw [if_pos rfl, zip_final _ _ _ hl, install_ok]
    · dsimp only
      rw [zip_ready]
      cases imgs with
      | nil => rfl
      | cons i is =>
        cases rois with
        | nil => simp at hl
        | cons r rs => rfl
    · simp [List.length_zip]
      omega
    · intro p hp
      obtain ⟨q, hq, rfl⟩ := List.mem_map.mp hp
      exact ((usable_iff _ q).mp (h q hq)).2.2
  · intro m hm
    obtain ⟨q, hq, rfl⟩ := List.mem_map.mp hm
    exact good_nonempty (hg q hq)
  · intro m hm
    obtain ⟨q, hq, rfl⟩ := List.mem_map.mp hm
    exact ((usable_iff _ q).mp (h q hq)).2.1

theorem init_bad (o : Obj) (imgs : List Img) (rois : List Mask) (hl : imgs.length = rois.length)
    (hs : rois.length = o.slots.length) (h : (initializeCommon o imgs rois).2 = true) :
    ∀ p ∈ imgs.zip rois, Usable o.border p.1 p.2 := by
  have hlen : (imgs.zip rois).length = o.slots.length := by simp [List.length_zip]; omega
  have hg : ∀ p ∈ imgs.zip rois, Good p := by
    apply gather_bad _ o.slots hlen
    unfold initializeCommon at h
    dsimp only at h
    cases hh : (gather (imgs.zip rois) o.slots).2 with
    | none => rw [hh] at h; simp at h
    | some _ => rfl
  unfold initializeCommon at h
  dsimp only at h
  rw [gather_ok _ _ hlen hg] at h
  dsimp only at h
  by_cases hv : (validateROIs o.border ((imgs.zip rois).map full)).2 = true
  · rw [if_pos hv] at h
    have hb := validate_bad _ _ hv
    rw [validate_ok _ _ hb.1 hb.2, zip_final _ _ _ hl] at h
    have hi := install_bad _ _ _ (by simp [List.length_zip]; omega) h
    intro p hp
    rw [usable_iff]
    exact ⟨hg p hp, hb.2 _ (List.mem_map_of_mem hp),
      hi (p.1, final o.border (full p)) (List.mem_map_of_mem (f := fun p => (p.1, final o.border (full p))) hp)⟩
  · rw [if_neg hv] at h
    simp at h

theorem gather_rois : ∀ (ps : List (Img × Mask)) (ss : List Slot),
    (gather ps ss).1.map (fun s => s.roi) = ss.map fun s => s.roi
  | [], ss => by unfold gather; rfl
  | (i, r) :: t, [] => by unfold gather; rfl
  | (i, r) :: t, s :: ss => by
    have ih := gather_rois t ss
    unfold gather
    by_cases h1 : i.rows = 0 ∨ i.cols = 0 ∨ i.cont = false
    · rw [if_pos h1]
    rw [if_neg h1]
    cases newROI i r with
    | none => rfl
    | some m =>
      dsimp only
      by_cases h3 : nonZero m = 0
      · rw [if_pos h3]; rfl
      · rw [if_neg h3]
        simp only [List.map_cons]
        rw [ih]

theorem install_frame : ∀ (o : Obj) (ps : List (Img × Mask)) (ss : List Slot),
    (installAll o ps ss).1.init = o.init ∧ (installAll o ps ss).1.modelInit = o.modelInit ∧
      (installAll o ps ss).1.autoReset = o.autoReset ∧ (installAll o ps ss).1.border = o.border ∧
      (installAll o ps ss).2.1.length = ss.length
  | o, [], ss => by unfold installAll; exact ⟨rfl, rfl, rfl, rfl, rfl⟩
  | o, (i, m) :: t, [] => by unfold installAll; exact ⟨rfl, rfl, rfl, rfl, rfl⟩
  | o, (i, m) :: t, s :: ss => by
    have ih := install_frame { o with frameIdx := 0, sinceReset := 0, cooldown := 0 } t ss
    unfold installAll
    by_cases h : nonZero m = 0
    · rw [if_pos h]
      exact ⟨rfl, rfl, rfl, rfl, rfl⟩
    · rw [if_neg h]
      exact ⟨ih.1, ih.2.1, ih.2.2.1, ih.2.2.2.1, by simp [ih.2.2.2.2]⟩

theorem gather_length (ps : List (Img × Mask)) (ss : List Slot) : (gather ps ss).1.length = ss.length := by
  have := congrArg List.length (gather_rois ps ss)
  simpa using this

theorem ready_spec (b : Nat) (p : Img × Mask) (s : Slot) (h : Usable b p.1 p.2) :
    Ready b p.1 p.2 (ready b p s) := by
  obtain ⟨hg, hf, hn⟩ := (usable_iff b p).mp h
  have hd := full_rows p hg.2.1
  have he := final_dims b (full p)
  have hpx : ∀ y x, y < p.1.rows → x < p.1.cols →
      (final b (full p)).px y x = if Inner b p.1.rows p.1.cols y x then wanted p.2 y x else 0 := by
    intro y x hy hx
    rw [final_px b (full p) hf y x (by omega) (by omega), hd.1, hd.2, full_px]
  have horig : nonZero (full p) = count p.1.rows p.1.cols (wanted p.2) := by
    rw [nonZero_count, hd.1, hd.2]
    exact count_congr fun y x _ _ => full_px p y x
  have hfin : nonZero (final b (full p)) = count p.1.rows p.1.cols (final b (full p)).px := by
    rw [nonZero_count, he.1, he.2, hd.1, hd.2]
  refine ⟨⟨he.1.trans hd.1, he.2.trans hd.2⟩, hpx, horig, hfin, ?_, ⟨Nat.pos_iff_ne_zero.mpr hn, ?_, ?_⟩,
    ⟨rfl, rfl⟩, ⟨rfl, rfl, fun _ _ => rfl⟩⟩
  · change (final b (full p)).rows * (final b (full p)).cols = _
    rw [he.1, he.2, hd.1, hd.2]
  · change nonZero (final b (full p)) ≤ nonZero (full p)
    rw [hfin, horig]
    apply count_mono
    intro y x hy hx hp
    rw [hpx y x hy hx] at hp
    by_cases hi : Inner b p.1.rows p.1.cols y x
    · rw [if_pos hi] at hp
      exact hp
    · rw [if_neg hi] at hp
      exact absurd rfl hp
  · change nonZero (full p) ≤ (final b (full p)).rows * (final b (full p)).cols
    rw [he.1, he.2, hd.1, hd.2, horig]
    exact count_le _ _ _

theorem usable_zero (p : Img × Mask) : Usable 0 p.1 p.2 ↔ Good p := by
  rw [usable_iff]
  constructor
  · exact fun h => h.1
  · intro h
    exact ⟨h, fits_zero _, by unfold final; rw [if_neg (by omega)]; exact h.2.2⟩

end Litiv.Coseg
