import Verif.Lemmas.VapLoad

/-!
# Packets of the VAP trimodal dataset
-/

namespace Litiv.VapLoad

/-- **Defined.** Packets of valid files are read, unless depth images are to be rectified, if the thermal offset is smaller
than the images. -/
theorem packets_defined (cfg : Cfg) (ops : Ops) (f : Files) (hf : f.Valid) (ho : cfg.offset < 480 ∧ cfg.offset < cfg.rows)
    (hd : ¬ (cfg.rectify = true ∧ cfg.depth = true)) : (rawInputs cfg ops f).isSome ∧ (rawGT cfg ops f).isSome := by
  obtain ⟨hfm, hf1, hf2, hf3⟩ := hf
  have hmask : ∀ m, (maskFile cfg f m).info = ⟨.u8c1, 480, 640⟩ := by
    intro m
    unfold maskFile
    split
    · exact (hfm m).2.2.2
    · exact (hfm m).2.2.1
  have himg : ∀ m ty, (f.image m).ty = ty → (f.image m).info = ⟨ty, 480, 640⟩ := by
    intro m ty h
    rw [Img.info, h, (hfm m).1, (hfm m).2.1]
  have hoff : ∀ a : Img, cfg.offset < a.rows → (offsetThermal cfg a).isSome := by
    intro a ha
    unfold offsetThermal shiftUp
    rw [if_pos ha]
    split <;> rfl
  have hrgb : ∀ ty ip img, img.info = ⟨ty, 480, 640⟩ → (viewRGB cfg ops ty ip img).isSome := by
    intro ty ip img h
    unfold viewRGB
    rw [Option.isSome_map]
    exact (sized_defined cfg ops ty ip img).2 h
  have hth : ∀ ty ip img, img.info = ⟨ty, 480, 640⟩ → (viewThermal cfg ops ty ip img).isSome := by
    intro ty ip img h
    unfold viewThermal
    obtain ⟨a, ha⟩ := Option.isSome_iff_exists.1 ((sized_defined cfg ops ty ip img).2 h)
    rw [ha, Option.bind_some]
    split
    · exact hoff _ ho.1
    · rfl
  have hthg : ∀ img, img.info = ⟨.u8c1, 480, 640⟩ → (viewThermalGT cfg ops img).isSome := by
    intro img h
    have h' : (fixScene3 cfg img).info = ⟨.u8c1, 480, 640⟩ := by
      rw [← h]; unfold fixScene3; split <;> rfl
    unfold viewThermalGT
    obtain ⟨a, ha⟩ := Option.isSome_iff_exists.1 ((sized_defined cfg ops .u8c1 .linear _).2 h')
    have hi := sized_info ha
    unfold Img.info at hi
    rw [Info.mk.injEq] at hi
    rw [ha, Option.bind_some]
    dsimp only
    by_cases hc : cfg.calib = true
    · rw [if_pos hc, if_pos hc]
      apply hoff
      split
      · exact ho.1
      · rw [hi.2.1]; exact ho.2
    · rw [if_neg hc]; rfl
  have hde : ∀ ty ip img, img.info = ⟨ty, 480, 640⟩ → (viewDepth cfg ops ty ip img).isSome :=
    fun ty ip img h => (sized_defined cfg ops ty ip img).2 h
  constructor
  · apply finish_def hd
    unfold inputViews
    dsimp only
    intro x hx
    have a1 := hrgb .u8c3 .cubic _ (himg .rgb _ hf1)
    have a2 := hth .u8c1 .cubic _ (himg .thermal _ hf2)
    have a3 := hde .u16c1 .cubic _ (himg .depth _ hf3)
    have b1 := hrgb .u8c1 .linear _ (hmask .rgb)
    have b2 := hth .u8c1 .linear _ (hmask .thermal)
    have b3 := hde .u8c1 .linear _ (hmask .depth)
    by_cases hm : cfg.interlaced = true <;> by_cases hdp : cfg.depth = true <;>
      simp only [hm, hdp, if_true, Bool.false_eq_true, if_false, List.append_nil, List.cons_append, List.nil_append, List.mem_cons,
        List.not_mem_nil, or_false] at hx
    · rcases hx with rfl | rfl | rfl | rfl | rfl | rfl <;> (try simp only [Option.isSome_map]) <;> assumption
    · rcases hx with rfl | rfl | rfl | rfl <;> (try simp only [Option.isSome_map]) <;> assumption
    · rcases hx with rfl | rfl | rfl <;> assumption
    · rcases hx with rfl | rfl <;> assumption
  · apply finish_def hd
    unfold gtViews
    intro x hx
    have b1 := hrgb .u8c1 .linear _ (hfm .rgb).2.2.1
    have b2 := hthg _ (hfm .thermal).2.2.1
    have b3 := hde .u8c1 .linear _ (hfm .depth).2.2.1
    by_cases hdp : cfg.depth = true <;>
      simp only [hdp, if_true, Bool.false_eq_true, if_false, List.append_nil, List.cons_append, List.nil_append, List.mem_cons,
        List.not_mem_nil, or_false] at hx
    · rcases hx with rfl | rfl | rfl <;> (try simp only [Option.isSome_map]) <;> assumption
    · rcases hx with rfl | rfl <;> (try simp only [Option.isSome_map]) <;> assumption

/-- **Counts.** There are as many images as streams, and no packets with rectified depth images. -/
theorem packet_counts (cfg : Cfg) (ops : Ops) (f : Files) :
    (∀ l, rawInputs cfg ops f = some l → l.length = inputCount cfg) ∧ (∀ l, rawGT cfg ops f = some l → l.length = gtCount cfg) ∧
    (cfg.rectify = true → cfg.depth = true → rawInputs cfg ops f = none ∧ rawGT cfg ops f = none) := by
  refine ⟨?_, ?_, ?_⟩
  · intro l h
    rw [(finish_get h).1, inputViews_length]
  · intro l h
    rw [(finish_get h).1, gtViews_length]
  · intro hr hd
    constructor
    · cases h : rawInputs cfg ops f with
      | none => rfl
      | some l => obtain ⟨_, _, _, h'⟩ := finish_some h; rw [h' hr] at hd; cases hd
    · cases h : rawGT cfg ops f with
      | none => rfl
      | some l => obtain ⟨_, _, _, h'⟩ := finish_some h; rw [h' hr] at hd; cases hd

/-- **Announced sizes and types.** If images are not scaled, or not undistorted nor rectified, every image has the announced
type and size, except depth images. -/
theorem announced_partial (cfg : Cfg) (ops : Ops) (f : Files)
    (hs : (cfg.undistort || cfg.rectify) = true → cfg.rows = 480 ∧ cfg.cols = 640) :
    (∀ l, rawInputs cfg ops f = some l → ∀ i a, l[i]? = some a → inputName cfg i ≠ "DEPTH" → a.info = inputInfo cfg i) ∧
    (∀ l, rawGT cfg ops f = some l → ∀ i a, l[i]? = some a → a.info = gtInfo cfg i) := by
  have hfit : Fits cfg := hs
  constructor
  · intro l hl i a ha hn
    have hi : i < inputCount cfg := by
      rw [← inputViews_length cfg ops f, ← (finish_get hl).1]
      exact (List.getElem?_eq_some_iff.1 ha).1
    obtain ⟨b, hb, rfl⟩ := (finish_get hl).2 i a ha
    unfold inputInfo
    apply fin_info
    unfold inputCount at hi
    unfold inputViews at hb
    unfold inputName at hn
    dsimp only at hb
    by_cases hm : cfg.interlaced = true <;> by_cases hd : cfg.depth = true <;>
      simp only [hm, hd, if_true, Bool.false_eq_true, if_false] at hi hb hn
    · have : i = 0 ∨ i = 1 ∨ i = 2 ∨ i = 3 ∨ i = 4 ∨ i = 5 := by omega
      rcases this with rfl | rfl | rfl | rfl | rfl | rfl
      · exact viewRGB_info hfit (by simpa using hb)
      · exact map_binarize (fun _ h => viewRGB_info hfit h) (by simpa using hb)
      · exact viewThermal_info hfit (by simpa using hb)
      · exact map_binarize (fun _ h => viewThermal_info hfit h) (by simpa using hb)
      · exact absurd rfl hn
      · exact map_binarize (fun _ h => viewDepth_info h) (by simpa using hb)
    · have : i = 0 ∨ i = 1 ∨ i = 2 ∨ i = 3 := by omega
      rcases this with rfl | rfl | rfl | rfl
      · exact viewRGB_info hfit (by simpa using hb)
      · exact map_binarize (fun _ h => viewRGB_info hfit h) (by simpa using hb)
      · exact viewThermal_info hfit (by simpa using hb)
      · exact map_binarize (fun _ h => viewThermal_info hfit h) (by simpa using hb)
    · have : i = 0 ∨ i = 1 ∨ i = 2 := by omega
      rcases this with rfl | rfl | rfl
      · exact viewRGB_info hfit (by simpa using hb)
      · exact viewThermal_info hfit (by simpa using hb)
      · exact absurd rfl hn
    · have : i = 0 ∨ i = 1 := by omega
      rcases this with rfl | rfl
      · exact viewRGB_info hfit (by simpa using hb)
      · exact viewThermal_info hfit (by simpa using hb)
  · intro l hl i a ha
    have hi : i < gtCount cfg := by
      rw [← gtViews_length cfg ops f, ← (finish_get hl).1]
      exact (List.getElem?_eq_some_iff.1 ha).1
    obtain ⟨b, hb, rfl⟩ := (finish_get hl).2 i a ha
    unfold gtInfo
    apply fin_info
    unfold gtCount at hi
    unfold gtViews at hb
    by_cases hd : cfg.depth = true <;> simp only [hd, if_true, Bool.false_eq_true, if_false] at hi hb
    · have : i = 0 ∨ i = 1 ∨ i = 2 := by omega
      rcases this with rfl | rfl | rfl
      · exact map_binarize (fun _ h => viewRGB_info hfit h) (by simpa using hb)
      · exact map_binarize (fun _ h => viewThermalGT_info hfit h) (by simpa using hb)
      · exact map_binarize (fun _ h => viewDepth_info h) (by simpa using hb)
    · have : i = 0 ∨ i = 1 := by omega
      rcases this with rfl | rfl
      · exact map_binarize (fun _ h => viewRGB_info hfit h) (by simpa using hb)
      · exact map_binarize (fun _ h => viewThermalGT_info hfit h) (by simpa using hb)

/-- Files of blank images. -/
def blank : Files where
  image := fun m => ⟨match m with | .rgb => .u8c3 | .thermal => .u8c1 | .depth => .u16c1, 480, 640, fun _ _ => 0⟩
  gt := fun _ => ⟨.u8c1, 480, 640, fun _ _ => 255⟩
  approx := fun _ => ⟨.u8c1, 480, 640, fun _ _ => 0⟩

/-- Operations which keep pixels in place. -/
def keep : Ops where
  resize := fun _ _ _ img => img.px
  remapRGB := fun _ img => img.px
  remapThermal := fun _ img => img.px

/-- Blank files are valid, and operations which keep pixels gather them. -/
example : blank.Valid ∧ Gathers keep :=
  ⟨⟨fun _ => ⟨rfl, rfl, rfl, rfl⟩, rfl, rfl, rfl⟩, ⟨fun y x => some (y, x), fun _ _ _ _ => rfl⟩, fun y x => some (y, x), fun _ _ _ _ => rfl⟩

/-- **Refuted.** With images scaled to half their size and undistorted, images of the original size are given where half the
size is announced, for inputs and ground truth. -/
theorem size_refuted : ∃ cfg : Cfg, cfg.scene ∈ batches cfg ∧ cfg.rows = 240 ∧ cfg.cols = 320 ∧ ∃ l g,
    rawInputs cfg keep blank = some l ∧ rawGT cfg keep blank = some g ∧
    l.map Img.info = [⟨.u8c3, 480, 640⟩, ⟨.u8c1, 480, 640⟩] ∧ g.map Img.info = [⟨.u8c1, 480, 640⟩, ⟨.u8c1, 480, 640⟩] ∧
    inputInfo cfg 0 = ⟨.u8c3, 240, 320⟩ ∧ gtInfo cfg 0 = ⟨.u8c1, 240, 320⟩ := by
  refine ⟨⟨true, false, false, false, 0, 240, 320, 0, 1⟩, by decide, rfl, rfl, _, _, rfl, rfl, by decide, by decide, by decide, by decide⟩

/-- **Refuted.** Depth images have 16 bits where 8 bits are announced. -/
theorem depth_refuted : ∃ cfg : Cfg, cfg.scene ∈ batches cfg ∧ ∃ l, rawInputs cfg keep blank = some l ∧
    inputName cfg 2 = "DEPTH" ∧ (l[2]?).map Img.info = some ⟨.u16c1, 480, 640⟩ ∧ inputInfo cfg 2 = ⟨.u8c1, 480, 640⟩ := by
  refine ⟨⟨false, false, false, true, 0, 480, 640, 0, 1⟩, by decide, _, rfl, by decide, by decide, by decide⟩

/-- **Alignment.** Without scaling, and if remapping moves pixels, every pixel of an image and of its input mask comes from
the same place of their files, for each modality; so does every pixel of its ground truth, except in scene 3. -/
theorem aligned_partial (cfg : Cfg) (ops : Ops) (hg : Gathers ops) (hr : cfg.rows = 480) (hc : cfg.cols = 640)
    (hb : cfg.scene ∈ batches cfg) :
    ∃ src : Mod → Nat → Nat → Option (Nat × Nat), ∀ f m,
      (∀ l, rawInputs cfg ops f = some l → ∀ i a, l[i]? = some a →
        (inputName cfg i = m.name → ∀ r c, a.px r c = (f.image m).at (src m r c)) ∧
        (inputName cfg i = m.name ++ "_MASK" → ∀ r c, a.px r c = maskValue ((maskFile cfg f m).at (src m r c)))) ∧
      (cfg.scene ≠ 3 → ∀ l, rawGT cfg ops f = some l → ∀ i a, l[i]? = some a → gtName i = m.name ++ "_GT" →
        ∀ r c, a.px r c = maskValue ((f.gt m).at (src m r c))) := by
  obtain ⟨⟨s0, h0⟩, s1, h1⟩ := hg
  have hfit : Fits cfg := fun _ => ⟨hr, hc⟩
  have rowsOf : ∀ {ty : Ty} {a : Img}, a.info = ⟨ty, cfg.rows, cfg.cols⟩ → a.rows = 480 := by
    intro ty a h
    unfold Img.info at h
    rw [Info.mk.injEq] at h
    rw [h.2.1, hr]
  have img_case : ∀ (m : Mod) (v : Option Img) (img b : Img), v = some b → (∀ a, v = some a → a.rows = 480) →
      (∀ a, v = some a → ∀ y x, a.px y x = img.at (viewSource cfg s0 s1 m y x)) → ∀ r c,
      (fin cfg b).px r c = img.at (source cfg s0 s1 m r c) := by
    intro m v img b hv h2 h3 r c
    exact fin_px (g := fun v => v) (h2 b hv) (h3 b hv) r c
  have mask_case : ∀ (m : Mod) (v : Option Img) (img b : Img), v.map binarize = some b → (∀ a, v = some a → a.rows = 480) →
      (∀ a, v = some a → ∀ y x, a.px y x = img.at (viewSource cfg s0 s1 m y x)) → ∀ r c,
      (fin cfg b).px r c = maskValue (img.at (source cfg s0 s1 m r c)) := by
    intro m v img b hv h2 h3 r c
    rw [Option.map_eq_some_iff] at hv
    obtain ⟨a, ha, rfl⟩ := hv
    refine fin_px (g := maskValue) (by exact h2 a ha) ?_ r c
    intro y x
    rw [← h3 a ha]; rfl
  refine ⟨source cfg s0 s1, ?_⟩
  intro f m
  refine ⟨?_, ?_⟩
  · intro l hl i a ha
    have hi : i < inputCount cfg := by
      rw [← inputViews_length cfg ops f, ← (finish_get hl).1]
      exact (List.getElem?_eq_some_iff.1 ha).1
    obtain ⟨b, hb, rfl⟩ := (finish_get hl).2 i a ha
    obtain ⟨c1, c2⟩ := inputName_cases cfg i hi m
    constructor
    · intro hn
      have hv := c1 hn ops f b hb
      cases m with
      | rgb => exact img_case .rgb _ _ b hv (fun _ h => rowsOf (viewRGB_info hfit h)) (fun _ h => viewRGB_px hr hc h0 h)
      | thermal => exact img_case .thermal _ _ b hv (fun _ h => rowsOf (viewThermal_info hfit h)) (fun _ h => viewThermal_px hr hc h1 h)
      | depth =>
        exact img_case .depth _ _ b hv (fun _ h => rowsOf (sized_info h)) (fun a h y x => by rw [sized_same hr hc h]; rfl)
    · intro hn
      have hv := c2 hn ops f b hb
      cases m with
      | rgb => exact mask_case .rgb _ _ b hv (fun _ h => rowsOf (viewRGB_info hfit h)) (fun _ h => viewRGB_px hr hc h0 h)
      | thermal => exact mask_case .thermal _ _ b hv (fun _ h => rowsOf (viewThermal_info hfit h)) (fun _ h => viewThermal_px hr hc h1 h)
      | depth =>
        exact mask_case .depth _ _ b hv (fun _ h => rowsOf (sized_info h)) (fun a h y x => by rw [sized_same hr hc h]; rfl)
  · intro h3 l hl i a ha hn
    have hi : i < gtCount cfg := by
      rw [← gtViews_length cfg ops f, ← (finish_get hl).1]
      exact (List.getElem?_eq_some_iff.1 ha).1
    obtain ⟨b, hb', rfl⟩ := (finish_get hl).2 i a ha
    have hv := gtName_cases cfg i hi m hn ops f b hb'
    cases m with
    | rgb => exact mask_case .rgb _ _ b hv (fun _ h => rowsOf (viewRGB_info hfit h)) (fun _ h => viewRGB_px hr hc h0 h)
    | thermal =>
      dsimp only at hv
      rw [viewThermalGT_eq cfg ops _ h3 (batch_scene hb)] at hv
      exact mask_case .thermal _ _ b hv (fun _ h => rowsOf (viewThermal_info hfit h)) (fun _ h => viewThermal_px hr hc h1 h)
    | depth =>
      exact mask_case .depth _ _ b hv (fun _ h => rowsOf (sized_info h)) (fun a h y x => by rw [sized_same hr hc h]; rfl)

/-- **Rotation.** Rectified packets are those which are undistorted with the same maps, turned by a quarter clockwise: the
top left pixel becomes the top right one. -/
theorem rotated (cfg : Cfg) (ops : Ops) (f : Files) (l k : List Img) (hr : cfg.rectify = true)
    (hl : rawInputs cfg ops f = some l) (hk : rawInputs { cfg with rectify := false, undistort := true } ops f = some k)
    (i : Nat) (a b : Img) (ha : l[i]? = some a) (hb : k[i]? = some b) :
    a.ty = b.ty ∧ a.rows = b.cols ∧ a.cols = b.rows ∧ ∀ y x, y < b.rows → a.px x (b.rows - 1 - y) = b.px y x := by
  obtain ⟨a', ha', rfl⟩ := (finish_get hl).2 i a ha
  obtain ⟨b', hb', rfl⟩ := (finish_get hk).2 i b hb
  have he : inputViews { cfg with rectify := false, undistort := true } ops f = inputViews cfg ops f := by
    have h1 : cfg.calib = true := by unfold Cfg.calib; rw [hr, Bool.or_true]
    have h2 : ({ cfg with rectify := false, undistort := true } : Cfg).calib = true := rfl
    unfold inputViews viewRGB viewThermal
    rw [h1, h2]
    rfl
  rw [he, ha'] at hb'
  have hab : a' = b := by simpa using hb'
  rw [← hab]
  unfold fin
  rw [if_pos hr]
  refine ⟨rfl, rfl, rfl, ?_⟩
  intro y x hy
  show a'.px (a'.rows - 1 - (a'.rows - 1 - y)) x = a'.px y x
  congr 1
  omega

/-- **Masks.** The option -1 loads the ground truth of all streams as input masks, 1 all approximate masks, and 2, 4 and 8 the
ground truth of one stream. -/
theorem mask_choice (cfg : Cfg) (f : Files) (m : Mod) :
    (cfg.masks = -1 → maskFile cfg f m = f.gt m) ∧ (cfg.masks = 1 → maskFile cfg f m = f.approx m) ∧
    (cfg.masks = 2 → maskFile cfg f m = if m = .rgb then f.gt m else f.approx m) ∧
    (cfg.masks = 4 → maskFile cfg f m = if m = .thermal then f.gt m else f.approx m) ∧
    (cfg.masks = 8 → maskFile cfg f m = if m = .depth then f.gt m else f.approx m) ∧
    (inputCount cfg = gtCount cfg ↔ cfg.masks = 0) := by
  refine ⟨?_, ?_, ?_, ?_, ?_, ?_⟩
  · intro h; unfold maskFile useApprox; rw [h]; cases m <;> rfl
  · intro h; unfold maskFile useApprox; rw [h]; cases m <;> rfl
  · intro h; unfold maskFile useApprox; rw [h]; cases m <;> rfl
  · intro h; unfold maskFile useApprox; rw [h]; cases m <;> rfl
  · intro h; unfold maskFile useApprox; rw [h]; cases m <;> rfl
  · unfold inputCount gtCount Cfg.interlaced
    by_cases h : cfg.masks = 0
    · simp [h]
    · simp only [bne_iff_ne, ne_eq, h, not_false_eq_true, if_true, iff_false]
      split <;> omega

/-- **Masks and ground truth.** If the ground truth is loaded as input masks, then every input mask is the ground truth of the
packet, except in scene 3. -/
theorem mask_gt_partial (cfg : Cfg) (ops : Ops) (f : Files) (hb : cfg.scene ∈ batches cfg) (h3 : cfg.scene ≠ 3)
    (hm : cfg.masks = -1) (l g : List Img) (hl : rawInputs cfg ops f = some l) (hg : rawGT cfg ops f = some g)
    (m : Mod) (i j : Nat) (a b : Img) (ha : l[i]? = some a) (hgb : g[j]? = some b)
    (hi : inputName cfg i = m.name ++ "_MASK") (hj : gtName j = m.name ++ "_GT") : a.Same b := by
  have hi' : i < inputCount cfg := by
    rw [← inputViews_length cfg ops f, ← (finish_get hl).1]
    exact (List.getElem?_eq_some_iff.1 ha).1
  have hj' : j < gtCount cfg := by
    rw [← gtViews_length cfg ops f, ← (finish_get hg).1]
    exact (List.getElem?_eq_some_iff.1 hgb).1
  obtain ⟨a', ha', rfl⟩ := (finish_get hl).2 i a ha
  obtain ⟨b', hb', rfl⟩ := (finish_get hg).2 j b hgb
  have h1 := (inputName_cases cfg i hi' m).2 hi ops f a' ha'
  have h2 := gtName_cases cfg j hj' m hj ops f b' hb'
  have : a' = b' := by
    cases m with
    | rgb =>
      dsimp only at h1 h2
      rw [(mask_choice cfg f .rgb).1 hm, h2, Option.some.injEq] at h1
      exact h1.symm
    | thermal =>
      dsimp only at h1 h2
      rw [viewThermalGT_eq cfg ops _ h3 (batch_scene hb)] at h2
      rw [(mask_choice cfg f .thermal).1 hm, h2, Option.some.injEq] at h1
      exact h1.symm
    | depth =>
      dsimp only at h1 h2
      rw [(mask_choice cfg f .depth).1 hm, h2, Option.some.injEq] at h1
      exact h1.symm
  rw [this]
  exact ⟨rfl, fun _ _ _ _ => rfl⟩

/-- **Refuted.** In scene 3, the ground truth loaded as the thermal input mask differs from the ground truth: only the latter
is translated. -/
theorem mask_gt_refuted : ∃ cfg : Cfg, cfg.scene = 3 ∧ cfg.scene ∈ batches cfg ∧ cfg.masks = -1 ∧ ∃ l g,
    rawInputs cfg keep blank = some l ∧ rawGT cfg keep blank = some g ∧ inputName cfg 3 = "THERMAL_MASK" ∧
    gtName 1 = "THERMAL_GT" ∧ (l[3]?).map (fun a => a.px 0 0) = some 255 ∧ (g[1]?).map (fun a => a.px 0 0) = some 0 := by
  refine ⟨⟨false, false, false, false, -1, 480, 640, 0, 3⟩, rfl, by decide, rfl, _, _, rfl, rfl, by decide, by decide, by decide, by decide⟩

/-- A rectified packet of scene 1 with masks and a thermal offset. -/
example : ∃ cfg : Cfg, cfg.scene = 1 ∧ cfg.scene ∈ batches cfg ∧ cfg.rectify = true ∧ cfg.masks = -1 ∧ cfg.offset = 7 ∧
    ((rawInputs cfg keep blank).map fun l => l.map Img.info) =
      some [⟨.u8c3, 640, 480⟩, ⟨.u8c1, 640, 480⟩, ⟨.u8c1, 640, 480⟩, ⟨.u8c1, 640, 480⟩] ∧
    inputName cfg 3 = "THERMAL_MASK" :=
  ⟨⟨true, true, false, false, -1, 480, 640, 7, 1⟩, rfl, by decide, rfl, rfl, rfl, by decide, by decide⟩

end Litiv.VapLoad
