import Verif.Spec.VapLoad

/-!
# Lemmas on packets of the VAP trimodal dataset
-/

namespace Litiv.VapLoad

theorem allSome_iff : ∀ (xs : List (Option Img)) (l : List Img), allSome xs = some l ↔ xs = l.map some := by
  intro xs
  induction xs with
  | nil => intro l; cases l <;> simp [allSome]
  | cons a r ih =>
    intro l
    cases a with
    | none => cases l <;> simp [allSome]
    | some a =>
      unfold allSome
      cases l with
      | nil => simp
      | cons b l =>
        simp only [Option.map_eq_some_iff, List.map_cons, List.cons.injEq, Option.some.injEq]
        constructor
        · rintro ⟨k, hk, h1, rfl⟩
          exact ⟨h1, (ih k).1 hk⟩
        · rintro ⟨h1, h2⟩
          exact ⟨l, (ih l).2 h2, h1, rfl⟩

/-- The last step on one image. -/
def fin (cfg : Cfg) (img : Img) : Img := if cfg.rectify then rotate img else img

theorem finish_some {cfg : Cfg} {xs : List (Option Img)} {l : List Img} (h : finish cfg xs = some l) :
    ∃ k : List Img, xs = k.map some ∧ l = k.map (fin cfg) ∧ (cfg.rectify = true → cfg.depth = false) := by
  unfold finish at h
  rw [Option.bind_eq_some_iff] at h
  obtain ⟨k, hk, h⟩ := h
  refine ⟨k, (allSome_iff xs k).1 hk, ?_⟩
  unfold fin
  split at h
  · rename_i hr
    split at h
    · cases h
    · rename_i hd
      simp only [Option.some.injEq] at h
      exact ⟨by rw [← h]; simp [hr], fun _ => by simpa using hd⟩
  · rename_i hr
    simp only [Option.some.injEq] at h
    exact ⟨by rw [← h]; simp [hr], fun h => absurd h hr⟩

theorem finish_get {cfg : Cfg} {xs : List (Option Img)} {l : List Img} (h : finish cfg xs = some l) :
    l.length = xs.length ∧ ∀ (i : Nat) (a : Img), l[i]? = some a → ∃ b : Img, xs[i]? = some (some b) ∧ a = fin cfg b := by
  obtain ⟨k, h1, h2, -⟩ := finish_some h
  subst h1; subst h2
  refine ⟨by simp, ?_⟩
  intro i a ha
  rw [List.getElem?_map, Option.map_eq_some_iff] at ha
  obtain ⟨b, hb, rfl⟩ := ha
  exact ⟨b, by rw [List.getElem?_map, hb]; rfl, rfl⟩

theorem finish_def {cfg : Cfg} {xs : List (Option Img)} (hd : ¬ (cfg.rectify = true ∧ cfg.depth = true))
    (h : ∀ x ∈ xs, x.isSome) : (finish cfg xs).isSome := by
  have : ∃ l, allSome xs = some l := by
    induction xs with
    | nil => exact ⟨[], rfl⟩
    | cons a r ih =>
      obtain ⟨l, hl⟩ := ih (fun x hx => h x (List.mem_cons_of_mem _ hx))
      have ha := h a List.mem_cons_self
      obtain ⟨b, rfl⟩ := Option.isSome_iff_exists.1 ha
      exact ⟨b :: l, by rw [allSome, hl]; rfl⟩
  obtain ⟨l, hl⟩ := this
  unfold finish
  rw [hl, Option.bind_some]
  by_cases hr : cfg.rectify = true
  · have hd' : ¬ cfg.depth = true := fun h => hd ⟨hr, h⟩
    rw [if_pos hr, if_neg hd']; rfl
  · rw [if_neg hr]; rfl

theorem inputViews_length (cfg : Cfg) (ops : Ops) (f : Files) : (inputViews cfg ops f).length = inputCount cfg := by
  unfold inputViews inputCount
  dsimp only
  cases cfg.interlaced <;> cases cfg.depth <;> rfl

theorem gtViews_length (cfg : Cfg) (ops : Ops) (f : Files) : (gtViews cfg ops f).length = gtCount cfg := by
  unfold gtViews gtCount
  cases cfg.depth <;> rfl

/-- The size announced is the size of the files, or they are not remapped. -/
def Fits (cfg : Cfg) : Prop := cfg.calib = true → cfg.rows = 480 ∧ cfg.cols = 640

theorem sized_info {cfg : Cfg} {ops : Ops} {ty : Ty} {ip : Interp} {img a : Img} (h : sized cfg ops ty ip img = some a) :
    a.info = ⟨ty, cfg.rows, cfg.cols⟩ := by
  unfold sized at h
  split at h
  · rename_i hv
    split at h
    · cases h
      rw [Img.info, hv.1]
    · rename_i hs
      cases h
      have h1 : img.rows = cfg.rows := Classical.byContradiction fun h => hs (Or.inl h)
      have h2 : img.cols = cfg.cols := Classical.byContradiction fun h => hs (Or.inr h)
      rw [Img.info, hv.1, h1, h2]
  · cases h

theorem sized_defined (cfg : Cfg) (ops : Ops) (ty : Ty) (ip : Interp) (img : Img) :
    (sized cfg ops ty ip img).isSome ↔ img.info = ⟨ty, 480, 640⟩ := by
  unfold sized Img.info
  constructor
  · intro h
    split at h
    · rename_i hv; rw [hv.1, hv.2.1, hv.2.2]
    · cases h
  · intro h
    rw [Info.mk.injEq] at h
    rw [if_pos h]
    split <;> rfl

theorem offset_info {cfg : Cfg} {a b : Img} (h : offsetThermal cfg a = some b) : b.info = a.info := by
  unfold offsetThermal shiftUp at h
  split at h
  · split at h <;> cases h; rfl
  · cases h; rfl

theorem viewRGB_info {cfg : Cfg} {ops : Ops} {ty : Ty} {ip : Interp} {img a : Img} (hf : Fits cfg)
    (h : viewRGB cfg ops ty ip img = some a) : a.info = ⟨ty, cfg.rows, cfg.cols⟩ := by
  unfold viewRGB at h
  rw [Option.map_eq_some_iff] at h
  obtain ⟨b, hb, rfl⟩ := h
  have hi := sized_info hb
  split
  · rename_i hc
    obtain ⟨h1, h2⟩ := hf hc
    unfold Img.info at hi
    rw [Info.mk.injEq] at hi
    unfold Img.info remapRGB
    rw [hi.1, h1, h2]
  · exact hi

theorem viewThermal_info {cfg : Cfg} {ops : Ops} {ty : Ty} {ip : Interp} {img a : Img} (hf : Fits cfg)
    (h : viewThermal cfg ops ty ip img = some a) : a.info = ⟨ty, cfg.rows, cfg.cols⟩ := by
  unfold viewThermal at h
  rw [Option.bind_eq_some_iff] at h
  obtain ⟨b, hb, h⟩ := h
  have hi := sized_info hb
  split at h
  · rename_i hc
    obtain ⟨h1, h2⟩ := hf hc
    rw [offset_info h]
    unfold Img.info at hi
    rw [Info.mk.injEq] at hi
    unfold Img.info remapThermal
    rw [hi.1, h1, h2]
  · cases h; exact hi

theorem viewDepth_info {cfg : Cfg} {ops : Ops} {ty : Ty} {ip : Interp} {img a : Img} (h : viewDepth cfg ops ty ip img = some a) :
    a.info = ⟨ty, cfg.rows, cfg.cols⟩ := sized_info h

theorem viewThermalGT_info {cfg : Cfg} {ops : Ops} {img a : Img} (hf : Fits cfg)
    (h : viewThermalGT cfg ops img = some a) : a.info = ⟨.u8c1, cfg.rows, cfg.cols⟩ := by
  unfold viewThermalGT at h
  rw [Option.bind_eq_some_iff] at h
  obtain ⟨b, hb, h⟩ := h
  have hi := sized_info hb
  dsimp only at h
  generalize hg : (if cfg.scene ≠ 2 then (if cfg.calib then remapThermal ops .linear b else b) else b) = g at h
  have hr : ∀ c, (if cfg.scene ≠ 2 then (if cfg.calib then remapThermal ops .linear b else b) else b) = c →
      c.info = ⟨.u8c1, cfg.rows, cfg.cols⟩ := by
    intro c hc
    subst hc
    split
    · split
      · rename_i hc
        obtain ⟨h1, h2⟩ := hf hc
        unfold Img.info at hi
        rw [Info.mk.injEq] at hi
        unfold Img.info remapThermal
        rw [hi.1, h1, h2]
      · exact hi
    · exact hi
  split at h
  · rw [offset_info h]; exact hr _ hg
  · rw [Option.some.injEq] at h
    rw [← h]; exact hr _ hg

theorem binarize_info (a : Img) : (binarize a).info = ⟨.u8c1, a.rows, a.cols⟩ := rfl

theorem fin_info (cfg : Cfg) (a : Img) (ty : Ty) (h : a.info = ⟨ty, cfg.rows, cfg.cols⟩) :
    (fin cfg a).info = announcedSize cfg ty := by
  unfold Img.info at h
  rw [Info.mk.injEq] at h
  unfold fin announcedSize
  split
  · unfold Img.info rotate flip transpose
    rw [h.1, h.2.1, h.2.2]
  · unfold Img.info
    rw [h.1, h.2.1, h.2.2]

theorem map_binarize {v : Option Img} {b : Img} {cfg : Cfg} {ty : Ty}
    (hv : ∀ a, v = some a → a.info = ⟨ty, cfg.rows, cfg.cols⟩) (h : v.map binarize = some b) :
    b.info = ⟨.u8c1, cfg.rows, cfg.cols⟩ := by
  rw [Option.map_eq_some_iff] at h
  obtain ⟨a, ha, rfl⟩ := h
  have := hv a ha
  unfold Img.info at this
  rw [Info.mk.injEq] at this
  rw [binarize_info, this.2.1, this.2.2]

theorem inputName_cases (cfg : Cfg) (i : Nat) (hi : i < inputCount cfg) (m : Mod) :
    (inputName cfg i = m.name → ∀ ops f b, (inputViews cfg ops f)[i]? = some (some b) →
      (match m with
        | .rgb => viewRGB cfg ops .u8c3 .cubic (f.image .rgb)
        | .thermal => viewThermal cfg ops .u8c1 .cubic (f.image .thermal)
        | .depth => viewDepth cfg ops .u16c1 .cubic (f.image .depth)) = some b) ∧
    (inputName cfg i = m.name ++ "_MASK" → ∀ ops f b, (inputViews cfg ops f)[i]? = some (some b) →
      (match m with
        | .rgb => viewRGB cfg ops .u8c1 .linear (maskFile cfg f .rgb)
        | .thermal => viewThermal cfg ops .u8c1 .linear (maskFile cfg f .thermal)
        | .depth => viewDepth cfg ops .u8c1 .linear (maskFile cfg f .depth)).map binarize = some b) := by
  unfold inputCount at hi
  unfold inputName inputViews
  dsimp only
  by_cases hm : cfg.interlaced = true <;> by_cases hd : cfg.depth = true <;>
    simp only [hm, hd, if_true, Bool.false_eq_true, if_false] at hi ⊢
  · have : i = 0 ∨ i = 1 ∨ i = 2 ∨ i = 3 ∨ i = 4 ∨ i = 5 := by omega
    rcases this with rfl | rfl | rfl | rfl | rfl | rfl <;> cases m <;>
      refine ⟨fun h => ?_, fun h => ?_⟩ <;>
      first
        | exact absurd h (by decide)
        | (intro ops f b hb; simpa using hb)
  · have : i = 0 ∨ i = 1 ∨ i = 2 ∨ i = 3 := by omega
    rcases this with rfl | rfl | rfl | rfl <;> cases m <;>
      refine ⟨fun h => ?_, fun h => ?_⟩ <;>
      first
        | exact absurd h (by decide)
        | (intro ops f b hb; simpa using hb)
  · have : i = 0 ∨ i = 1 ∨ i = 2 := by omega
    rcases this with rfl | rfl | rfl <;> cases m <;>
      refine ⟨fun h => ?_, fun h => ?_⟩ <;>
      first
        | exact absurd h (by decide)
        | (intro ops f b hb; simpa using hb)
  · have : i = 0 ∨ i = 1 := by omega
    rcases this with rfl | rfl <;> cases m <;>
      refine ⟨fun h => ?_, fun h => ?_⟩ <;>
      first
        | exact absurd h (by decide)
        | (intro ops f b hb; simpa using hb)

theorem gtName_cases (cfg : Cfg) (i : Nat) (hi : i < gtCount cfg) (m : Mod) (hn : gtName i = m.name ++ "_GT") (ops : Ops)
    (f : Files) (b : Img) (hb : (gtViews cfg ops f)[i]? = some (some b)) :
    (match m with
      | .rgb => viewRGB cfg ops .u8c1 .linear (f.gt .rgb)
      | .thermal => viewThermalGT cfg ops (f.gt .thermal)
      | .depth => viewDepth cfg ops .u8c1 .linear (f.gt .depth)).map binarize = some b := by
  unfold gtCount at hi
  unfold gtViews at hb
  by_cases hd : cfg.depth = true <;> simp only [hd, if_true, Bool.false_eq_true, if_false] at hi hb
  · have : i = 0 ∨ i = 1 ∨ i = 2 := by omega
    rcases this with rfl | rfl | rfl <;> cases m <;>
      first
        | exact absurd hn (by decide)
        | (simpa using hb)
  · have : i = 0 ∨ i = 1 := by omega
    rcases this with rfl | rfl <;> cases m <;>
      first
        | exact absurd hn (by decide)
        | (simpa using hb)

theorem viewThermalGT_eq (cfg : Cfg) (ops : Ops) (img : Img) (h3 : cfg.scene ≠ 3) (h2 : cfg.scene = 2 → cfg.calib = false) :
    viewThermalGT cfg ops img = viewThermal cfg ops .u8c1 .linear img := by
  unfold viewThermalGT viewThermal fixScene3
  rw [if_neg h3]
  congr 1
  funext a
  dsimp only
  by_cases hc : cfg.calib = true
  · have : cfg.scene ≠ 2 := fun h => by rw [h2 h] at hc; cases hc
    rw [if_pos this, if_pos hc, if_pos hc, if_pos hc]
  · rw [if_neg hc, if_neg hc, if_neg hc]
    split <;> rfl

theorem batch_scene {cfg : Cfg} (h : cfg.scene ∈ batches cfg) (h2 : cfg.scene = 2) : cfg.calib = false := by
  unfold batches at h
  unfold Cfg.calib
  rw [h2] at h
  cases hu : cfg.undistort <;> cases hr : cfg.rectify <;> rw [hu, hr] at h <;> first | rfl | simp at h

/-- Where a pixel of a view comes from. -/
def viewSource (cfg : Cfg) (s0 s1 : Nat → Nat → Option (Nat × Nat)) (m : Mod) (y x : Nat) : Option (Nat × Nat) :=
  match m with
  | .rgb => if cfg.calib then s0 y x else some (y, x)
  | .thermal =>
    if cfg.calib then (if cfg.offset ≠ 0 then (if y + cfg.offset < 480 then s1 (y + cfg.offset) x else none) else s1 y x)
    else some (y, x)
  | .depth => some (y, x)

theorem sized_same {cfg : Cfg} (hr : cfg.rows = 480) (hc : cfg.cols = 640) {ops : Ops} {ty : Ty} {ip : Interp} {img a : Img}
    (h : sized cfg ops ty ip img = some a) : a = img := by
  unfold sized at h
  split at h
  · rename_i hv
    rw [if_neg (by rw [hr, hc]; intro h; rcases h with h | h; exact h hv.2.1; exact h hv.2.2)] at h
    cases h; rfl
  · cases h

theorem viewRGB_px {cfg : Cfg} (hr : cfg.rows = 480) (hc : cfg.cols = 640) {ops : Ops} {s0 s1 : Nat → Nat → Option (Nat × Nat)}
    (h0 : ∀ ip img y x, ops.remapRGB ip img y x = img.at (s0 y x)) {ty : Ty} {ip : Interp} {img a : Img}
    (h : viewRGB cfg ops ty ip img = some a) (y x : Nat) : a.px y x = img.at (viewSource cfg s0 s1 .rgb y x) := by
  unfold viewRGB at h
  rw [Option.map_eq_some_iff] at h
  obtain ⟨b, hb, rfl⟩ := h
  rw [sized_same hr hc hb]
  unfold viewSource
  dsimp only
  split
  · exact h0 ip img y x
  · rfl

theorem viewThermal_px {cfg : Cfg} (hr : cfg.rows = 480) (hc : cfg.cols = 640) {ops : Ops}
    {s0 s1 : Nat → Nat → Option (Nat × Nat)} (h1 : ∀ ip img y x, ops.remapThermal ip img y x = img.at (s1 y x)) {ty : Ty}
    {ip : Interp} {img a : Img} (h : viewThermal cfg ops ty ip img = some a) (y x : Nat) :
    a.px y x = img.at (viewSource cfg s0 s1 .thermal y x) := by
  unfold viewThermal at h
  rw [Option.bind_eq_some_iff] at h
  obtain ⟨b, hb, h⟩ := h
  have hb' := sized_same hr hc hb
  subst hb'
  unfold viewSource
  dsimp only
  split at h
  · rename_i hcal
    rw [if_pos hcal]
    unfold offsetThermal shiftUp at h
    split at h
    · rename_i ho
      rw [if_pos ho]
      split at h
      · cases h
        by_cases hy : y + cfg.offset < 480
        · rw [if_pos hy]; exact (if_pos hy).trans (h1 ip b _ x)
        · rw [if_neg hy]; exact if_neg hy
      · cases h
    · rename_i ho
      rw [if_neg ho]
      cases h
      exact h1 ip b y x
  · rename_i hcal
    rw [if_neg hcal]
    cases h; rfl

/-- Where a pixel of a result comes from. -/
def source (cfg : Cfg) (s0 s1 : Nat → Nat → Option (Nat × Nat)) (m : Mod) (r c : Nat) : Option (Nat × Nat) :=
  if cfg.rectify then viewSource cfg s0 s1 m (480 - 1 - c) r else viewSource cfg s0 s1 m r c

theorem fin_px {cfg : Cfg} {a : Img} (ha : a.rows = 480) {s0 s1 : Nat → Nat → Option (Nat × Nat)} {m : Mod} {g : Nat → Nat}
    {img : Img} (h : ∀ y x, a.px y x = g (img.at (viewSource cfg s0 s1 m y x))) (r c : Nat) :
    (fin cfg a).px r c = g (img.at (source cfg s0 s1 m r c)) := by
  unfold fin source
  split
  · show a.px (a.rows - 1 - c) r = _
    rw [ha]; exact h _ _
  · exact h _ _

end Litiv.VapLoad
