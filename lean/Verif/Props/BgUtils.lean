import Verif.Lemmas.BgUtils
import Verif.Props.LBSP

/-!
# Properties C48 (pixel tables) and C49 (ROI validation)
-/

namespace Litiv.BgUtils
open Consensus.Spec Consensus

/-! ## C49: validation -/

theorem keepRect_spec (b rows cols : Nat) (roi : Gray) :
    ((keepRect rows cols b b ((cols : Int) - b * 2) ((rows : Int) - b * 2) roi).isSome ↔ 2 * b ≤ rows ∧ 2 * b ≤ cols) ∧
    ∀ r, keepRect rows cols b b ((cols : Int) - b * 2) ((rows : Int) - b * 2) roi = some r →
      (∀ y x, InImg rows cols (y, x) → (Inner b rows cols (y, x) → r y x = roi y x) ∧ (¬ Inner b rows cols (y, x) → r y x = 0)) ∧
      keepRect rows cols b b ((cols : Int) - b * 2) ((rows : Int) - b * 2) r = some r := by
  have hk : ∀ f, keepRect rows cols b b ((cols : Int) - b * 2) ((rows : Int) - b * 2) f =
      if 2 * b ≤ rows ∧ 2 * b ≤ cols then
        some fun y x => if b ≤ x ∧ x + b < cols ∧ b ≤ y ∧ y + b < rows then f y x else 0
      else none := by
    intro f
    unfold keepRect
    refine if_congr (by omega) ?_ rfl
    congr 1
    funext y x
    exact if_congr (by omega) rfl rfl
  rw [hk]
  by_cases hfit : 2 * b ≤ rows ∧ 2 * b ≤ cols
  · rw [if_pos hfit]
    refine ⟨by simp [hfit], fun r h => ?_⟩
    injection h with h
    rw [hk, if_pos hfit, ← h]
    refine ⟨fun y x hi => ⟨fun h => if_pos ?_, fun h => if_neg fun h' => h ?_⟩, ?_⟩
    · obtain ⟨h1, h2, h3, h4⟩ := h
      exact ⟨h3, h4, h1, h2⟩
    · exact ⟨h'.2.2.1, h'.2.2.2, h'.1, h'.2.1⟩
    · congr 1
      funext y x
      by_cases hc : b ≤ x ∧ x + b < cols ∧ b ≤ y ∧ y + b < rows
      · rw [if_pos hc]
      · rw [if_neg hc]; exact (if_neg hc).symm
  · rw [if_neg hfit]
    exact ⟨by simp [hfit], fun r h => absurd h (by simp)⟩

/-- C49: validation with border `b` succeeds exactly when the border fits in the (non-empty) image; it keeps the pixels at
least `b` away from the four sides, clears the others, and validating again changes nothing. -/
theorem validateROI_spec (b rows cols : Nat) (roi : Gray) (hr : 0 < rows) (hc : 0 < cols) :
    ((validateROI b rows cols roi).isSome ↔ 2 * b ≤ rows ∧ 2 * b ≤ cols) ∧
    ∀ r, validateROI b rows cols roi = some r →
      (∀ y x, InImg rows cols (y, x) → (Inner b rows cols (y, x) → r y x = roi y x) ∧ (¬ Inner b rows cols (y, x) → r y x = 0)) ∧
      validateROI b rows cols r = some r := by
  have hd : ¬ (rows = 0 ∨ cols = 0) := by omega
  simp only [validateROI, if_neg hd]
  by_cases hb : 0 < b
  · simp only [if_pos hb]
    exact keepRect_spec b rows cols roi
  · have hb0 : b = 0 := by omega
    subst hb0
    simp only [if_neg hb]
    refine ⟨by simp, fun r h => ?_⟩
    injection h with h
    subst h
    refine ⟨fun y x hi => ⟨fun _ => rfl, fun h => absurd ?_ h⟩, trivial⟩
    obtain ⟨h1, h2⟩ := hi
    exact ⟨by omega, h1, by omega, h2⟩

example : (validateROI 2 6 7 (fun _ _ => 255)).map (fun r => (List.range 6).map fun y => (List.range 7).map fun x => (r y x).toNat) =
    some [[0, 0, 0, 0, 0, 0, 0], [0, 0, 0, 0, 0, 0, 0], [0, 0, 255, 255, 255, 0, 0], [0, 0, 255, 255, 255, 0, 0],
      [0, 0, 0, 0, 0, 0, 0], [0, 0, 0, 0, 0, 0, 0]] ∧ validateROI 2 3 7 (fun _ _ => 255) = none := by
  refine ⟨by decide +kernel, rfl⟩

/-- C49 for the LSS and DASC extractors: pixels whose window (of half-size `win/2`) fits in the image are kept, the
others cleared; defined when the window fits in the image. -/
theorem validateWin_spec (win rows cols : Nat) (roi : Gray) (hr : 0 < rows) (hc : 0 < cols) :
    ((validateWin win rows cols roi).isSome ↔ 2 * (win / 2) ≤ rows ∧ 2 * (win / 2) ≤ cols) ∧
    ∀ r, validateWin win rows cols roi = some r →
      (∀ y x, InImg rows cols (y, x) → (Inner (win / 2) rows cols (y, x) → r y x = roi y x) ∧
        (¬ Inner (win / 2) rows cols (y, x) → r y x = 0)) ∧ validateWin win rows cols r = some r := by
  have hd : ¬ (rows = 0 ∨ cols = 0) := by omega
  simp only [validateWin, if_neg hd]
  exact keepRect_spec (win / 2) rows cols roi

example : (validateWin 5 6 7 (fun _ _ => 255)).map (fun r => (r 1 2, r 2 2, r 3 4, r 3 5)) = some (0, 255, 255, 0) := by
  decide +kernel

/-- The pixels at which a window of `ww` columns and `wh` rows (odd sizes) fits in the image. -/
def Fits (ww wh rows cols y x : Nat) : Prop := wh / 2 ≤ y ∧ y + wh / 2 < rows ∧ ww / 2 ≤ x ∧ x + ww / 2 < cols

/-- C49 fails for `MutualInfo::validateROI`: for every image at least as large as the window (odd sizes, as its constructor
requires), the last column and the last row at which the window fits are cleared. -/
theorem validateMI_refuted (ww wh rows cols : Nat) (hww : ww % 2 = 1) (hwh : wh % 2 = 1) (hr : wh ≤ rows) (hc : ww ≤ cols)
    (roi : Gray) : ∃ r, validateMI ww wh rows cols roi = some r ∧
      Fits ww wh rows cols (wh / 2) (cols - 1 - ww / 2) ∧ r (wh / 2) (cols - 1 - ww / 2) = 0 ∧
      Fits ww wh rows cols (rows - 1 - wh / 2) (ww / 2) ∧ r (rows - 1 - wh / 2) (ww / 2) = 0 := by
  unfold validateMI keepRect
  rw [if_neg (by omega), if_pos (by omega)]
  refine ⟨_, rfl, ⟨by omega, by omega, by omega, by omega⟩, if_neg (by omega), ⟨by omega, by omega, by omega, by omega⟩, if_neg (by omega)⟩

/-- C49 (part) for `MutualInfo::validateROI`: no pixel at which the window leaves the image is kept, and the kept ones are
those at which the window fits with one more row and column to spare. Missing: the last fitting row and column. -/
theorem validateMI_partial (ww wh rows cols : Nat) (hww : ww % 2 = 1) (hwh : wh % 2 = 1) (roi r : Gray)
    (h : validateMI ww wh rows cols roi = some r) (y x : Nat) :
    (¬ Fits ww wh rows cols y x → r y x = 0) ∧
    (Fits ww wh rows cols y x → Fits ww wh rows cols (y + 1) (x + 1) → r y x = roi y x) := by
  unfold validateMI keepRect at h
  split at h
  · exact absurd h (by simp)
  · split at h
    · injection h with h
      subst h
      refine ⟨fun hn => if_neg fun hc => hn ⟨by omega, by omega, by omega, by omega⟩, fun h1 h2 => if_pos ?_⟩
      unfold Fits at h1 h2
      omega
    · exact absurd h (by simp)

example : (validateMI 3 5 6 7 (fun _ _ => 255)).map (fun r => (List.range 6).map fun y => (List.range 7).map fun x => (r y x).toNat) =
    some [[0, 0, 0, 0, 0, 0, 0], [0, 0, 0, 0, 0, 0, 0], [0, 255, 255, 255, 255, 0, 0], [0, 0, 0, 0, 0, 0, 0],
      [0, 0, 0, 0, 0, 0, 0], [0, 0, 0, 0, 0, 0, 0]] := by decide +kernel

/-! ## C48: the retained ROI -/

theorem initCommon_inv {V : Type} (b rows cols : Nat) (zero : V) (prev roi : Option Roi) (img : Nat → V) (r : Common V)
    (h : initCommon b rows cols zero prev roi img = some r) :
    0 < rows ∧ 0 < cols ∧ ∃ r0, chooseROI b rows cols prev roi = some r0 ∧ validateROI b rows cols r0 = some r.roi ∧
      TInv (rows * cols) cols r.roi img zero (rows * cols) ⟨r.lut, r.modelIdx, r.last, countNonZero rows cols r.roi⟩ := by
  unfold initCommon at h
  split at h
  · exact absurd h (by simp)
  · rename_i hd
    refine ⟨by omega, by omega, ?_⟩
    split at h
    · exact absurd h (by simp)
    · rename_i r0 e0
      split at h
      · exact absurd h (by simp)
      · split at h
        · exact absurd h (by simp)
        · rename_i r1 e1
          split at h
          · exact absurd h (by simp)
          · obtain ⟨t, et, ht⟩ := tab_spec rows cols r1 img zero
            rw [et] at h
            injection h with h
            subst h
            have hi := ht.iter
            exact ⟨r0, e0, e1, by rw [show countNonZero rows cols r1 = t.iter from hi.symm]; exact ht⟩

/-- C48: for an explicit ROI, `initialize` succeeds exactly when the ROI has the image's size, holds only 0 and 255, and some
pixel at least `b` away from the four sides is within `b` rows and columns of a ROI pixel. The retained ROI is 255 on the
ROI's pixels, 128 on the other pixels within `b` of it, and 0 elsewhere, except that the `b`-pixel border of the image is
cleared. -/
theorem init_roi {V : Type} (b rows cols : Nat) (zero : V) (prev : Option Roi) (R : Roi) (img : Nat → V) :
    ((initCommon b rows cols zero prev (some R) img).isSome ↔
      R.rows = rows ∧ R.cols = cols ∧ (∀ y x, InImg rows cols (y, x) → R.px y x = 0 ∨ R.px y x = 255) ∧
      ∃ y x, Inner b rows cols (y, x) ∧ ∃ p, InImg rows cols p ∧ Near b (y, x) p ∧ R.px p.1 p.2 = 255) ∧
    ∀ r, initCommon b rows cols zero prev (some R) img = some r → ∀ y x, InImg rows cols (y, x) →
      (¬ Inner b rows cols (y, x) → r.roi y x = 0) ∧
      (Inner b rows cols (y, x) → R.px y x = 255 → r.roi y x = 255) ∧
      (Inner b rows cols (y, x) → R.px y x ≠ 255 → (∃ p, InImg rows cols p ∧ Near b (y, x) p ∧ R.px p.1 p.2 = 255) → r.roi y x = 128) ∧
      (Inner b rows cols (y, x) → (¬ ∃ p, InImg rows cols p ∧ Near b (y, x) p ∧ R.px p.1 p.2 = 255) → r.roi y x = 0) := by
  have hval : ∀ (hR : ∀ y x, InImg rows cols (y, x) → R.px y x = 0 ∨ R.px y x = 255) y x, InImg rows cols (y, x) →
      (R.px y x = 255 → (R.px y x ||| half (dilate rows cols b R.px y x)) = 255) ∧
      (R.px y x ≠ 255 → (∃ p, InImg rows cols p ∧ Near b (y, x) p ∧ R.px p.1 p.2 = 255) →
        (R.px y x ||| half (dilate rows cols b R.px y x)) = 128) ∧
      ((¬ ∃ p, InImg rows cols p ∧ Near b (y, x) p ∧ R.px p.1 p.2 = 255) → (R.px y x ||| half (dilate rows cols b R.px y x)) = 0) := by
    intro hR y x hi
    have hd := dilate_ne rows cols b R.px y x hi
    have hdb := dilate_bin rows cols b R.px hR y x hi
    rw [chosen_values _ _ (hR y x hi) hdb]
    refine ⟨fun h => if_pos h, fun h he => ?_, fun hne => ?_⟩
    · rw [if_neg h, if_neg]
      obtain ⟨p, h1, h2, h3⟩ := he
      exact hd.2 ⟨p, h1, h2, by rw [h3]; decide⟩
    · rw [if_neg fun h => hne ⟨(y, x), hi, ⟨by dsimp only; omega, by dsimp only; omega, by dsimp only; omega, by dsimp only; omega⟩, h⟩, if_pos]
      by_contra h
      obtain ⟨p, h1, h2, h3⟩ := hd.1 h
      exact hne ⟨p, h1, h2, (hR p.1 p.2 h1).resolve_left h3⟩
  constructor
  · constructor
    · intro h
      obtain ⟨r, hr⟩ := Option.isSome_iff_exists.1 h
      obtain ⟨h0, h1, r0, hc, hv, -⟩ := initCommon_inv b rows cols zero prev (some R) img r hr
      unfold chooseROI at hc
      dsimp only at hc
      split at hc
      · rename_i hs
        split at hc
        · rename_i hbin
          have hR := (bin_lin rows cols R.px).1 hbin
          injection hc with hc
          refine ⟨hs.1, hs.2, hR, ?_⟩
          have hcnt : countNonZero rows cols r.roi ≠ 0 := by
            intro hz
            unfold initCommon at hr
            rw [if_neg (by omega)] at hr
            unfold chooseROI at hr
            dsimp only at hr
            rw [if_pos hs, if_pos hbin, hc] at hr
            dsimp only at hr
            split at hr
            · exact absurd hr (by simp)
            · rw [hv] at hr
              dsimp only at hr
              rw [if_pos hz] at hr
              exact absurd hr (by simp)
          obtain ⟨y, x, hi, hne⟩ := (countNonZero_pos rows cols r.roi).1 hcnt
          obtain ⟨hspec, -⟩ := (validateROI_spec b rows cols r0 h0 h1).2 r.roi hv
          have hin : Inner b rows cols (y, x) := by
            by_contra hn
            exact hne ((hspec y x hi).2 hn)
          refine ⟨y, x, hin, ?_⟩
          by_contra hn
          rw [(hspec y x hi).1 hin, ← hc] at hne
          exact hne ((hval hR y x hi).2.2 hn)
        · exact absurd hc (by simp)
      · exact absurd hc (by simp)
    · rintro ⟨rfl, rfl, hR, y, x, hin, hp⟩
      obtain ⟨i1, i2, i3, i4⟩ := id hin
      dsimp only at i1 i2 i3 i4
      have hi : InImg R.rows R.cols (y, x) := ⟨by dsimp only; omega, by dsimp only; omega⟩
      have hne : (R.px y x ||| half (dilate R.rows R.cols b R.px y x)) ≠ 0 := by
        by_cases h : R.px y x = 255
        · rw [(hval hR y x hi).1 h]; decide
        · rw [(hval hR y x hi).2.1 h hp]; decide
      unfold initCommon
      rw [if_neg (by omega)]
      unfold chooseROI
      dsimp only
      rw [if_pos ⟨rfl, rfl⟩, if_pos ((bin_lin _ _ _).2 hR)]
      dsimp only
      rw [if_neg ((countNonZero_pos _ _ _).2 ⟨y, x, hi, hne⟩)]
      have hvs := validateROI_spec b R.rows R.cols (fun y x => R.px y x ||| half (dilate R.rows R.cols b R.px y x)) (by omega) (by omega)
      obtain ⟨r1, e1⟩ := Option.isSome_iff_exists.1 (hvs.1.2 ⟨by omega, by omega⟩)
      rw [e1]
      dsimp only
      have hsp := (hvs.2 r1 e1).1
      rw [if_neg ((countNonZero_pos _ _ _).2 ⟨y, x, hi, by rw [(hsp y x hi).1 hin]; exact hne⟩)]
      obtain ⟨t, et, -⟩ := tab_spec R.rows R.cols r1 img zero
      rw [et]
      rfl
  · intro r hr y x hi
    obtain ⟨h0, h1, r0, hc, hv, -⟩ := initCommon_inv b rows cols zero prev (some R) img r hr
    obtain ⟨hspec, -⟩ := (validateROI_spec b rows cols r0 h0 h1).2 r.roi hv
    unfold chooseROI at hc
    dsimp only at hc
    split at hc
    · split at hc
      · rename_i hbin
        have hR := (bin_lin rows cols R.px).1 hbin
        injection hc with hc
        refine ⟨(hspec y x hi).2, fun hin h => ?_, fun hin h hp => ?_, fun hin hp => ?_⟩
        · rw [(hspec y x hi).1 hin, ← hc]; exact (hval hR y x hi).1 h
        · rw [(hspec y x hi).1 hin, ← hc]; exact (hval hR y x hi).2.1 h hp
        · rw [(hspec y x hi).1 hin, ← hc]; exact (hval hR y x hi).2.2 hp
      · exact absurd hc (by simp)
    · exact absurd hc (by simp)

/-- A ROI with the single pixel (1,3) in a 7x9 image, border 2: all retained pixels are in its ring. -/
example : (initCommon 2 7 9 (0 : Nat) none (some ⟨7, 9, fun y x => if y = 1 ∧ x = 3 then 255 else 0⟩) id).map
      (fun r => (r.lut, r.modelIdx 22, r.last 22, r.last 10, (r.roi 2 3).toNat)) =
    some ([20, 21, 22, 23, 29, 30, 31, 32], some 2, 22, 0, 128) := by decide +kernel

/-- C48: without a ROI and without an earlier one of the same size, `initialize` succeeds exactly when some pixel is at least
`b` away from the four sides, and these pixels are the retained ones (value 255). -/
theorem init_default {V : Type} (b rows cols : Nat) (zero : V) (prev : Option Roi)
    (hprev : ∀ p, prev = some p → ¬ (p.rows = rows ∧ p.cols = cols)) (img : Nat → V) :
    ((initCommon b rows cols zero prev none img).isSome ↔ 2 * b < rows ∧ 2 * b < cols) ∧
    ∀ r, initCommon b rows cols zero prev none img = some r → ∀ y x, InImg rows cols (y, x) →
      (Inner b rows cols (y, x) → r.roi y x = 255) ∧ (¬ Inner b rows cols (y, x) → r.roi y x = 0) := by
  have hch : chooseROI b rows cols prev none = some fun _ _ => 255 := by
    unfold chooseROI
    cases prev with
    | none => rfl
    | some p => dsimp only; exact if_neg (hprev p rfl)
  constructor
  · constructor
    · intro h
      obtain ⟨r, hr⟩ := Option.isSome_iff_exists.1 h
      obtain ⟨h0, h1, r0, hc, hv, -⟩ := initCommon_inv b rows cols zero prev none img r hr
      rw [hch] at hc
      injection hc with hc
      obtain ⟨hspec, -⟩ := (validateROI_spec b rows cols r0 h0 h1).2 r.roi hv
      have hcnt : countNonZero rows cols r.roi ≠ 0 := by
        intro hz
        unfold initCommon at hr
        rw [if_neg (by omega), hch] at hr
        dsimp only at hr
        split at hr
        · exact absurd hr (by simp)
        · rw [hc, hv] at hr
          dsimp only at hr
          rw [if_pos hz] at hr
          exact absurd hr (by simp)
      obtain ⟨y, x, hi, hne⟩ := (countNonZero_pos rows cols r.roi).1 hcnt
      have hin : Inner b rows cols (y, x) := by
        by_contra hn
        exact hne ((hspec y x hi).2 hn)
      obtain ⟨i1, i2, i3, i4⟩ := hin
      dsimp only at i1 i2 i3 i4
      omega
    · rintro ⟨h0, h1⟩
      have hin : Inner b rows cols (b, b) := ⟨by omega, by dsimp only; omega, by omega, by dsimp only; omega⟩
      have hi : InImg rows cols (b, b) := ⟨by dsimp only; omega, by dsimp only; omega⟩
      unfold initCommon
      rw [if_neg (by omega), hch]
      dsimp only
      rw [if_neg ((countNonZero_pos _ _ _).2 ⟨b, b, hi, by decide⟩)]
      have hvs := validateROI_spec b rows cols (fun _ _ => 255) (by omega) (by omega)
      obtain ⟨r1, e1⟩ := Option.isSome_iff_exists.1 (hvs.1.2 ⟨by omega, by omega⟩)
      rw [e1]
      dsimp only
      have hsp := (hvs.2 r1 e1).1
      rw [if_neg ((countNonZero_pos _ _ _).2 ⟨b, b, hi, by rw [(hsp b b hi).1 hin]; decide⟩)]
      obtain ⟨t, et, -⟩ := tab_spec rows cols r1 img zero
      rw [et]
      rfl
  · intro r hr y x hi
    obtain ⟨h0, h1, r0, hc, hv, -⟩ := initCommon_inv b rows cols zero prev none img r hr
    rw [hch] at hc
    injection hc with hc
    obtain ⟨hspec, -⟩ := (validateROI_spec b rows cols r0 h0 h1).2 r.roi hv
    exact ⟨fun hin => by rw [(hspec y x hi).1 hin, ← hc], (hspec y x hi).2⟩

/-- C48: a ROI set before initialization is used by an initialization without a ROI and with an image of its size; what is
retained is then exactly the ROI minus the image border, with no ring around it. -/
theorem setROI_init {V : Type} (b rows cols : Nat) (zero : V) (R R' : Roi) (hR : R.rows = rows ∧ R.cols = cols)
    (h : setROI b R = some R') (img : Nat → V) :
    ∃ r, initCommon b rows cols zero (some R') none img = some r ∧ ∀ y x, InImg rows cols (y, x) →
      (Inner b rows cols (y, x) → r.roi y x = R.px y x) ∧ (¬ Inner b rows cols (y, x) → r.roi y x = 0) := by
  obtain ⟨rfl, rfl⟩ := hR
  unfold setROI at h
  split at h
  · exact absurd h (by simp)
  · rename_i px e
    split at h
    · exact absurd h (by simp)
    · rename_i hz
      injection h with h
      subst h
      have hdim : 0 < R.rows ∧ 0 < R.cols := by
        by_contra hn
        unfold validateROI at e
        rw [if_pos (by omega)] at e
        exact absurd e (by simp)
      have hvs := (validateROI_spec b R.rows R.cols R.px hdim.1 hdim.2).2 px e
      unfold initCommon
      rw [if_neg (by omega)]
      unfold chooseROI
      dsimp only
      rw [if_pos ⟨rfl, rfl⟩]
      dsimp only
      rw [if_neg hz, hvs.2]
      dsimp only
      rw [if_neg hz]
      obtain ⟨t, et, -⟩ := tab_spec R.rows R.cols px img zero
      rw [et]
      exact ⟨_, rfl, hvs.1⟩

example : (setROI 1 ⟨4, 5, fun y x => if x = 2 ∨ y = 0 then 255 else 0⟩).bind
    (fun r => (initCommon 1 4 5 (0 : Nat) (some r) none id).map fun c => c.lut) = some [7, 12] := by decide +kernel

/-! ## C48: the tables -/

theorem filter_idx (p : Nat → Bool) (n i : Nat) (hi : i < n) (hp : p i = true) :
    ((List.range n).filter p)[(List.range i).countP p]? = some i := by
  obtain ⟨k, rfl⟩ : ∃ k, n = i + (k + 1) := ⟨n - i - 1, by omega⟩
  rw [List.range_add, List.range_succ_eq_map, List.map_cons, List.filter_append, List.countP_eq_length_filter,
    List.getElem?_append_right (le_refl _), Nat.sub_self, List.filter_cons, if_pos (by simpa using hp)]
  simp

/-- C48: after any successful initialization, the list of relevant pixels is strictly increasing and holds exactly the
linear indices of the non-zero pixels of the retained ROI; the pixel table maps each of them to its position in the list
and every other pixel to nothing; coordinates and linear index agree; and the last colour frame is the initialization
image on the retained pixels and zero elsewhere. -/
theorem tables {V : Type} (b rows cols : Nat) (zero : V) (prev roi : Option Roi) (img : Nat → V) (r : Common V)
    (h : initCommon b rows cols zero prev roi img = some r) :
    r.lut.Pairwise (· < ·) ∧
    (∀ y x, InImg rows cols (y, x) → (y * cols + x ∈ r.lut ↔ r.roi y x ≠ 0)) ∧
    (∀ i ∈ r.lut, i < rows * cols ∧ InImg rows cols (coords cols i) ∧ (coords cols i).1 * cols + (coords cols i).2 = i) ∧
    (∀ i < rows * cols, ∀ k, r.modelIdx i = some k ↔ r.lut[k]? = some i) ∧
    (∀ y x, InImg rows cols (y, x) →
      coords cols (y * cols + x) = (y, x) ∧
      r.last (y * cols + x) = if r.roi y x ≠ 0 then img (y * cols + x) else zero) := by
  obtain ⟨h0, h1, r0, -, -, hT⟩ := initCommon_inv b rows cols zero prev roi img r h
  have hlut : r.lut = (List.range (rows * cols)).filter fun i => decide (lin cols r.roi i ≠ 0) := by
    have h1 := hT.take
    have h2 : r.lut.length = countNonZero rows cols r.roi := hT.len
    dsimp only at h1
    rwa [← h2, List.take_length] at h1
  have hmem : ∀ i, i ∈ r.lut ↔ i < rows * cols ∧ lin cols r.roi i ≠ 0 := by
    intro i
    rw [hlut, List.mem_filter, List.mem_range, decide_eq_true_eq]
  have hpw : r.lut.Pairwise (· < ·) := by
    rw [hlut]; exact List.pairwise_lt_range.sublist List.filter_sublist
  refine ⟨hpw, fun y x hi => ?_, fun i hi => ?_, fun i hi k => ?_, fun y x hi => ⟨?_, ?_⟩⟩
  · obtain ⟨e1, e2⟩ := lin_px rows cols r.roi y x hi
    rw [hmem, e2]
    exact ⟨fun h => h.2, fun h => ⟨e1, h⟩⟩
  · have := ((hmem i).1 hi).1
    exact ⟨this, idx_px rows cols i this⟩
  · have hidx := hT.idx i hi
    dsimp only at hidx
    rw [hidx]
    by_cases hz : lin cols r.roi i ≠ 0
    · rw [if_pos hz]
      have hat := filter_idx (fun i => decide (lin cols r.roi i ≠ 0)) (rows * cols) i hi (decide_eq_true hz)
      rw [← hlut] at hat
      constructor
      · intro e
        injection e with e
        rw [← e]; exact hat
      · intro e
        obtain ⟨hk, ek⟩ := List.getElem?_eq_some_iff.1 e
        obtain ⟨hk', ek'⟩ := List.getElem?_eq_some_iff.1 hat
        congr 1
        exact (List.Nodup.getElem_inj_iff (hpw.imp fun h => Nat.ne_of_lt h)).1 (ek'.trans ek.symm)
    · rw [if_neg hz]
      constructor
      · intro e; exact absurd e (by simp)
      · intro e
        obtain ⟨hk, ek⟩ := List.getElem?_eq_some_iff.1 e
        exact absurd ((hmem i).1 (ek ▸ List.getElem_mem hk)).2 hz
  · unfold coords
    obtain ⟨h2, h3⟩ := hi
    dsimp only at h2 h3
    rw [Nat.mul_comm, Nat.mul_add_div h1, Nat.div_eq_of_lt h3, Nat.mul_add_mod, Nat.mod_eq_of_lt h3]
    rfl
  · obtain ⟨e1, e2⟩ := lin_px rows cols r.roi y x hi
    have := hT.last (y * cols + x)
    dsimp only at this
    rw [this, e2]
    by_cases hz : r.roi y x ≠ 0
    · rw [if_pos ⟨e1, hz⟩, if_pos hz]
    · rw [if_neg fun h => hz h.2, if_neg hz]

/-- C48 fails for a ROI obtained with `getROICopy`: after an initialization with an explicit ROI, the retained ROI can hold
the value 128, and initializing again with that very ROI fails. -/
theorem roi_copy_refuted : ∃ (R : Roi) (r : Common Nat),
    initCommon 1 5 5 0 none (some R) id = some r ∧ initCommon 1 5 5 0 none (some ⟨5, 5, r.roi⟩) id = none := by
  have hR : (initCommon 1 5 5 0 none (some ⟨5, 5, fun y x => if y = 2 ∧ x = 2 then 255 else 0⟩) (id : Nat → Nat)).isSome := by
    decide +kernel
  obtain ⟨r, hr⟩ := Option.isSome_iff_exists.1 hR
  refine ⟨⟨5, 5, fun y x => if y = 2 ∧ x = 2 then 255 else 0⟩, r, hr, ?_⟩
  have hval := (init_roi 1 5 5 (0 : Nat) none ⟨5, 5, fun y x => if y = 2 ∧ x = 2 then 255 else 0⟩ id).2 r hr 1 1 ⟨by decide, by decide⟩
  have h128 : r.roi 1 1 = 128 := hval.2.2.1 ⟨by decide, by decide, by decide, by decide⟩ (by decide)
    ⟨(2, 2), ⟨by decide, by decide⟩, ⟨by decide, by decide, by decide, by decide⟩, by decide⟩
  by_contra hn
  have := ((init_roi 1 5 5 (0 : Nat) none ⟨5, 5, r.roi⟩ id).1.1 (by rwa [← Option.ne_none_iff_isSome])).2.2.1 1 1 ⟨by decide, by decide⟩
  dsimp only at this
  rw [h128] at this
  exact absurd this (by decide)

end Litiv.BgUtils
