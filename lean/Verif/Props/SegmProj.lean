import Verif.Lemmas.SegmProj

/-!
# Properties of the projection of disparities on the other camera
-/

namespace Litiv.SegmProj
open Spec

/-- C146: before the smoothing, a pixel of the other camera's ROI gets the largest disparity label among the base pixels
matched with it (the surface in front wins), and the "occluded" label exactly if no base pixel is matched with it. -/
theorem front_surface_wins (c : Cfg) (roi : Nat → Nat → Bool) (base : Nat → Nat → Nat) (r k : Nat) (hk : k < c.cols)
    (hr : roi r k = true) :
    (∀ l, l < c.nReal → (winners c (roi r) (base r) k = l ↔
      Sees c (base r) k l ∧ ∀ l', Sees c (base r) k l' → l' ≤ l)) ∧
    (winners c (roi r) (base r) k = c.occluded ↔ ∀ l, ¬Sees c (base r) k l) ∧
    (winners c (roi r) (base r) k < c.nReal ∨ winners c (roi r) (base r) k = c.occluded) := by
  have hw : winners c (roi r) (base r) k =
      if maxElement (votes c (roi r) (base r) k) c.nReal ≠ c.nReal ∧
          votes c (roi r) (base r) k (maxElement (votes c (roi r) (base r) k) c.nReal) > 0
      then (c.nReal - 1) - maxElement (votes c (roi r) (base r) k) c.nReal else c.occluded := by
    unfold winners
    rw [if_pos hr]
  rcases winner_votes c (roi r) (base r) k hk hr with ⟨h1, h2, h3, h4⟩ | ⟨h1, h2⟩
  · rw [hw, if_pos ⟨h1, h2⟩]
    have hlt := h3.1
    refine ⟨fun l hl => ⟨fun e => by subst e; exact ⟨h3, h4⟩, fun ⟨g1, g2⟩ => ?_⟩, ⟨fun e => ?_, fun g => ?_⟩, Or.inl hlt⟩
    · exact Nat.le_antisymm (g2 _ h3) (h4 l g1)
    · exfalso
      unfold Cfg.occluded at e
      omega
    · exact absurd h3 (g _)
  · rw [hw, if_neg (by rintro ⟨g1, g2⟩; rcases h1 with h1 | h1 <;> omega)]
    refine ⟨fun l hl => ⟨fun e => ?_, fun ⟨g1, _⟩ => absurd g1 (h2 l)⟩, ⟨fun _ => h2, fun _ => rfl⟩, Or.inr rfl⟩
    exfalso
    unfold Cfg.occluded at e
    omega

/-- C146: outside of the ROI the label is "don't care". -/
theorem outside_dont_care (c : Cfg) (roi : Nat → Nat → Bool) (base : Nat → Nat → Nat) (r k : Nat)
    (hr : roi r k = false) : winners c (roi r) (base r) k = c.dontCare := by
  unfold winners
  rw [if_neg (by simp [hr])]

/-- C146: a disparity given to a pixel points back to a base pixel that has the same disparity. -/
theorem points_back (c : Cfg) (roi : Nat → Nat → Bool) (base : Nat → Nat → Nat) (r k : Nat) (hk : k < c.cols)
    (hr : roi r k = true) (h : winners c (roi r) (base r) k < c.nReal) :
    ∃ k', backCol c k (winners c (roi r) (base r) k) = some k' ∧ k' < c.cols ∧
      base r k' = winners c (roi r) (base r) k := by
  obtain ⟨⟨_, k', h1, h2, h3⟩, _⟩ := ((front_surface_wins c roi base r k hk hr).1 _ h).1 rfl
  refine ⟨k', ?_, h1, h2⟩
  unfold backCol
  split_ifs at h3 ⊢ with g1 g2 g3 <;> first | (congr 1; omega) | omega

/-- C146: every base pixel is visible at the pixel it is matched with, or hidden there by a surface in front of it. -/
theorem visible_or_hidden (c : Cfg) (roi : Nat → Nat → Bool) (base : Nat → Nat → Nat) (r k l : Nat) (hk : k < c.cols)
    (hr : roi r k = true) (h : Sees c (base r) k l) :
    l ≤ winners c (roi r) (base r) k ∧ winners c (roi r) (base r) k < c.nReal := by
  obtain ⟨h1, h2, h3⟩ := front_surface_wins c roi base r k hk hr
  rcases h3 with h3 | h3
  · exact ⟨((h1 _ h3).1 rfl).2 l h, h3⟩
  · exact absurd h (h2.1 h3 l)

/-- C146: the occlusion map (before its smoothing) is 255 exactly at the ROI pixels no base pixel is matched with, and 0
elsewhere; these are the pixels the projection marks as occluded. -/
theorem occlusion_exact (c : Cfg) (roi : Nat → Nat → Bool) (base : Nat → Nat → Nat) (r k : Nat) (hk : k < c.cols) :
    (occlusionRow c (roi r) (base r) k = 255 ↔ roi r k = true ∧ ∀ l, ¬Sees c (base r) k l) ∧
    (occlusionRow c (roi r) (base r) k = 255 ∨ occlusionRow c (roi r) (base r) k = 0) ∧
    (occlusionRow c (roi r) (base r) k = 255 ↔ winners c (roi r) (base r) k = c.occluded) := by
  by_cases hr : roi r k = true
  · have hw : occlusionRow c (roi r) (base r) k =
        if maxElement (votes c (roi r) (base r) k) c.nReal = c.nReal ∨
            votes c (roi r) (base r) k (maxElement (votes c (roi r) (base r) k) c.nReal) = 0 then 255 else 0 := by
      unfold occlusionRow
      rw [if_pos hr]
    have hf := (front_surface_wins c roi base r k hk hr).2.1
    rcases winner_votes c (roi r) (base r) k hk hr with ⟨h1, h2, h3, h4⟩ | ⟨h1, h2⟩
    · rw [hw, if_neg (by rintro (g | g) <;> omega), hf]
      refine ⟨⟨fun e => by omega, fun g => absurd h3 (g.2 _)⟩, Or.inr rfl, ⟨fun e => by omega, fun g => absurd h3 (g _)⟩⟩
    · rw [hw, if_pos h1, hf]
      exact ⟨⟨fun _ => ⟨hr, h2⟩, fun _ => rfl⟩, Or.inl rfl, ⟨fun _ => h2, fun _ => rfl⟩⟩
  · have hf : roi r k = false := by simpa using hr
    have h0 : occlusionRow c (roi r) (base r) k = 0 := by
      unfold occlusionRow
      rw [if_neg hr]
    rw [h0, outside_dont_care c roi base r k hf]
    refine ⟨⟨fun e => by omega, fun g => absurd g.1 hr⟩, Or.inr rfl, ⟨fun e => by omega, fun e => ?_⟩⟩
    unfold Cfg.dontCare Cfg.occluded at e
    omega

/-- a row of eight pixels, disparities 1 to 4, base camera 0: two surfaces -/
def demo : Cfg := ⟨1, 8, 4, 1, 1, 4, false⟩

/-- labels of the base row: background (disparity 1) with a front object (disparity 3) at columns 4 and 5 -/
def demoRow (k : Nat) : Nat := if k = 4 ∨ k = 5 then 2 else 0

example : (List.range 8).map (winners demo (fun _ => true) demoRow) = [0, 2, 2, 5, 5, 0, 0, 5] := by decide +kernel

example : (List.range 8).map (occlusionRow demo (fun _ => true) demoRow) = [0, 0, 0, 255, 255, 0, 0, 255] := by
  decide +kernel

/-- both surfaces are matched with columns 1 and 2, the front one is kept -/
example : Sees demo demoRow 1 2 ∧ Sees demo demoRow 1 0 :=
  ⟨⟨by decide, 4, by decide, by decide, by decide⟩, ⟨by decide, 2, by decide, by decide, by decide⟩⟩

/-! ## the outputs -/

/-- C147: whatever the smoothing does, the projected labels are "don't care" exactly outside of the ROI. -/
theorem projected_mask (c : Cfg) (hz : 0 < c.nReal) (roi : Nat → Nat → Bool)
    (blur9 : (Nat → Nat → Nat) → Nat → Nat → Nat) (base : Nat → Nat → Nat) (r k : Nat) (hk : k < c.cols) :
    project c roi blur9 base r k = c.dontCare ↔ roi r k = false := by
  unfold project
  cases h : roi r k with
  | false => exact ⟨fun _ => rfl, fun _ => fill_outside c (roi r) _ k hk h⟩
  | true => exact ⟨fun e => absurd e (fill_inside c (roi r) _ hz k hk h), fun e => by simp at e⟩

/-- C147: a ROI pixel with a label after the smoothing keeps it; one without takes the label of the nearest ROI pixel
that can give one (its right neighbours have their final label already, the right one is preferred), up to the largest
disparity, or label 0 if there is none. -/
theorem holes_filled (c : Cfg) (hz : 0 < c.nReal) (roi : Nat → Nat → Bool)
    (blur9 : (Nat → Nat → Nat) → Nat → Nat → Nat) (base : Nat → Nat → Nat) (r k : Nat) (hk : k < c.cols)
    (hr : roi r k = true) :
    let smooth := blur9 (fun r' => winners c (roi r') (base r')) r
    let out := project c roi blur9 base r
    (smooth k ≠ c.dontCare → out k = smooth k) ∧
    (smooth k = c.dontCare →
      (∃ o, 1 ≤ o ∧ o ≤ c.dmax ∧ (∀ o', 1 ≤ o' → o' < o → NoneAt c (roi r) smooth k o') ∧
        ((k + o < c.cols ∧ roi r (k + o) = true ∧ out k = out (k + o)) ∨
          (¬(k + o < c.cols ∧ roi r (k + o) = true) ∧ o ≤ k ∧ Usable c (roi r) smooth (k - o) ∧
            out k = smooth (k - o)))) ∨
      ((∀ o, 1 ≤ o → o ≤ c.dmax → NoneAt c (roi r) smooth k o) ∧ out k = 0)) := by
  intro smooth out
  refine ⟨fun h => fill_kept c (roi r) smooth k hk hr h, fun h => ?_⟩
  have ho : out k = _ := fill_hole c (roi r) smooth k hk hr h
  have hp := fun o => probe_cases c (roi r) smooth hz k o hk h
  dsimp only at hp
  rcases find_range (probe c (roi r) (fun j => if k + 1 ≤ j ∧ j < c.cols then fillRow c (roi r) smooth j else smooth j) k)
    (c.dmax + 1) with ⟨o, x, h1, h2, h3, h4⟩ | ⟨h3, h4⟩
  · left
    rw [h4] at ho
    have hn : ∀ o', 1 ≤ o' → o' < o → NoneAt c (roi r) smooth k o' := by
      intro o' g1 g2
      rcases hp o' with ⟨_, _, _, e⟩ | ⟨_, _, _, _, e⟩ | ⟨_, g⟩
      · rw [h3 o' g2] at e
        simp at e
      · rw [h3 o' g2] at e
        simp at e
      · exact g g1
    rcases hp o with ⟨g1, g2, g3, e⟩ | ⟨g1, g2, g3, g4, e⟩ | ⟨e, _⟩
    · rw [e] at h2
      refine ⟨o, g1, by omega, hn, Or.inl ⟨g2, g3, ?_⟩⟩
      rw [ho]
      exact (Option.some.inj h2).symm
    · rw [e] at h2
      refine ⟨o, g1, by omega, hn, Or.inr ⟨g2, g3, g4, ?_⟩⟩
      rw [ho]
      exact (Option.some.inj h2).symm
    · rw [e] at h2
      simp at h2
  · right
    rw [h4] at ho
    refine ⟨fun o g1 g2 => ?_, ho⟩
    rcases hp o with ⟨_, _, _, e⟩ | ⟨_, _, _, _, e⟩ | ⟨_, g⟩
    · rw [h3 o (by omega)] at e
      simp at e
    · rw [h3 o (by omega)] at e
      simp at e
    · exact g g1

/-- the labels of the second pass are labels it started with, or 0, or "don't care" -/
theorem fill_from (c : Cfg) (roi : Nat → Bool) (row : Nat → Nat) (P : Nat → Prop) (h0 : P 0) (hd : P c.dontCare)
    (h : ∀ k, k < c.cols → P (row k)) : ∀ n k, c.cols - k ≤ n → k < c.cols → P (fillRow c roi row k) := by
  intro n
  induction n with
  | zero => intro k h1 h2; omega
  | succ n ih =>
    intro k hn hk
    rw [fill_cell c roi row k hk]
    have hP : ∀ j, j < c.cols → P (if k + 1 ≤ j ∧ j < c.cols then fillRow c roi row j else row j) := by
      intro j hj
      split_ifs with g
      · exact ih j (by omega) hj
      · exact h j hj
    unfold fillCell
    split_ifs with g1 g2
    · rw [Function.update_self]
      exact hd
    · rw [Function.update_self]
      rcases find_range (probe c roi (fun j => if k + 1 ≤ j ∧ j < c.cols then fillRow c roi row j else row j) k)
        (c.dmax + 1) with ⟨o, x, _, h2, _, h4⟩ | ⟨_, h4⟩
      · rw [h4]
        unfold probe at h2
        split_ifs at h2 with q1 q2
        · cases Option.some.inj h2
          exact hP _ q1.1
        · cases Option.some.inj h2
          exact hP _ (by omega)
      · rw [h4]
        exact h0
    · exact hP k hk

/-- C147: the output of the camera that is not the primary one is "don't care" exactly outside of its ROI, and all of its
labels are legal, whatever the labels of the primary camera. -/
theorem second_output (c : Cfg) (hz : 0 < c.nReal) (hrows : 0 < c.rows) (roi : Nat → Nat → Bool) (prim : Nat → Nat → Nat)
    (r k : Nat) (hk : k < c.cols) :
    let out := (finish c roi (medianBlur c.rows c.cols 4) (medianBlur c.rows c.cols 2) prim).2
    (out r k = c.dontCare ↔ roi r k = false) ∧ out r k < c.nReal + 2 := by
  intro out
  have key : ∀ base, (project c roi (medianBlur c.rows c.cols 4) base r k = c.dontCare ↔ roi r k = false) ∧
      project c roi (medianBlur c.rows c.cols 4) base r k < c.nReal + 2 := by
    intro base
    refine ⟨projected_mask c hz roi _ base r k hk, ?_⟩
    unfold project
    refine fill_from c (roi r) _ (fun x => x < c.nReal + 2) (by omega) (by unfold Cfg.dontCare; omega) ?_ _ k (le_refl _) hk
    intro j hj
    obtain ⟨r', k', h1, h2, h3⟩ := median_from c.rows c.cols 4 (fun r' => winners c (roi r') (base r')) r j hrows (by omega)
    show medianBlur c.rows c.cols 4 (fun r' => winners c (roi r') (base r')) r j < c.nReal + 2
    rw [h3]
    by_cases hq : roi r' k' = true
    · rcases (front_surface_wins c roi base r' k' h2 hq).2.2 with g | g
      · omega
      · rw [g]
        unfold Cfg.occluded
        omega
    · rw [outside_dont_care c roi base r' k' (by simpa using hq)]
      unfold Cfg.dontCare
      omega
  show (out r k = c.dontCare ↔ roi r k = false) ∧ out r k < c.nReal + 2
  unfold out
  rw [finish_snd]
  exact key _

/-- C147: what holds of the output of the primary camera: all of its labels are labels of the optimized labeling. -/
theorem first_output_partial (c : Cfg) (hrows : 0 < c.rows) (hcols : 0 < c.cols) (roi : Nat → Nat → Bool)
    (prim : Nat → Nat → Nat) (r k : Nat) :
    ∃ r' k', r' < c.rows ∧ k' < c.cols ∧
      (finish c roi (medianBlur c.rows c.cols 4) (medianBlur c.rows c.cols 2) prim).1 r k = prim r' k' := by
  rw [finish_fst]
  exact median_from c.rows c.cols 2 prim r k hrows hcols

/-- a ROI: the three first columns but one pixel, and an isolated pixel -/
def maskRoi (r k : Nat) : Bool := (decide (k < 4) && !(r == 2 && k == 1)) || (r == 2 && k == 7)

/-- labels of the primary camera: a single surface inside of the ROI, "don't care" outside -/
def maskLabels (r k : Nat) : Nat := if maskRoi r k then 0 else 4

/-- C147: the output of the primary camera is not masked like its labels: with either camera as the primary one, a ROI
pixel ends up without a label and a pixel outside of the ROI with one, although the optimized labels are "don't care"
exactly outside of the ROI. -/
theorem first_output_mask_refuted (baseRight : Bool) :
    let c : Cfg := ⟨5, 10, 4, 1, 1, 4, baseRight⟩
    let out := (finish c maskRoi (medianBlur c.rows c.cols 4) (medianBlur c.rows c.cols 2) maskLabels).1
    (∀ r k, maskLabels r k = c.dontCare ↔ maskRoi r k = false) ∧
    (∃ r k, r < c.rows ∧ k < c.cols ∧ maskRoi r k = true ∧ out r k = c.dontCare) ∧
    (∃ r k, r < c.rows ∧ k < c.cols ∧ maskRoi r k = false ∧ out r k ≠ c.dontCare) := by
  refine ⟨fun r k => ?_, ⟨2, 7, Nat.lt_of_sub_eq_succ rfl, Nat.lt_of_sub_eq_succ rfl, rfl, ?_⟩,
    ⟨2, 1, Nat.lt_of_sub_eq_succ rfl, Nat.lt_of_sub_eq_succ rfl, rfl, ?_⟩⟩
  · unfold maskLabels Cfg.dontCare
    cases h : maskRoi r k <;> simp
  · cases baseRight <;> decide +kernel
  · cases baseRight <;> decide +kernel

/-- the second output of a concrete case: the two first columns are outside of the ROI -/
example : let out := (finish demo (fun _ k => decide (2 ≤ k)) (medianBlur 1 8 4) (medianBlur 1 8 2) (fun _ => demoRow)).2
    (out 0 1 = demo.dontCare) ∧ out 0 4 ≠ demo.dontCare := by decide +kernel

/-- a hole next to a labelled pixel: the smoothing removed the label of column 3 -/
example : fillRow demo (fun k => decide (k ≠ 4)) (fun k => if k = 3 ∨ k = 5 then 4 else k) 3 = 2 ∧
    fillRow demo (fun k => decide (k ≠ 4)) (fun k => if k = 3 ∨ k = 5 then 4 else k) 5 = 6 := by decide +kernel

end Litiv.SegmProj
