import Verif.Lemmas.DispMask

/-!
# Coloured disparity error masks: properties
-/

namespace Litiv.DispMask

/-- C211. When some pixel other than the first one has no error to show (it is exact, without known ground truth or outside
of the region of interest), each pixel inside the region of interest is coloured by the largest level found within 2 pixels,
the level of a pixel being its error on a scale from 0 to 255 for the maximal error (to less than one unit), and pixels
outside are grey. What is missing: images with an error everywhere, see `mask_refuted`. -/
theorem mask_partial (hot : Nat → Color) {rows cols : Nat} (disp : Nat → Nat → ℚ) (t : Ty) (gt : Nat → Nat → ℚ) {M : ℚ}
    (roi : Option (Nat → Nat → Nat)) (hM : 1 / 2 ^ 52 < M)
    (hz : ∃ z, InImage rows cols z ∧ z ≠ (0, 0) ∧ Shown t disp gt roi M z 0) :
    ∃ m, coloredMask hot rows cols disp (some (t, gt)) M roi = some m ∧
    ∃ level : Nat × Nat → Nat,
      (∀ q e, InImage rows cols q → Shown t disp gt roi M q e →
        |(level q : ℚ) - 255 * e / M| < 1 ∧ (e = 0 → level q = 0) ∧ (e = M → level q = 255)) ∧
      ∀ p, InImage rows cols p →
        ((∃ r, roi = some r ∧ r p.1 p.2 = 0) → m p.1 p.2 = (92, 92, 92)) ∧
        ((∀ r, roi = some r → r p.1 p.2 ≠ 0) → ∃ v, LargestNear rows cols level p v ∧ m p.1 p.2 = hot v) := by
  obtain ⟨z, hz, hne, hz0⟩ := hz
  have hM0 : 0 < M := lt_trans (by positivity) hM
  rw [shown_errorMap] at hz0
  have hpos : 0 < rows * cols := Nat.mul_pos (Nat.lt_of_le_of_lt (Nat.zero_le _) hz.1) (Nat.lt_of_le_of_lt (Nat.zero_le _) hz.2)
  have hlev : ∀ q e, InImage rows cols q → Shown t disp gt roi M q e →
      |(level0 rows cols (errorMap t disp gt roi M) M q : ℚ) - 255 * e / M| < 1 ∧
      (e = 0 → level0 rows cols (errorMap t disp gt roi M) M q = 0) ∧
      (e = M → level0 rows cols (errorMap t disp gt roi M) M q = 255) := by
    intro q e _ he
    rw [shown_errorMap] at he
    rw [he]
    exact level0_spec (errorMap t disp gt roi M) hM (errorMap_range t disp gt roi hM0) hz hne hz0.symm q
  unfold coloredMask
  rw [if_pos ⟨hpos, hM0⟩]
  dsimp only
  cases roi with
  | none =>
    refine ⟨_, rfl, _, hlev, ?_⟩
    intro p hp
    refine ⟨?_, fun _ => ⟨_, levels_largest _ M hp, rfl⟩⟩
    rintro ⟨r, h, -⟩
    cases h
  | some r =>
    refine ⟨_, rfl, _, hlev, ?_⟩
    intro p hp
    constructor
    · rintro ⟨r', h, h'⟩
      cases h
      rw [if_pos h']
    · intro h
      refine ⟨_, levels_largest _ M hp, ?_⟩
      rw [if_neg (h r rfl)]

/-- A 1x4 image with errors 0, 1, 0 and more than the maximum 4. -/
example : ∃ m, coloredMask (fun v => (v, v, v)) 1 4 (fun _ x => if x = 1 then 6 else if x = 3 then 50 else 5)
      (some (.u8, fun _ _ => 5)) 4 none = some m ∧
    ∃ level : Nat × Nat → Nat, level (0, 2) = 0 ∧ level (0, 3) = 255 ∧
      ∃ v, LargestNear 1 4 level (0, 0) v ∧ m 0 0 = (v, v, v) := by
  have hs : ∀ x : Nat, Shown .u8 (fun _ x => if x = 1 then 6 else if x = 3 then 50 else 5) (fun _ _ => 5) none 4 (0, x)
      (if x = 1 then 1 else if x = 3 then 4 else 0) := by
    intro x
    rw [shown_errorMap]
    have hcnt : counted .u8 (fun _ _ => 5) none 0 x = true := by
      simp [counted, valid, Ty.max]
    unfold errorMap
    rw [if_pos hcnt]
    dsimp only
    split_ifs
    · norm_num
    · norm_num
    · norm_num
  obtain ⟨m, h1, level, h2, h3⟩ := mask_partial (fun v => (v, v, v)) (rows := 1) (cols := 4)
    (fun _ x => if x = 1 then 6 else if x = 3 then 50 else 5) .u8 (fun _ _ => 5) (M := 4) none (by norm_num)
    ⟨(0, 2), ⟨by decide, by decide⟩, by decide, hs 2⟩
  refine ⟨m, h1, level, (h2 (0, 2) _ ⟨by decide, by decide⟩ (hs 2)).2.1 rfl,
    (h2 (0, 3) _ ⟨by decide, by decide⟩ (hs 3)).2.2 rfl, ?_⟩
  exact (h3 (0, 0) ⟨by decide, by decide⟩).2 (fun r h => by cases h)

/-- C211: without ground truth, the mask is grey; a maximal error that is not positive is refused. -/
theorem mask_empty (hot : Nat → Color) (rows cols : Nat) (disp : Nat → Nat → ℚ) (M : ℚ) (roi : Option (Nat → Nat → Nat)) :
    (0 < rows * cols → 0 < M → coloredMask hot rows cols disp none M roi = some fun _ _ => (92, 92, 92)) ∧
    ∀ gt, M ≤ 0 → coloredMask hot rows cols disp gt M roi = none := by
  constructor
  · intro h1 h2
    unfold coloredMask
    rw [if_pos ⟨h1, h2⟩]
  · intro gt h
    unfold coloredMask
    rw [if_neg (fun h' => absurd h'.2 (not_lt.2 h))]

/-- C211 does not hold in general: with the maximal error at every pixel, pixels away from the corner have the colour of a
perfect result. -/
theorem mask_refuted (hot : Nat → Color) : ∃ m m',
    coloredMask hot 1 5 (fun _ _ => 9) (some (.u8, fun _ _ => 5)) 4 none = some m ∧
    coloredMask hot 1 5 (fun _ _ => 5) (some (.u8, fun _ _ => 5)) 4 none = some m' ∧
    m 0 4 = hot 0 ∧ m' 0 4 = hot 0 := by
  have key : ∀ d : ℚ, levels 1 5 (errorMap .u8 (fun _ _ => d) (fun _ _ => 5) none 4) 4 0 4 = 0 →
      ∃ m, coloredMask hot 1 5 (fun _ _ => d) (some (.u8, fun _ _ => 5)) 4 none = some m ∧ m 0 4 = hot 0 := by
    intro d h
    unfold coloredMask
    rw [if_pos ⟨by decide, by norm_num⟩]
    refine ⟨_, rfl, ?_⟩
    rw [h]
  obtain ⟨m, a1, a2⟩ := key 9 (by decide +kernel)
  obtain ⟨m', b1, b2⟩ := key 5 (by decide +kernel)
  exact ⟨m, m', a1, b1, a2, b2⟩

end Litiv.DispMask
