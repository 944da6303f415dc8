import Verif.Lemmas.ShapeDist

/-!
# Shape distance features
-/

namespace Litiv.ShapeDist

/-- **Values.** At each pixel, the foreground feature is `exp(d/10) - 1`, at most 10, for the distance `d` to the mask,
and 10 if the mask is empty; the background feature is the same for the distance to the pixels outside the mask. -/
theorem values (rows cols : Nat) (mask : Mask) (p : Nat × Nat) :
    (∀ d, Nearest rows cols (fun r k => mask r k ≠ 0) p d → fgDist rows cols mask p = min (Real.exp (d / 10) - 1) 10) ∧
    ((∀ r < rows, ∀ k < cols, mask r k = 0) → fgDist rows cols mask p = 10) ∧
    (∀ d, Nearest rows cols (fun r k => mask r k = 0) p d → bgDist rows cols mask p = min (Real.exp (d / 10) - 1) 10) ∧
    ((∀ r < rows, ∀ k < cols, mask r k ≠ 0) → bgDist rows cols mask p = 10) := by
  have hf := transform_cases rows cols (fun q => !(mask q.1 q.2 == 0)) (fun r k => mask r k ≠ 0) (by intro r k; simp) p
  have hb := transform_cases rows cols (fun q => !decide (0 < mask q.1 q.2)) (fun r k => mask r k = 0) (by intro r k; simp) p
  refine ⟨?_, ?_, ?_, ?_⟩
  · intro d hd
    rcases hf with ⟨h, _⟩ | ⟨e, h1, h2⟩
    · obtain ⟨⟨r, k, hr, hk, hs, _⟩, _⟩ := hd
      exact absurd hs (h r hr k hk)
    · rw [fgDist, h1, nearest_unique h2 hd, feature_some (nearest_nonneg hd)]
  · intro h
    rcases hf with ⟨_, h1⟩ | ⟨e, _, ⟨⟨r, k, hr, hk, hs, _⟩, _⟩⟩
    · rw [fgDist, h1, feature_none]
    · exact absurd (h r hr k hk) hs
  · intro d hd
    rcases hb with ⟨h, _⟩ | ⟨e, h1, h2⟩
    · obtain ⟨⟨r, k, hr, hk, hs, _⟩, _⟩ := hd
      exact absurd hs (h r hr k hk)
    · rw [bgDist, h1, nearest_unique h2 hd, feature_some (nearest_nonneg hd)]
  · intro h
    rcases hb with ⟨_, h1⟩ | ⟨e, _, ⟨⟨r, k, hr, hk, hs, _⟩, _⟩⟩
    · rw [bgDist, h1, feature_none]
    · exact absurd hs (h r hr k hk)

/-- Each pixel has either no or one nearest pixel distance. -/
theorem nearest_or (rows cols : Nat) (s : Nat → Nat → Prop) (p : Nat × Nat) :
    (∀ r < rows, ∀ k < cols, ¬ s r k) ∨ ∃ d, Nearest rows cols s p d := by
  classical
  rcases transform_cases rows cols (fun q => decide (s q.1 q.2)) s (by intro r k; simp) p with ⟨h, _⟩ | ⟨d, _, h⟩
  · exact .inl h
  · exact .inr ⟨d, h⟩

theorem nearest_zero {rows cols : Nat} {s : Nat → Nat → Prop} {p : Nat × Nat} {d : ℝ} (h : Nearest rows cols s p d)
    (hr : p.1 < rows) (hk : p.2 < cols) : d = 0 ↔ s p.1 p.2 := by
  constructor
  · intro h0
    obtain ⟨⟨r, k, _, _, hs, he⟩, _⟩ := h
    rw [h0, eq_comm, Real.sqrt_eq_zero (by positivity)] at he
    have h1 : ((p.1 : ℝ) - r) ^ 2 = 0 := by nlinarith [sq_nonneg ((p.1 : ℝ) - r), sq_nonneg ((p.2 : ℝ) - k)]
    have h2 : ((p.2 : ℝ) - k) ^ 2 = 0 := by nlinarith [sq_nonneg ((p.1 : ℝ) - r), sq_nonneg ((p.2 : ℝ) - k)]
    have h3 : (p.1 : ℝ) = r := by have := pow_eq_zero_iff two_ne_zero |>.1 h1; linarith
    have h4 : (p.2 : ℝ) = k := by have := pow_eq_zero_iff two_ne_zero |>.1 h2; linarith
    have h3' : p.1 = r := by exact_mod_cast h3
    have h4' : p.2 = k := by exact_mod_cast h4
    rw [h3', h4']; exact hs
  · intro hs
    have := h.2 p.1 p.2 hr hk hs
    rw [sub_self, sub_self] at this
    have h0 : √((0 : ℝ) ^ 2 + 0 ^ 2) = 0 := by norm_num
    rw [h0] at this
    exact le_antisymm this (nearest_nonneg h)

/-- **Range.** Features are between 0 and 10; exactly one of both is zero at each pixel: the foreground one in the mask,
the background one outside of it. -/
theorem range_zero (rows cols : Nat) (mask : Mask) (p : Nat × Nat) (hr : p.1 < rows) (hk : p.2 < cols) :
    0 ≤ fgDist rows cols mask p ∧ fgDist rows cols mask p ≤ 10 ∧ 0 ≤ bgDist rows cols mask p ∧ bgDist rows cols mask p ≤ 10 ∧
    (fgDist rows cols mask p = 0 ↔ mask p.1 p.2 ≠ 0) ∧ (bgDist rows cols mask p = 0 ↔ mask p.1 p.2 = 0) := by
  obtain ⟨h1, h2, h3, h4⟩ := values rows cols mask p
  have key : ∀ d : ℝ, 0 ≤ d → 0 ≤ min (Real.exp (d / 10) - 1) 10 ∧ (min (Real.exp (d / 10) - 1) 10 = 0 ↔ d = 0) := by
    intro d hd
    have he : 1 ≤ Real.exp (d / 10) := Real.one_le_exp (by positivity)
    refine ⟨le_min (by linarith) (by norm_num), ?_⟩
    constructor
    · intro h
      rcases min_choice (Real.exp (d / 10) - 1) 10 with hc | hc
      · rw [hc] at h
        have : Real.exp (d / 10) = 1 := by linarith
        rw [Real.exp_eq_one_iff] at this
        linarith
      · rw [hc] at h; norm_num at h
    · rintro rfl; simp
  have part : ∀ (x : ℝ) (s : Nat → Nat → Prop), (∀ d, Nearest rows cols s p d → x = min (Real.exp (d / 10) - 1) 10) →
      ((∀ r < rows, ∀ k < cols, ¬ s r k) → x = 10) → 0 ≤ x ∧ x ≤ 10 ∧ (x = 0 ↔ s p.1 p.2) := by
    intro x s hx hy
    rcases nearest_or rows cols s p with h | ⟨d, h⟩
    · rw [hy h]
      refine ⟨by norm_num, le_rfl, ?_⟩
      constructor
      · intro h; norm_num at h
      · intro hs; exact absurd hs (h _ hr _ hk)
    · rw [hx d h]
      have := key d (nearest_nonneg h)
      exact ⟨this.1, min_le_right _ _, this.2.trans (nearest_zero h hr hk)⟩
  have a := part _ _ h1 (fun h => h2 fun r hr k hk => by have := h r hr k hk; simpa using this)
  have b := part _ _ h3 (fun h => h4 h)
  exact ⟨a.1, a.2.1, b.1, b.2.1, a.2.2, b.2.2⟩

/-- **Complements.** Inverting the mask swaps both features. -/
theorem complement_swaps (rows cols : Nat) (m m' : Mask) (h : ∀ r < rows, ∀ k < cols, (m' r k = 0 ↔ m r k ≠ 0)) (p : Nat × Nat) :
    fgDist rows cols m' p = bgDist rows cols m p ∧ bgDist rows cols m' p = fgDist rows cols m p := by
  have heq : ∀ f g : Nat × Nat → Bool, (∀ r < rows, ∀ k < cols, f (r, k) = g (r, k)) → transform rows cols f p = transform rows cols g p := by
    intro f g hfg
    rw [transform, transform, List.filter_congr]
    intro q hq
    have := (mem_pixels _ _ _).1 hq
    exact hfg q.1 this.1 q.2 this.2
  constructor
  · rw [fgDist, bgDist, heq]
    intro r hr k hk
    have := h r hr k hk
    rw [Bool.eq_iff_iff]
    simp only [Bool.not_eq_true', beq_eq_false_iff_ne, decide_eq_false_iff_not]
    omega
  · rw [bgDist, fgDist, heq]
    intro r hr k hk
    have := h r hr k hk
    rw [Bool.eq_iff_iff]
    simp only [Bool.not_eq_true', beq_eq_false_iff_ne, decide_eq_false_iff_not]
    omega

/-- **Larger masks.** Adding pixels to a mask never increases a foreground feature, and never decreases a background
one. -/
theorem grows (rows cols : Nat) (m m' : Mask) (h : ∀ r < rows, ∀ k < cols, m r k ≠ 0 → m' r k ≠ 0) (p : Nat × Nat) :
    fgDist rows cols m' p ≤ fgDist rows cols m p ∧ bgDist rows cols m p ≤ bgDist rows cols m' p := by
  have key : ∀ {s t : Nat → Nat → Prop}, (∀ r < rows, ∀ k < cols, s r k → t r k) → ∀ {x y : ℝ},
      (∀ d, Nearest rows cols s p d → x = min (Real.exp (d / 10) - 1) 10) → ((∀ r < rows, ∀ k < cols, ¬ s r k) → x = 10) →
      (∀ d, Nearest rows cols t p d → y = min (Real.exp (d / 10) - 1) 10) → ((∀ r < rows, ∀ k < cols, ¬ t r k) → y = 10) → y ≤ x := by
    intro s t hst x y hx hx' hy hy'
    have hle : y ≤ 10 := by
      rcases nearest_or rows cols t p with h | ⟨d, h⟩
      · rw [hy' h]
      · rw [hy d h]; exact min_le_right _ _
    rcases nearest_or rows cols s p with h | ⟨d, h⟩
    · rw [hx' h]; exact hle
    · rcases nearest_or rows cols t p with h' | ⟨e, h'⟩
      · obtain ⟨⟨r, k, hr, hk, hs, _⟩, _⟩ := h
        exact absurd (hst r hr k hk hs) (h' r hr k hk)
      · rw [hx d h, hy e h']
        have hde : e ≤ d := by
          obtain ⟨⟨r, k, hr, hk, hs, hd⟩, _⟩ := h
          rw [hd]; exact h'.2 r k hr hk (hst r hr k hk hs)
        have : Real.exp (e / 10) ≤ Real.exp (d / 10) := Real.exp_le_exp.2 (by linarith)
        exact min_le_min (by linarith) le_rfl
  obtain ⟨a1, a2, a3, a4⟩ := values rows cols m p
  obtain ⟨b1, b2, b3, b4⟩ := values rows cols m' p
  constructor
  · exact key (fun r hr k hk => h r hr k hk) a1 (fun hh => a2 fun r hr k hk => by simpa using hh r hr k hk) b1
      (fun hh => b2 fun r hr k hk => by simpa using hh r hr k hk)
  · refine key (s := fun r k => m' r k = 0) (t := fun r k => m r k = 0) ?_ b3 (fun hh => b4 hh) a3 (fun hh => a4 hh)
    intro r hr k hk h0
    by_contra hc
    exact h r hr k hk hc h0

/-- A mask of one pixel in an image of 4 by 5 pixels, and a pixel five steps away. -/
example : Nearest 4 5 (fun r k => (if r = 0 ∧ k = 0 then 255 else 0) ≠ 0) (3, 4) 5 := by
  constructor
  · refine ⟨0, 0, by omega, by omega, by simp, ?_⟩
    rw [show (((3, 4) : Nat × Nat).1 : ℝ) = 3 by norm_num, show (((3, 4) : Nat × Nat).2 : ℝ) = 4 by norm_num,
      show ((3 : ℝ) - (0 : Nat)) ^ 2 + (4 - (0 : Nat)) ^ 2 = 5 ^ 2 by norm_num, Real.sqrt_sq (by norm_num)]
  · intro r k _ _ h
    have : r = 0 ∧ k = 0 := by
      by_contra hc; simp [hc] at h
    obtain ⟨rfl, rfl⟩ := this
    rw [show (((3, 4) : Nat × Nat).1 : ℝ) = 3 by norm_num, show (((3, 4) : Nat × Nat).2 : ℝ) = 4 by norm_num,
      show ((3 : ℝ) - (0 : Nat)) ^ 2 + (4 - (0 : Nat)) ^ 2 = 5 ^ 2 by norm_num, Real.sqrt_sq (by norm_num)]

end Litiv.ShapeDist
