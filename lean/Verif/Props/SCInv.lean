import Verif.Props.SCDirect
import Mathlib.Analysis.SpecialFunctions.Complex.Circle
import Mathlib.Analysis.Real.Pi.Bounds

/-!
# Shape contexts: invariance (C107), bins, normalization and the cost map (C108)
-/

namespace Litiv.SC

open Classical

/-! ## C107 -/

/-- Descriptors only depend on which points each bin counts. -/
theorem list_congr (c : Cfg) (hv : c.Valid) (hm : c.relative = true ∨ c.rot = true) (outer : Nat) (kernel kernel' : Int → Int → Bool) (rows cols rows' cols' : Nat)
    (img img' : Int → Int → Bool) (keys contour : List ℂ) (f : ℂ → ℂ)
    (h : ∀ k ∈ keys, ∀ p ∈ contour, ∀ b, CountedIn c (keys.map f) (contour.map f) (f k) (f p) b ↔ CountedIn c keys contour k p b) :
    fillList c outer kernel' rows' cols' img' (keys.map f) (contour.map f) = fillList c outer kernel rows cols img keys contour := by
  have hstep : ∀ (kernel : Int → Int → Bool) (rows cols : Nat) (img : Int → Int → Bool) (keys contour : List ℂ) (k : ℂ),
      listStep c outer kernel rows cols img keys contour k = some (accum (binOf c outer keys contour k) contour fun _ => initVal c) := by
    intro kernel rows cols img keys contour k
    unfold listStep
    dsimp only
    rw [skipped_map c hm]
    rcases hm with h | h <;> simp [h]
  unfold fillList
  rw [LSS.mapM_some _ _ keys fun k _ => hstep kernel rows cols img keys contour k,
    LSS.mapM_some _ _ (keys.map f) fun k _ => hstep kernel' rows' cols' img' (keys.map f) (contour.map f) k, List.map_map]
  congr 2
  apply List.map_congr_left
  intro k hk
  funext b
  dsimp only [Function.comp]
  rw [accum_count, accum_count]
  congr 2
  rw [List.filter_map, List.length_map]
  congr 1
  apply List.filter_congr
  intro p hp
  dsimp only [Function.comp]
  rw [decide_eq_decide, binOf_map c hv hm, binOf_map c hv hm]
  exact h k hk p hp b

theorem centroid_add (l : List ℂ) (t : ℂ) (h : l ≠ []) : Spec.centroid (l.map fun p => p + t) = Spec.centroid l + t := by
  unfold Spec.centroid
  have hl : (l.length : ℂ) ≠ 0 := by
    rw [Ne, Nat.cast_eq_zero, List.length_eq_zero_iff]; exact h
  have hs : (l.map fun p => p + t).sum = l.sum + l.length * t := by
    clear h hl
    induction l with
    | nil => simp
    | cons x xs ih => simp only [List.map_cons, List.sum_cons, ih, List.length_cons]; push_cast; ring
  rw [hs, List.length_map]
  field_simp

theorem centroid_mul (l : List ℂ) (u : ℂ) : Spec.centroid (l.map fun p => u * p) = u * Spec.centroid l := by
  unfold Spec.centroid
  rw [List.sum_map_mul_left, List.map_id', List.length_map, mul_div_assoc]

theorem meanDistance_map (keys contour : List ℂ) (f : ℂ → ℂ) (s : ℝ) (h : ∀ k p, ‖f p - f k‖ = s * ‖p - k‖) :
    Spec.meanDistance (keys.map f) (contour.map f) = s * Spec.meanDistance keys contour := by
  unfold Spec.meanDistance
  simp only [List.map_map, List.length_map, Function.comp_def, h]
  rw [← mul_div_assoc, ← List.sum_map_mul_left]
  simp only [List.sum_map_mul_left]

/-- **C107 (translation).** With relative distances or angles, moving the key points and the contour by the same vector does not change the descriptors. -/
theorem translation_invariant (c : Cfg) (hv : c.Valid) (hm : c.relative = true ∨ c.rot = true) (outer : Nat) (kernel kernel' : Int → Int → Bool)
    (rows cols rows' cols' : Nat) (img img' : Int → Int → Bool) (keys contour : List ℂ) (t : ℂ) :
    fillList c outer kernel' rows' cols' img' (keys.map fun p => p + t) (contour.map fun p => p + t) =
      fillList c outer kernel rows cols img keys contour := by
  apply list_congr c hv hm
  intro k _ p hp b
  have hne : contour ≠ [] := List.ne_nil_of_mem hp
  unfold CountedIn
  rw [centroid_add contour t hne, meanDistance_map keys contour (fun p => p + t) 1 (fun k p => by rw [one_mul]; congr 1; ring), one_mul]
  unfold Spec.Counted Spec.Coincident Spec.direction
  have e1 : (p + t) - (k + t) = p - k := by ring
  have e2 : ∀ z w : ℂ, (z + t).re - (w + t).re = z.re - w.re := by intro z w; simp
  have e3 : ∀ z w : ℂ, (z + t).im - (w + t).im = z.im - w.im := by intro z w; simp
  rw [e1]
  simp only [e2, e3]

theorem inSector_congr (A a : Nat) (θ θ' : ℝ) (h : (θ : Real.Angle) = θ') : Spec.InSector A a θ ↔ Spec.InSector A a θ' := by
  rw [Real.Angle.angle_eq_iff_two_pi_dvd_sub] at h
  obtain ⟨n, hn⟩ := h
  have : θ = θ' + n * (2 * Real.pi) := by linarith
  rw [this, inSector_turn]

theorem direction_conj (k p : ℂ) : Spec.direction k p = Complex.arg ((starRingEnd ℂ) (p - k)) := by
  unfold Spec.direction
  congr 1
  apply Complex.ext
  · simp
  · simp; ring

theorem not_coincident_of_far (k p : ℂ) (h : 3 / 200 ≤ ‖p - k‖) : ¬ Spec.Coincident k p := by
  rintro ⟨h1, h2⟩
  have hn : ‖p - k‖ ^ 2 = (k.re - p.re) ^ 2 + (k.im - p.im) ^ 2 := by
    rw [← Complex.normSq_eq_norm_sq, Complex.normSq_apply, Complex.sub_re, Complex.sub_im]; ring
  have h3 : (k.re - p.re) ^ 2 < (1 / 100) ^ 2 := by rw [sq_lt_sq, abs_of_pos (by norm_num : (0 : ℝ) < 1 / 100)]; exact h1
  have h4 : (k.im - p.im) ^ 2 < (1 / 100) ^ 2 := by rw [sq_lt_sq, abs_of_pos (by norm_num : (0 : ℝ) < 1 / 100)]; exact h2
  nlinarith

theorem coincident_self (k : ℂ) : Spec.Coincident k k := by
  unfold Spec.Coincident; simp

/-- **C107 (rotation, partial).** With relative angles, turning the key points and the contour around any centre does not change the descriptors, if key points
and contour points are either equal or not too close, and no contour point is the centre of mass. Missing: other cases, see `rotation_refuted`. -/
theorem rotation_invariant_partial (c : Cfg) (hv : c.Valid) (hm : c.rot = true) (outer : Nat) (kernel kernel' : Int → Int → Bool)
    (rows cols rows' cols' : Nat) (img img' : Int → Int → Bool) (keys contour : List ℂ) (u t : ℂ) (hu : ‖u‖ = 1)
    (hfar : ∀ k ∈ keys, ∀ p ∈ contour, p = k ∨ 3 / 200 ≤ ‖p - k‖) (hmass : ∀ p ∈ contour, p ≠ Spec.centroid contour) :
    fillList c outer kernel' rows' cols' img' (keys.map fun p => u * p + t) (contour.map fun p => u * p + t) =
      fillList c outer kernel rows cols img keys contour := by
  have hu0 : u ≠ 0 := by intro h; rw [h] at hu; simp at hu
  apply list_congr c hv (Or.inr hm)
  intro k hk p hp b
  have hne : contour ≠ [] := List.ne_nil_of_mem hp
  have hcent : Spec.centroid (contour.map fun p => u * p + t) = u * Spec.centroid contour + t := by
    have := centroid_add (contour.map fun p => u * p) t (by simpa using hne)
    rw [List.map_map] at this
    rw [← centroid_mul, ← this]
    rfl
  have hdist : ∀ k p : ℂ, ‖(u * p + t) - (u * k + t)‖ = 1 * ‖p - k‖ := by
    intro k p
    have : (u * p + t) - (u * k + t) = u * (p - k) := by ring
    rw [this, norm_mul, hu]
  unfold CountedIn
  rw [hcent, meanDistance_map keys contour (fun p => u * p + t) 1 hdist, one_mul]
  unfold Spec.Counted
  rw [hdist, one_mul]
  rcases hfar k hk p hp with rfl | hf
  · exact iff_of_false (fun h => h.1 (coincident_self _)) (fun h => h.1 (coincident_self _))
  · have hn1 := not_coincident_of_far k p hf
    have hn2 : ¬ Spec.Coincident (u * k + t) (u * p + t) := not_coincident_of_far _ _ (by rw [hdist, one_mul]; exact hf)
    have hpk : p - k ≠ 0 := by intro h; rw [h] at hf; norm_num at hf
    have hpm : p - Spec.centroid contour ≠ 0 := sub_ne_zero.2 (hmass p hp)
    have hdir : ∀ z w : ℂ, w - z ≠ 0 →
        ((Spec.direction (u * z + t) (u * w + t) : ℝ) : Real.Angle) = ((Complex.arg ((starRingEnd ℂ) u) : ℝ) : Real.Angle) + (Spec.direction z w : ℝ) := by
      intro z w hzw
      rw [direction_conj, direction_conj]
      have : (u * w + t) - (u * z + t) = u * (w - z) := by ring
      rw [this, map_mul]
      exact Complex.arg_mul_coe_angle (by simpa using hu0) (by rw [Ne, map_eq_zero]; exact hzw)
    have hang : ∀ a, Spec.InSector c.A a (Spec.direction (u * k + t) (u * p + t) -
          (if c.rot = true then Spec.direction (u * Spec.centroid contour + t) (u * p + t) else 0) + 1 / 2 ^ 23) ↔
        Spec.InSector c.A a (Spec.direction k p - (if c.rot = true then Spec.direction (Spec.centroid contour) p else 0) + 1 / 2 ^ 23) := by
      intro a
      apply inSector_congr
      rw [hm, if_pos rfl, if_pos rfl]
      rw [Real.Angle.coe_add, Real.Angle.coe_sub, Real.Angle.coe_add, Real.Angle.coe_sub, hdir _ _ hpk, hdir _ _ hpm]
      abel
    constructor
    · rintro ⟨_, r, a, hb, h1, h2⟩
      exact ⟨hn1, r, a, hb, h1, (hang a).1 h2⟩
    · rintro ⟨_, r, a, hb, h1, h2⟩
      exact ⟨hn2, r, a, hb, h1, (hang a).2 h2⟩

theorem number_one (P : ℂ → Prop) (p : ℂ) (h : P p) : Spec.number P [p] = 1 := by
  rw [number_eq, List.filter_cons, if_pos (by simpa using h)]; simp

theorem number_zero (P : ℂ → Prop) (p : ℂ) (h : ¬ P p) : Spec.number P [p] = 0 := by
  rw [number_eq, List.filter_cons, if_neg (by simpa using h)]; simp

/-- An extractor with 4 sectors, one ring of radius 10 and relative angles. -/
def quarter : Cfg := ⟨4, 1, 1, 10, false, true, false, false⟩

theorem quarter_valid : quarter.Valid := ⟨Nat.zero_lt_succ _, Nat.zero_lt_succ _, by norm_num [quarter], by norm_num [quarter]⟩

/-- The only contour point is the centre of mass: its bin is the sector of its direction. -/
theorem quarter_bin (k : ℂ) (hk : ‖k‖ = 2) (b : Nat) : CountedIn quarter [k] [0] k 0 b ↔ Spec.InSector 4 b (Spec.direction k 0 + 1 / 2 ^ 23) := by
  have hc : Spec.centroid [0] = 0 := by simp [Spec.centroid]
  have hd : Spec.direction 0 0 = 0 := by
    rw [direction_conj]; simp
  have hn : ¬ Spec.Coincident k 0 := not_coincident_of_far k 0 (by rw [zero_sub, norm_neg, hk]; norm_num)
  unfold CountedIn Spec.Counted
  rw [hc]
  simp only [quarter, Bool.false_eq_true, if_false, if_true, hd, zero_sub, norm_neg, hk, sub_zero]
  constructor
  · rintro ⟨_, r, a, rfl, ⟨hr, _⟩, ha⟩
    have : r = 0 := by omega
    subst this
    simpa using ha
  · intro ha
    refine ⟨hn, 0, b, by simp, ⟨by norm_num, fun h => absurd h (lt_irrefl 0), ?_⟩, ha⟩
    norm_num [Spec.bound]

/-- **C107 (rotation, refuted).** With a single contour point, the centre of mass gives no reference direction: a quarter turn moves the point to another bin. -/
theorem rotation_refuted (outer : Nat) (kernel : Int → Int → Bool) (rows cols : Nat) (img : Int → Int → Bool) :
    fillList quarter outer kernel rows cols img ([2].map fun p => Complex.I * p + 0) ([0].map fun p => Complex.I * p + 0) ≠
      fillList quarter outer kernel rows cols img [2] [0] := by
  intro h
  have e1 : ([2].map fun p : ℂ => Complex.I * p + 0) = [Complex.I * 2] := by simp
  have e2 : ([0].map fun p : ℂ => Complex.I * p + 0) = [0] := by simp
  rw [e1, e2] at h
  obtain ⟨ds, h1, _, h2⟩ := list_counts quarter quarter_valid (Or.inr rfl) rfl outer kernel rows cols img [2] [0]
  obtain ⟨ds', h1', _, h2'⟩ := list_counts quarter quarter_valid (Or.inr rfl) rfl outer kernel rows cols img [Complex.I * 2] [0]
  rw [h1, h1'] at h
  injection h with h
  subst h
  obtain ⟨d, hd, hb⟩ := h2 0 2 rfl
  obtain ⟨d', hd', hb'⟩ := h2' 0 (Complex.I * 2) rfl
  rw [hd] at hd'
  injection hd' with hd'
  subst hd'
  have hpi := Real.pi_pos
  have hpi3 := Real.pi_gt_three
  have c1 : CountedIn quarter [2] [0] 2 0 2 := by
    rw [quarter_bin 2 (by norm_num)]
    have : Spec.direction 2 0 = Real.pi := by
      rw [direction_conj]
      have : (starRingEnd ℂ) ((0 : ℂ) - 2) = ((-2 : ℝ) : ℂ) := by
        rw [zero_sub, map_neg]
        push_cast
        congr 1
        exact Complex.conj_ofNat 2
      rw [this]
      exact Complex.arg_ofReal_of_neg (by norm_num)
    rw [this]
    refine ⟨by norm_num, 0, ?_, ?_⟩
    · push_cast
      have : (0 : ℝ) < 1 / 2 ^ 23 := by positivity
      linarith
    · push_cast
      have : (1 : ℝ) / 2 ^ 23 < 1 := by norm_num
      linarith
  have c2 : ¬ CountedIn quarter [Complex.I * 2] [0] (Complex.I * 2) 0 2 := by
    rw [quarter_bin (Complex.I * 2) (by norm_num)]
    have : Spec.direction (Complex.I * 2) 0 = Real.pi / 2 := by
      rw [direction_conj]
      have : (starRingEnd ℂ) ((0 : ℂ) - Complex.I * 2) = ((2 : ℝ) : ℂ) * Complex.I := by
        rw [zero_sub, map_neg, map_mul, Complex.conj_I, Complex.conj_ofNat]
        push_cast
        ring
      rw [this, Complex.arg_real_mul _ (by norm_num), Complex.arg_I]
    rw [this]
    rintro ⟨_, n, g1, g2⟩
    push_cast at g1 g2
    have he : (1 : ℝ) / 2 ^ 23 < 1 := by norm_num
    have he' : (0 : ℝ) < 1 / 2 ^ 23 := by positivity
    have hn1 : (0 : ℝ) < n := by
      by_contra hc
      have : (n : ℝ) * (2 * Real.pi) ≤ 0 := mul_nonpos_of_nonpos_of_nonneg (not_lt.1 hc) (by linarith)
      linarith
    have hn2 : (1 : ℝ) ≤ n := by
      have : (0 : Int) < n := by exact_mod_cast hn1
      exact_mod_cast this
    have : 2 * Real.pi ≤ (n : ℝ) * (2 * Real.pi) := by nlinarith
    linarith
  have := hb 2
  rw [hb' 2, number_zero _ _ c2, number_one _ _ c1] at this
  linarith

/-- **C107 (scale, partial).** With relative distances, enlarging the key points and the contour does not change the descriptors, if key points and contour points are
either equal or not too close, and no distance falls in the small intervals where the constant that is added to the mean distance matters.
Missing: such distances, see `scale_refuted`. -/
theorem scale_invariant_partial (c : Cfg) (hv : c.Valid) (hm : c.relative = true) (outer : Nat) (kernel kernel' : Int → Int → Bool)
    (rows cols rows' cols' : Nat) (img img' : Int → Int → Bool) (keys contour : List ℂ) (s : ℝ) (hs : 1 ≤ s)
    (hfar : ∀ k ∈ keys, ∀ p ∈ contour, p = k ∨ 3 / 200 ≤ ‖p - k‖)
    (hring : ∀ k ∈ keys, ∀ p ∈ contour, ∀ r < c.R, ¬ (Spec.bound c.R c.inner c.outer r * (Spec.meanDistance keys contour + 1 / 2 ^ 23 / s) ≤ ‖p - k‖ ∧
      ‖p - k‖ < Spec.bound c.R c.inner c.outer r * (Spec.meanDistance keys contour + 1 / 2 ^ 23))) :
    fillList c outer kernel' rows' cols' img' (keys.map fun p => s * p) (contour.map fun p => s * p) =
      fillList c outer kernel rows cols img keys contour := by
  have hs0 : 0 < s := by linarith
  apply list_congr c hv (Or.inl hm)
  intro k hk p hp b
  have hdist : ∀ k p : ℂ, ‖(s : ℂ) * p - s * k‖ = s * ‖p - k‖ := by
    intro k p
    rw [← mul_sub, norm_mul, Complex.norm_real, Real.norm_of_nonneg hs0.le]
  have hdir : ∀ z w : ℂ, Spec.direction ((s : ℂ) * z) (s * w) = Spec.direction z w := by
    intro z w
    rw [direction_conj, direction_conj, ← mul_sub, map_mul, Complex.conj_ofReal, Complex.arg_real_mul _ hs0]
  unfold CountedIn
  rw [centroid_mul, meanDistance_map keys contour (fun p => s * p) s hdist]
  unfold Spec.Counted
  rw [hdist, hdir, hdir, hm, if_pos rfl, if_pos rfl]
  have hmean : 0 ≤ Spec.meanDistance keys contour := by
    unfold Spec.meanDistance
    apply div_nonneg
    · apply List.sum_nonneg
      intro x hx
      rw [List.mem_map] at hx
      obtain ⟨k, _, rfl⟩ := hx
      apply List.sum_nonneg
      intro x hx
      rw [List.mem_map] at hx
      obtain ⟨p, _, rfl⟩ := hx
      exact norm_nonneg _
    · positivity
  rcases hfar k hk p hp with rfl | hf
  · exact iff_of_false (fun h => h.1 (coincident_self _)) (fun h => h.1 (coincident_self _))
  · have hn1 := not_coincident_of_far k p hf
    have hn2 : ¬ Spec.Coincident (s * k) (s * p) := not_coincident_of_far _ _ (by rw [hdist]; nlinarith)
    have hr := hring k hk p hp
    generalize Spec.meanDistance keys contour = μ at *
    generalize ‖p - k‖ = d at *
    have he : (0 : ℝ) < 1 / 2 ^ 23 := by positivity
    have hle : (1 : ℝ) / 2 ^ 23 / s ≤ 1 / 2 ^ 23 := div_le_self he.le hs
    have hlt : ∀ r < c.R, s * d / (s * μ + 1 / 2 ^ 23) < Spec.bound c.R c.inner c.outer r ↔ d / (μ + 1 / 2 ^ 23) < Spec.bound c.R c.inner c.outer r := by
      intro r hrR
      have hL := bound_pos c hv r
      have hrr := hr r hrR
      have p1 : 0 < s * μ + 1 / 2 ^ 23 := by positivity
      have p2 : 0 < μ + 1 / 2 ^ 23 := by positivity
      rw [div_lt_iff₀ p1, div_lt_iff₀ p2]
      have e : Spec.bound c.R c.inner c.outer r * (s * μ + 1 / 2 ^ 23) = s * (Spec.bound c.R c.inner c.outer r * (μ + 1 / 2 ^ 23 / s)) := by
        field_simp
      rw [e, mul_lt_mul_iff_right₀ hs0]
      constructor
      · intro h
        exact lt_of_lt_of_le h (mul_le_mul_of_nonneg_left (by linarith) hL.le)
      · intro h
        by_contra hc
        exact hrr ⟨not_lt.1 hc, h⟩
    have hin : ∀ r, Spec.InRing c.R c.inner c.outer r (s * d / (s * μ + 1 / 2 ^ 23)) ↔ Spec.InRing c.R c.inner c.outer r (d / (μ + 1 / 2 ^ 23)) := by
      intro r
      unfold Spec.InRing
      constructor
      · rintro ⟨h1, h2, h3⟩
        refine ⟨h1, fun h0 => ?_, (hlt r h1).1 h3⟩
        exact not_lt.1 fun h => absurd (h2 h0) (not_le.2 ((hlt (r - 1) (by omega)).2 h))
      · rintro ⟨h1, h2, h3⟩
        refine ⟨h1, fun h0 => ?_, (hlt r h1).2 h3⟩
        exact not_lt.1 fun h => absurd (h2 h0) (not_le.2 ((hlt (r - 1) (by omega)).1 h))
    simp only [hin, hn1, hn2, not_false_eq_true]

/-- **C107 (scale, refuted).** Twice as far from the only contour point, a key point loses it: the mean distance is increased by the same constant at all scales. -/
theorem scale_refuted (c : Cfg) (hv : c.Valid) (hm : c.relative = true) (hn : c.normalize = false) (ho : c.outer = 2 / (2 + 1 / 2 ^ 23)) (outer : Nat)
    (kernel : Int → Int → Bool) (rows cols : Nat) (img : Int → Int → Bool) :
    fillList c outer kernel rows cols img ([1].map fun p => ((2 : ℝ) : ℂ) * p) ([0].map fun p => ((2 : ℝ) : ℂ) * p) ≠
      fillList c outer kernel rows cols img [1] [0] := by
  intro h
  have e1 : ([1].map fun p : ℂ => ((2 : ℝ) : ℂ) * p) = [2] := by simp
  have e2 : ([0].map fun p : ℂ => ((2 : ℝ) : ℂ) * p) = [0] := by simp
  rw [e1, e2] at h
  obtain ⟨ds, h1, h2⟩ := list_total c hv (Or.inl hm) hn outer kernel rows cols img [1] [0]
  obtain ⟨ds', h1', h2'⟩ := list_total c hv (Or.inl hm) hn outer kernel rows cols img [2] [0]
  rw [h1, h1'] at h
  injection h with h
  subst h
  obtain ⟨d, hd, hb⟩ := h2 0 1 rfl
  obtain ⟨d', hd', hb'⟩ := h2' 0 2 rfl
  rw [hd] at hd'
  injection hd' with hd'
  subst hd'
  rw [hb] at hb'
  have m1 : Spec.meanDistance [1] [0] = 1 := by simp [Spec.meanDistance]
  have m2 : Spec.meanDistance [2] [0] = 2 := by simp [Spec.meanDistance]
  rw [m1, m2] at hb'
  have c1 : ¬ Spec.Coincident 1 0 ∧ ‖(0 : ℂ) - 1‖ / (if c.relative = true then (1 : ℝ) + 1 / 2 ^ 23 else 1) < c.outer := by
    refine ⟨not_coincident_of_far _ _ (by norm_num), ?_⟩
    rw [if_pos hm, ho]
    norm_num
  have c2 : ¬ (¬ Spec.Coincident 2 0 ∧ ‖(0 : ℂ) - 2‖ / (if c.relative = true then (2 : ℝ) + 1 / 2 ^ 23 else 1) < c.outer) := by
    rintro ⟨_, h⟩
    rw [if_pos hm, ho] at h
    norm_num at h
  rw [number_one _ _ c1, number_zero _ _ c2] at hb'
  linarith

/-- Two key points and three contour points that meet the hypotheses on rotations. -/
example : (∀ k ∈ ([2, 3] : List ℂ), ∀ p ∈ ([2, 4, 6 + 3 * Complex.I] : List ℂ), p = k ∨ 3 / 200 ≤ ‖p - k‖) ∧
    ∀ p ∈ ([2, 4, 6 + 3 * Complex.I] : List ℂ), p ≠ Spec.centroid [2, 4, 6 + 3 * Complex.I] := by
  have hc : Spec.centroid [2, 4, 6 + 3 * Complex.I] = 4 + Complex.I := by
    unfold Spec.centroid
    simp only [List.sum_cons, List.sum_nil, List.length_cons, List.length_nil]
    push_cast
    ring
  have him : ∀ z w : ℂ, 1 ≤ |(z - w).im| ∨ 1 ≤ |(z - w).re| → 3 / 200 ≤ ‖z - w‖ := by
    intro z w h
    rcases h with h | h
    · have := Complex.abs_im_le_norm (z - w); linarith
    · have := Complex.abs_re_le_norm (z - w); linarith
  constructor
  · intro k hk p hp
    simp only [List.mem_cons, List.not_mem_nil, or_false] at hk hp
    rcases hk with rfl | rfl <;> rcases hp with rfl | rfl | rfl
    · exact Or.inl rfl
    all_goals exact Or.inr (him _ _ (Or.inr (by norm_num)))
  · intro p hp h
    rw [hc] at h
    simp only [List.mem_cons, List.not_mem_nil, or_false] at hp
    have := congrArg Complex.im h
    rcases hp with rfl | rfl | rfl <;> norm_num at this

/-! ## C108 -/

/-- **C108 (limits).** There is one limit for each ring and each sector. Radii grow from the inner to the outer radius, with a constant ratio; angles are the
multiples of the width of a sector, up to a full turn. -/
theorem limits_spec (c : Cfg) (hv : c.Valid) :
    (radLimits c).length = c.R ∧ (∀ i, i < c.R → (radLimits c)[i]? = some (Spec.bound c.R c.inner c.outer i)) ∧
    (radLimits c)[c.R - 1]? = some c.outer ∧ (2 ≤ c.R → (radLimits c)[0]? = some c.inner) ∧
    (∀ i j, i < j → j < c.R → Spec.bound c.R c.inner c.outer i < Spec.bound c.R c.inner c.outer j) ∧
    (angLimits c).length = c.A ∧ (∀ i, i < c.A → (angLimits c)[i]? = some (((i : ℝ) + 1) * (2 * Real.pi / c.A))) ∧
    (angLimits c)[c.A - 1]? = some (2 * Real.pi) := by
  have hR := hv.rad
  have hA := hv.ang
  have hrad : ∀ i, i < c.R → (radLimits c)[i]? = some (Spec.bound c.R c.inner c.outer i) := by
    intro i hi
    have hl : i < (radLimits c).length := by rw [radLimits_length c hR]; exact hi
    rw [List.getElem?_eq_getElem hl, radLimits_get c hv]
  have hang : ∀ i, i < c.A → (angLimits c)[i]? = some (((i : ℝ) + 1) * (2 * Real.pi / c.A)) := by
    intro i hi
    have hl : i < (angLimits c).length := by rw [angLimits_length]; exact hi
    rw [List.getElem?_eq_getElem hl, angLimits_get]
  refine ⟨radLimits_length c hR, hrad, ?_, fun h2 => ?_, fun i j => bound_strict c hv i j, angLimits_length c, hang, ?_⟩
  · rw [hrad _ (by omega), bound_last c hv]
  · rw [hrad _ (by omega)]
    unfold Spec.bound
    rw [if_neg (by omega)]
    simp
  · rw [hang _ (by omega)]
    have hA' : (0 : ℝ) < c.A := by exact_mod_cast hA
    have e : ((c.A - 1 : Nat) : ℝ) + 1 = c.A := by
      have : c.A - 1 + 1 = c.A := by omega
      exact_mod_cast this
    rw [e, mul_div_cancel₀ _ hA'.ne']

theorem normDesc_unit (D : Nat) (hD : 0 < D) (d : Nat → ℝ) (hd : ∀ b < D, 0 ≤ d b) :
    Spec.norm D (normDesc D d) = 1 ∧ (∀ b < D, 0 ≤ normDesc D d b ∧ normDesc D d b ≤ 1) ∧
    (1 / 100000 < Spec.norm D d → ∀ b, normDesc D d b = d b / Spec.norm D d) := by
  have hn : Real.sqrt (((List.range D).map fun b => d b ^ 2).sum) = Spec.norm D d := by unfold Spec.norm; rw [list_sum_range]
  have hD' : (0 : ℝ) < D := by exact_mod_cast hD
  have hunit : Spec.norm D (normDesc D d) = 1 ∧ (∀ b < D, 0 ≤ normDesc D d b) ∧ (1 / 100000 < Spec.norm D d → ∀ b, normDesc D d b = d b / Spec.norm D d) := by
    unfold normDesc
    dsimp only
    rw [hn]
    split
    · rename_i h
      have hpos : 0 < Spec.norm D d := by linarith
      refine ⟨?_, fun b hb => div_nonneg (hd b hb) hpos.le, fun _ b => rfl⟩
      have e : Spec.norm D (fun b => d b / Spec.norm D d) = Real.sqrt ((∑ b ∈ Finset.range D, d b ^ 2) / Spec.norm D d ^ 2) := by
        conv_lhs => unfold Spec.norm
        congr 1
        rw [Finset.sum_div]
        refine Finset.sum_congr rfl fun b _ => ?_
        rw [div_pow]
        rfl
      have e2 : ∑ b ∈ Finset.range D, d b ^ 2 = Spec.norm D d ^ 2 := by
        unfold Spec.norm
        rw [Real.sq_sqrt (Finset.sum_nonneg fun b _ => sq_nonneg _)]
      rw [e, e2, div_self (pow_ne_zero 2 hpos.ne'), Real.sqrt_one]
    · rename_i h
      refine ⟨?_, fun b hb => Real.sqrt_nonneg _, fun h' => absurd h' h⟩
      unfold Spec.norm
      rw [Finset.sum_const, Finset.card_range, nsmul_eq_mul, Real.sq_sqrt (by positivity), mul_one_div, div_self hD'.ne', Real.sqrt_one]
  refine ⟨hunit.1, fun b hb => ⟨hunit.2.1 b hb, ?_⟩, hunit.2.2⟩
  have h1 := hunit.1
  unfold Spec.norm at h1
  rw [Real.sqrt_eq_one] at h1
  have h2 : normDesc D d b ^ 2 ≤ 1 := by
    rw [← h1]
    exact Finset.single_le_sum (f := fun b => normDesc D d b ^ 2) (fun i _ => sq_nonneg _) (Finset.mem_range.2 hb)
  nlinarith [hunit.2.1 b hb]

theorem initVal_nonneg (c : Cfg) : 0 ≤ initVal c := by
  unfold initVal
  split
  · exact le_trans (by norm_num) (le_max_right _ _)
  · exact le_rfl

/-- **C108 (normalization).** Normalized descriptors have norm one and bins between zero and one; they are the descriptors that would be computed without normalization,
divided by their norm, unless it is nearly zero. -/
theorem normalized_unit (c : Cfg) (hv : c.Valid) (hn : c.normalize = true) (outer : Nat) (kernel : Int → Int → Bool) (rows cols : Nat)
    (img : Int → Int → Bool) (keys contour : List ℂ) (ds : List (Nat → ℝ)) (h : fillList c outer kernel rows cols img keys contour = some ds) :
    (∀ d ∈ ds, Spec.norm (c.R * c.A) d = 1 ∧ ∀ b < c.R * c.A, 0 ≤ d b ∧ d b ≤ 1) ∧
    ∃ raw, fillList { c with normalize := false } outer kernel rows cols img keys contour = some raw ∧ raw.length = ds.length ∧
      ∀ (i : Nat) (e d : Nat → ℝ), raw[i]? = some e → ds[i]? = some d → 1 / 100000 < Spec.norm (c.R * c.A) e → ∀ b, d b = e b / Spec.norm (c.R * c.A) e := by
  have hD : 0 < c.R * c.A := Nat.mul_pos hv.rad hv.ang
  unfold fillList at h
  cases hraw : keys.mapM (listStep c outer kernel rows cols img keys contour) with
  | none => rw [hraw] at h; cases h
  | some raw =>
    rw [hraw] at h
    injection h with h
    subst h
    have hpos : ∀ e ∈ raw, ∀ b, 0 ≤ e b := by
      intro e he b
      obtain ⟨i, hi, rfl⟩ := List.mem_iff_getElem.1 he
      have hlen := (mapM_get _ keys raw hraw).1
      have hk : i < keys.length := by omega
      obtain ⟨y, hy1, hy2⟩ := (mapM_get _ keys raw hraw).2 i keys[i] (List.getElem?_eq_getElem hk)
      rw [List.getElem?_eq_getElem hi] at hy1
      injection hy1 with hy1
      rw [hy1]
      unfold listStep at hy2
      dsimp only at hy2
      split at hy2
      · cases hy2
      · injection hy2 with hy2
        rw [← hy2]
        split
        · exact initVal_nonneg c
        · rw [accum_count]
          exact add_nonneg (initVal_nonneg c) (Nat.cast_nonneg _)
    constructor
    · intro d hd
      rw [List.mem_map] at hd
      obtain ⟨e, he, rfl⟩ := hd
      unfold finish
      rw [if_pos hn]
      have := normDesc_unit (c.R * c.A) hD e fun b _ => hpos e he b
      exact ⟨this.1, this.2.1⟩
    · have hsame : keys.mapM (listStep { c with normalize := false } outer kernel rows cols img keys contour) = some raw := hraw
      refine ⟨raw, ?_, by simp, ?_⟩
      · unfold fillList
        rw [hsame]
        have : finish { c with normalize := false } = id := by funext d; simp [finish]
        rw [this]
        simp
      · intro i e d he hd hnorm b
        rw [List.getElem?_map, he] at hd
        injection hd with hd
        rw [← hd]
        unfold finish
        rw [if_pos hn]
        exact (normDesc_unit (c.R * c.A) hD e fun b _ => hpos e (List.mem_of_getElem? he) b).2.2 hnorm b

/-- **C106 (nearest pixel).** Maps hold a descriptor at the pixel nearest to the key point: `cround` moves a coordinate by at most half a pixel. -/
theorem nearest_pixel (x : ℝ) : |x - cround x| ≤ 1 / 2 := by
  unfold cround
  rw [abs_le]
  split
  · have h1 := Int.floor_le (x + 1 / 2)
    have h2 := Int.lt_floor_add_one (x + 1 / 2)
    constructor <;> linarith
  · have h1 := Int.le_ceil (x - 1 / 2)
    have h2 := Int.ceil_lt_add_one (x - 1 / 2)
    constructor <;> linarith

/-- **C108 (bins of the lookup mask).** A bin with cells is placed at the centre of mass of its cells: deviations add up to zero. -/
theorem mask_point_mean (m : LSS.Mask) (n b : Nat) (h : ∃ k < n * n, m.cell k = (b : Int)) :
    let cells := (List.range (n * n)).filter fun k => m.cell k = (b : Int)
    (cells.map fun k => ((k % n : Nat) : ℝ) - (maskPoint m n b).re).sum = 0 ∧ (cells.map fun k => ((k / n : Nat) : ℝ) - (maskPoint m n b).im).sum = 0 := by
  intro cells
  have hne : cells ≠ [] := by
    obtain ⟨k, hk, e⟩ := h
    intro hn
    have : k ∈ cells := List.mem_filter.2 ⟨List.mem_range.2 hk, by simpa using e⟩
    rw [hn] at this
    cases this
  have hlen : (cells.length : ℝ) ≠ 0 := by
    rw [Nat.cast_ne_zero]
    exact fun h => hne (List.length_eq_zero_iff.1 h)
  have e1 : (maskPoint m n b).re = (cells.map fun k => ((k % n : Nat) : ℝ)).sum / cells.length := by
    unfold maskPoint
    dsimp only
    rw [if_neg hne]
  have e2 : (maskPoint m n b).im = (cells.map fun k => ((k / n : Nat) : ℝ)).sum / cells.length := by
    unfold maskPoint
    dsimp only
    rw [if_neg hne]
  have key : ∀ (f : Nat → ℝ) (c : ℝ) (l : List Nat), (l.map fun k => f k - c).sum = (l.map f).sum - l.length * c := by
    intro f c l
    induction l with
    | nil => simp
    | cons a l ih => rw [List.map_cons, List.sum_cons, ih, List.map_cons, List.sum_cons, List.length_cons]; push_cast; ring
  rw [key, key, e1, e2]
  constructor <;> field_simp <;> ring

/-- **C108 (normalization of maps).** -/
theorem normalized_map (c : Cfg) (hv : c.Valid) (hn : c.normalize = true) (outer : Nat) (kernel : Int → Int → Bool) (rows cols : Nat)
    (img : Int → Int → Bool) (keys contour order : List ℂ) (d : Int → Int → Nat → ℝ)
    (h : fillMap c outer kernel rows cols img keys contour order = some d) (r q : Int) :
    Spec.norm (c.R * c.A) (d r q) = 1 ∧ ∀ b < c.R * c.A, 0 ≤ d r q b ∧ d r q b ≤ 1 := by
  have hD : 0 < c.R * c.A := Nat.mul_pos hv.rad hv.ang
  by_cases hin : ∀ k ∈ order, Inside rows cols k
  · obtain ⟨e, h1, h2⟩ := foldMap c outer kernel rows cols img keys contour order (fun _ _ _ => initVal c) hin
    unfold fillMap at h
    rw [h1] at h
    injection h with h
    subst h
    unfold finish
    dsimp only
    rw [if_pos hn]
    have := normDesc_unit (c.R * c.A) hD (e r q) fun b _ => by
      rw [h2]
      refine add_nonneg (initVal_nonneg c) (List.sum_nonneg ?_)
      intro x hx
      rw [List.mem_map] at hx
      obtain ⟨k, _, rfl⟩ := hx
      exact Nat.cast_nonneg _
    exact ⟨this.1, this.2.1⟩
  · push Not at hin
    obtain ⟨k, hk, hno⟩ := hin
    unfold fillMap at h
    rw [foldMap_out c outer kernel rows cols img keys contour order _ ⟨k, hk, hno⟩] at h
    cases h

theorem cost_norm (p q : ℂ) : cost p q = ‖q - p‖ := by
  rw [Complex.norm_def, Complex.normSq_apply]
  unfold cost
  congr 1
  simp only [Complex.sub_re, Complex.sub_im]
  ring

theorem radLimits_last (c : Cfg) (hv : c.Valid) : (radLimits c).getLastD 0 = c.outer := by
  have hl := radLimits_length c hv.rad
  have h3 := (limits_spec c hv).2.2.1
  rw [List.getLastD_eq_getLast?, List.getLast?_eq_getElem?, hl, h3]
  rfl

/-- The costs are distances between points, one for each bin. -/
theorem emd_points (c : Cfg) (hv : c.Valid) (outer : Nat) : ∃ (pt : Nat → ℂ) (s : ℝ), 0 ≤ s ∧ ∀ b o, emdCost c outer b o = some (‖pt o - pt b‖ / s) := by
  unfold emdCost
  by_cases h : (!c.relative && !c.rot) = true
  · obtain ⟨m, hm⟩ := LSS.mask_defined (outer * 2 + 1) c.R c.A true c.inner (by omega) hv.rad hv.ang hv.inner.le (Or.inl rfl)
    refine ⟨fun b => maskPoint m (outer * 2 + 1) b, outer / 2, by positivity, fun b o => ?_⟩
    rw [if_pos h, hm, Option.map_some, cost_norm]
  · refine ⟨binPoint c, c.outer / 2, by have := hv.outer.1; positivity, fun b o => ?_⟩
    rw [if_neg h, radLimits_last c hv, cost_norm]

/-- **C108 (costs).** The cost map of the earth mover's distance always exists; it has a zero diagonal, is symmetric and satisfies the triangle inequality. -/
theorem emd_metric (c : Cfg) (hv : c.Valid) (outer : Nat) : ∃ f : Nat → Nat → ℝ, (∀ b o, emdCost c outer b o = some (f b o)) ∧
    ∀ b o w, 0 ≤ f b o ∧ f b b = 0 ∧ f b o = f o b ∧ f b w ≤ f b o + f o w := by
  obtain ⟨pt, s, hs, h⟩ := emd_points c hv outer
  refine ⟨fun b o => ‖pt o - pt b‖ / s, h, fun b o w => ⟨by positivity, by simp, by dsimp only; rw [norm_sub_rev], ?_⟩⟩
  dsimp only
  rw [← add_div]
  apply div_le_div_of_nonneg_right _ hs
  have := norm_add_le (pt w - pt o) (pt o - pt b)
  have e : pt w - pt o + (pt o - pt b) = pt w - pt b := by ring
  rw [e] at this
  linarith

/-- Mean radius of a ring. -/
noncomputable def meanRad (c : Cfg) (r : Nat) : ℝ := (Spec.bound c.R c.inner c.outer r + if r = 0 then 0 else Spec.bound c.R c.inner c.outer (r - 1)) / 2

theorem meanRad_strict (c : Cfg) (hv : c.Valid) (r r' : Nat) (h : r < r') (hr : r' < c.R) : meanRad c r < meanRad c r' := by
  unfold meanRad
  have h1 := bound_strict c hv r r' h hr
  have h2 : (if r = 0 then 0 else Spec.bound c.R c.inner c.outer (r - 1)) ≤ if r' = 0 then 0 else Spec.bound c.R c.inner c.outer (r' - 1) := by
    rw [if_neg (show ¬ r' = 0 by omega)]
    split
    · exact (bound_pos c hv _).le
    · exact bound_mono c hv _ _ (by omega) (by omega)
  linarith

theorem meanRad_range (c : Cfg) (hv : c.Valid) (r : Nat) (hr : r < c.R) : 0 < meanRad c r ∧ meanRad c r ≤ c.outer := by
  unfold meanRad
  have h1 := bound_pos c hv r
  have h2 : Spec.bound c.R c.inner c.outer r ≤ c.outer :=
    le_trans (bound_mono c hv r (c.R - 1) (by omega) (by omega)) (bound_last c hv).le
  have h3 : 0 ≤ (if r = 0 then 0 else Spec.bound c.R c.inner c.outer (r - 1)) ∧ (if r = 0 then 0 else Spec.bound c.R c.inner c.outer (r - 1)) ≤ c.outer := by
    split
    · exact ⟨le_rfl, hv.outer.1.le⟩
    · exact ⟨(bound_pos c hv _).le, le_trans (bound_mono c hv (r - 1) r (by omega) hr) h2⟩
  constructor <;> linarith [h3.1, h3.2]

theorem binPoint_polar (c : Cfg) (hv : c.Valid) (b : Nat) (hb : b < c.R * c.A) :
    binPoint c b = (meanRad c (b / c.A) : ℂ) * (Complex.cos (((2 * (b % c.A : Nat) + 1) * (Real.pi / c.A) : ℝ) : ℂ) +
      Complex.sin (((2 * (b % c.A : Nat) + 1) * (Real.pi / c.A) : ℝ) : ℂ) * Complex.I) := by
  have hR := hv.rad
  have hA := hv.ang
  have hr : b / c.A < c.R := by rw [Nat.div_lt_iff_lt_mul hA]; exact hb
  have ha : b % c.A < c.A := Nat.mod_lt _ hA
  obtain ⟨_, l1, _, _, _, _, l2, _⟩ := limits_spec c hv
  unfold binPoint
  dsimp only
  have e1 : ((radLimits c).getD (b / c.A) 0 + if b / c.A = 0 then 0 else (radLimits c).getD (b / c.A - 1) 0) / 2 = meanRad c (b / c.A) := by
    unfold meanRad
    rw [List.getD_eq_getElem?_getD, l1 _ hr]
    by_cases h0 : b / c.A = 0
    · rw [if_pos h0, if_pos h0]; rfl
    · rw [if_neg h0, if_neg h0, List.getD_eq_getElem?_getD, l1 _ (by omega)]; rfl
  have e2 : ((angLimits c).getD (b % c.A) 0 + if b % c.A = 0 then 0 else (angLimits c).getD (b % c.A - 1) 0) / 2 =
      (2 * (b % c.A : Nat) + 1) * (Real.pi / c.A) := by
    rw [List.getD_eq_getElem?_getD, l2 _ ha]
    by_cases h0 : b % c.A = 0
    · rw [if_pos h0, h0, Option.getD_some]; push_cast; ring
    · rw [if_neg h0, List.getD_eq_getElem?_getD, l2 _ (by omega), Option.getD_some, Option.getD_some]
      have : ((b % c.A - 1 : Nat) : ℝ) = ((b % c.A : Nat) : ℝ) - 1 := by
        rw [Nat.cast_sub (by omega)]; simp
      rw [this]
      ring
  rw [e1, e2]
  generalize (2 * ((b % c.A : Nat) : ℝ) + 1) * (Real.pi / c.A) = t
  apply Complex.ext
  · simp [Complex.cos_ofReal_re]
  · simp [Complex.sin_ofReal_re]

theorem binPoint_norm (c : Cfg) (hv : c.Valid) (b : Nat) (hb : b < c.R * c.A) : ‖binPoint c b‖ = meanRad c (b / c.A) := by
  have hr : b / c.A < c.R := by rw [Nat.div_lt_iff_lt_mul hv.ang]; exact hb
  rw [binPoint_polar c hv b hb, norm_mul, ← Complex.exp_mul_I, Complex.norm_exp_ofReal_mul_I, mul_one, Complex.norm_real,
    Real.norm_of_nonneg (meanRad_range c hv _ hr).1.le]

theorem binPoint_inj (c : Cfg) (hv : c.Valid) (b o : Nat) (hb : b < c.R * c.A) (ho : o < c.R * c.A) (h : binPoint c b = binPoint c o) : b = o := by
  have hA := hv.ang
  have hrb : b / c.A < c.R := by rw [Nat.div_lt_iff_lt_mul hA]; exact hb
  have hro : o / c.A < c.R := by rw [Nat.div_lt_iff_lt_mul hA]; exact ho
  have hab : b % c.A < c.A := Nat.mod_lt _ hA
  have hao : o % c.A < c.A := Nat.mod_lt _ hA
  have hn := congrArg norm h
  rw [binPoint_norm c hv b hb, binPoint_norm c hv o ho] at hn
  have hr : b / c.A = o / c.A := by
    rcases Nat.lt_trichotomy (b / c.A) (o / c.A) with h1 | h1 | h1
    · exact absurd hn (meanRad_strict c hv _ _ h1 hro).ne
    · exact h1
    · exact absurd hn (meanRad_strict c hv _ _ h1 hrb).ne'
  have ha : b % c.A = o % c.A := by
    rw [binPoint_polar c hv b hb, binPoint_polar c hv o ho, hr] at h
    have hp : (meanRad c (o / c.A) : ℂ) ≠ 0 := by
      rw [Ne, Complex.ofReal_eq_zero]; exact (meanRad_range c hv _ hro).1.ne'
    have h2 := mul_left_cancel₀ hp h
    rw [← Complex.exp_mul_I, ← Complex.exp_mul_I, Complex.exp_eq_exp_iff_exists_int] at h2
    obtain ⟨n, h3⟩ := h2
    have h4 : (((2 * (b % c.A : Nat) + 1) * (Real.pi / c.A) : ℝ) : ℂ) = (((2 * (o % c.A : Nat) + 1) * (Real.pi / c.A) + n * (2 * Real.pi) : ℝ) : ℂ) := by
      apply mul_right_cancel₀ Complex.I_ne_zero
      rw [h3]
      push_cast
      ring
    have h5 := Complex.ofReal_injective h4
    have hA' : (0 : ℝ) < c.A := by exact_mod_cast hA
    have hpi := Real.pi_pos
    have h6 : ((b % c.A : Nat) : ℝ) = (o % c.A : Nat) + n * c.A := by
      field_simp at h5
      linarith
    have h7 : ((b % c.A : Nat) : Int) = (o % c.A : Nat) + n * c.A := by
      apply Int.cast_injective (α := ℝ)
      rw [Int.cast_add, Int.cast_mul, Int.cast_natCast, Int.cast_natCast, Int.cast_natCast]
      exact h6
    have hn0 : n = 0 := by
      by_contra hne
      rcases lt_or_gt_of_ne hne with h8 | h8
      · have : n * (c.A : Int) ≤ -1 * (c.A : Int) := mul_le_mul_of_nonneg_right (by omega) (by omega)
        omega
      · have : 1 * (c.A : Int) ≤ n * (c.A : Int) := mul_le_mul_of_nonneg_right (by omega) (by omega)
        omega
    rw [hn0] at h7
    simp at h7
    exact_mod_cast h7
  rw [← Nat.div_add_mod b c.A, ← Nat.div_add_mod o c.A, hr, ha]

/-- **C108 (costs with relative distances or angles).** Different bins have a positive cost, at most 4 (the diameter of the descriptor is four times the unit of
costs). -/
theorem emd_positive (c : Cfg) (hv : c.Valid) (hm : c.relative = true ∨ c.rot = true) (outer : Nat) (b o : Nat) (hb : b < c.R * c.A) (ho : o < c.R * c.A) :
    ∃ x, emdCost c outer b o = some x ∧ x ≤ 4 ∧ (b ≠ o → 0 < x) := by
  have hf : ¬ ((!c.relative && !c.rot) = true) := by rcases hm with h | h <;> simp [h]
  have hout := hv.outer.1
  refine ⟨‖binPoint c o - binPoint c b‖ / (c.outer / 2), ?_, ?_, fun hne => ?_⟩
  · unfold emdCost
    rw [if_neg hf, radLimits_last c hv, cost_norm]
  · have h1 := norm_sub_le (binPoint c o) (binPoint c b)
    have hrb : b / c.A < c.R := by rw [Nat.div_lt_iff_lt_mul hv.ang]; exact hb
    have hro : o / c.A < c.R := by rw [Nat.div_lt_iff_lt_mul hv.ang]; exact ho
    rw [binPoint_norm c hv b hb, binPoint_norm c hv o ho] at h1
    have h2 := (meanRad_range c hv _ hrb).2
    have h3 := (meanRad_range c hv _ hro).2
    rw [div_le_iff₀ (by positivity)]
    linarith
  · apply div_pos _ (by positivity)
    rw [norm_pos_iff, sub_ne_zero]
    exact fun h => hne (binPoint_inj c hv o b ho hb h).symm

/-- **C108 (costs with the lookup mask, refuted).** With absolute distances and angles, the bins without a cell of the mask are all placed at its corner: with one
ring, all costs are zero. -/
theorem emd_positive_refuted (c : Cfg) (hv : c.Valid) (habs : c.relative = false ∧ c.rot = false) (hR : c.R = 1) (outer : Nat) (b o : Nat) :
    emdCost c outer b o = some 0 := by
  obtain ⟨m, hm⟩ := LSS.mask_defined (outer * 2 + 1) c.R c.A true c.inner (by omega) hv.rad hv.ang hv.inner.le (Or.inl rfl)
  have hpt : ∀ b : Nat, maskPoint m (outer * 2 + 1) b = 0 := by
    intro b
    unfold maskPoint
    dsimp only
    rw [if_pos]
    rw [List.filter_eq_nil_iff]
    intro k hk
    rw [List.mem_range] at hk
    rw [decide_eq_true_eq]
    intro he
    have hpos : 0 < outer * 2 + 1 := by omega
    have hr : k / (outer * 2 + 1) < outer * 2 + 1 := by rw [Nat.div_lt_iff_lt_mul hpos]; exact hk
    have hc : k % (outer * 2 + 1) < outer * 2 + 1 := Nat.mod_lt _ hpos
    have hd := direct_one_ring_refuted c hv habs hR outer [] [] 0 0 ((k / (outer * 2 + 1) : Nat) - outer) ((k % (outer * 2 + 1) : Nat) - outer)
    obtain ⟨m', hm', he'⟩ := binOf_direct c hv habs outer [] [] 0 0 ((k / (outer * 2 + 1) : Nat) - outer) ((k % (outer * 2 + 1) : Nat) - outer)
    rw [hm] at hm'
    injection hm' with hm'
    subst hm'
    rw [he'] at hd
    generalize hq1 : k / (outer * 2 + 1) = q1 at *
    generalize hq2 : k % (outer * 2 + 1) = q2 at *
    have hk' : k = q1 * (outer * 2 + 1) + q2 := by rw [← hq1, ← hq2, Nat.div_add_mod']
    have e1 : ((q1 : Int) - outer - 0 + outer).toNat = q1 := by omega
    have e2 : ((q2 : Int) - outer - 0 + outer).toNat = q2 := by omega
    rw [e1, e2, if_pos (by rw [abs_le, abs_le]; omega), ← hk', he, if_neg (by omega)] at hd
    cases hd
  unfold emdCost
  rw [if_pos (by simp [habs.1, habs.2]), hm, Option.map_some, hpt, hpt, cost_norm]
  simp

end Litiv.SC
