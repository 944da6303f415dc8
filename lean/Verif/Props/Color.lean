import Verif.Lemmas.Color

/-!
# C81: HSL conversions
-/

namespace Litiv.Color

theorem sat_half (mx mn : ℚ) (h0 : 0 ≤ mn) (h1 : mx ≤ 1) (hd : mn < mx) :
    let l := (mx + mn) / 2
    let s := max 0 (min ((mx - mn) / (1 - |2 * l - 1|)) 1)
    (0 ≤ s ∧ s ≤ 1) ∧ s * min l (1 - l) = (mx - mn) / 2 := by
  intro l s
  have hm : 1 - |2 * l - 1| = 2 * min l (1 - l) := by
    rcases le_total l (1 / 2) with c | c
    · rw [abs_of_nonpos (by linarith), min_eq_left (by linarith)]; ring
    · rw [abs_of_nonneg (by linarith), min_eq_right (by linarith)]; ring
  have hl : l = (mx + mn) / 2 := rfl
  have hdm : mx - mn ≤ 2 * min l (1 - l) := by
    rcases le_total l (1 - l) with c | c
    · rw [min_eq_left c]; linarith
    · rw [min_eq_right c]; linarith
  have hpos : 0 < 2 * min l (1 - l) := by linarith
  have hs : s = (mx - mn) / (2 * min l (1 - l)) := by
    show max 0 (min ((mx - mn) / (1 - |2 * l - 1|)) 1) = _
    rw [hm, min_eq_left (by rw [div_le_one hpos]; exact hdm),
      max_eq_right (div_nonneg (by linarith) hpos.le)]
  refine ⟨⟨by rw [hs]; exact div_nonneg (by linarith) hpos.le,
    by rw [hs, div_le_one hpos]; exact hdm⟩, ?_⟩
  rw [hs]
  have : min l (1 - l) ≠ 0 := by intro h; rw [h] at hpos; simp at hpos
  field_simp

/-- the hue as a fraction of the circle and the profile at the three offsets -/
theorem hue_profile (b g r : ℚ) (hd : min r (min g b) < max r (max g b)) :
    let mx := max r (max g b)
    let mn := min r (min g b)
    let d := mx - mn
    let hue := (if mx = r then (g - b) / d + (if g < b then 6 else 0)
      else if mx = g then (b - r) / d + 2 else (r - g) / d + 4) * 60
    (0 ≤ hue ∧ hue < 360) ∧
    mn + d * T (hue / 360 + -(1 / 3)) = b ∧ mn + d * T (hue / 360 + 0) = g ∧
      mn + d * T (hue / 360 + 1 / 3) = r := by
  intro mx mn d hue
  have hdpos : 0 < d := by show 0 < mx - mn; linarith
  have mr : r ≤ mx := le_max_left _ _
  have mg : g ≤ mx := le_trans (le_max_left _ _) (le_max_right _ _)
  have mb : b ≤ mx := le_trans (le_max_right _ _) (le_max_right _ _)
  have nr : mn ≤ r := min_le_left _ _
  have ng : mn ≤ g := le_trans (min_le_right _ _) (min_le_left _ _)
  have nb : mn ≤ b := le_trans (min_le_right _ _) (min_le_right _ _)
  have hdd : d = mx - mn := rfl
  have wh : ∀ x, x - mn = d * ((x - mn) / d) := by
    intro x; field_simp
  have low := h2_low 0 1
  have top := h2_top 0 1
  have rise := h2_rise 0 1
  have fall := h2_fall 0 1
  have wrap0 := h2_wrap0 0 1
  have wrap1 := h2_wrap1 0 1
  simp only [zero_add, one_mul] at low top rise fall
  change ∀ t, _ → _ → T t = _ at low
  change ∀ t, _ → _ → T t = _ at top
  change ∀ u t, _ → _ → _ → T t = _ at rise
  change ∀ u t, _ → _ → _ → T t = _ at fall
  change ∀ t, _ → _ → T t = T (t + 1) at wrap0
  change ∀ t, _ → _ → T t = T (t - 1) at wrap1
  -- fractions of the range
  have fr : ∀ x, mn ≤ x → x ≤ mx → 0 ≤ (x - mn) / d ∧ (x - mn) / d ≤ 1 := by
    intro x a c
    exact ⟨div_nonneg (by linarith) hdpos.le, by rw [div_le_one hdpos]; linarith⟩
  by_cases cr : mx = r
  · by_cases cgb : g < b
    · -- red, minimum green
      have hn : mn = g := by
        show min r (min g b) = g
        rw [min_eq_left cgb.le, min_eq_right (by linarith)]
      have hh : hue = (6 - (b - mn) / d) * 60 := by
        show (if mx = r then _ else _) * 60 = _
        rw [if_pos cr, if_pos cgb, hn]
        ring
      have hu := fr b nb mb
      have hu0 : 0 < (b - mn) / d := div_pos (by linarith) hdpos
      set u := (b - mn) / d with hudef
      rw [hh]
      refine ⟨⟨by linarith, by linarith⟩, ?_, ?_, ?_⟩
      · rw [fall u _ (by ring) hu.1 hu.2]
        have := wh b
        rw [← hudef] at this
        linarith
      · rw [low _ (by linarith) (by linarith), hn]; ring
      · rw [wrap1 _ (by linarith) (by linarith), top _ (by linarith) (by linarith), ← cr]
        linarith
    · have hn : mn = b := by
        show min r (min g b) = b
        rw [min_eq_right (not_lt.mp cgb), min_eq_right (by linarith)]
      have hh : hue = (g - mn) / d * 60 := by
        show (if mx = r then _ else _) * 60 = _
        rw [if_pos cr, if_neg cgb, hn]
        ring
      have hu := fr g ng mg
      set u := (g - mn) / d with hudef
      have hg := wh g
      rw [← hudef] at hg
      rw [hh]
      refine ⟨⟨by linarith, by linarith⟩, ?_, ?_, ?_⟩
      · rw [wrap0 _ (by linarith) (by linarith), low _ (by linarith) (by linarith), hn]; ring
      · rw [rise u _ (by ring) hu.1 hu.2]
        linarith
      · rw [top _ (by linarith) (by linarith), ← cr]
        linarith
  · by_cases cg : mx = g
    · have hrg : r < g := lt_of_le_of_ne (by linarith) (fun h => cr (by rw [h]; exact cg))
      rcases lt_or_ge b r with cb | cb
      · -- green, minimum blue
        have hn : mn = b := by
          show min r (min g b) = b
          rw [min_eq_right (show b ≤ g by linarith), min_eq_right cb.le]
        have hh : hue = (2 - (r - mn) / d) * 60 := by
          show (if mx = r then _ else _) * 60 = _
          rw [if_neg cr, if_pos cg, hn]
          ring
        have hu := fr r nr mr
        set u := (r - mn) / d with hudef
        have hr := wh r
        rw [← hudef] at hr
        rw [hh]
        refine ⟨⟨by linarith, by linarith⟩, ?_, ?_, ?_⟩
        · rcases lt_or_ge ((2 - u) * 60 / 360 + -(1 / 3)) 0 with c | c
          · rw [wrap0 _ (by linarith) c, low _ (by linarith) (by linarith), hn]; ring
          · rw [rise ((2 - u) - 2) _ (by ring) (by linarith) (by linarith)]
            have : u = 0 := by linarith
            rw [this, hn]; ring
        · rw [top _ (by linarith) (by linarith), ← cg]
          linarith
        · rw [fall u _ (by ring) hu.1 hu.2]
          linarith
      · have hn : mn = r := by
          show min r (min g b) = r
          rw [min_eq_left]
          exact le_min hrg.le cb
        have hh : hue = ((b - mn) / d + 2) * 60 := by
          show (if mx = r then _ else _) * 60 = _
          rw [if_neg cr, if_pos cg, hn]
        have hu := fr b nb mb
        set u := (b - mn) / d with hudef
        have hb := wh b
        rw [← hudef] at hb
        rw [hh]
        refine ⟨⟨by linarith, by linarith⟩, ?_, ?_, ?_⟩
        · rw [rise u _ (by ring) hu.1 hu.2]
          linarith
        · rw [top _ (by linarith) (by linarith), ← cg]
          linarith
        · rw [low _ (by linarith) (by linarith), hn]; ring
    · have cb : mx = b := by
        rcases max_choice r (max g b) with h | h
        · exact absurd h cr
        · rcases max_choice g b with h' | h'
          · exact absurd (h.trans h') cg
          · exact h.trans h'
      rcases lt_or_ge r g with crg | crg
      · have hn : mn = r := by
          show min r (min g b) = r
          rw [min_eq_left]
          exact le_min crg.le (by linarith)
        have hh : hue = (4 - (g - mn) / d) * 60 := by
          show (if mx = r then _ else _) * 60 = _
          rw [if_neg cr, if_neg cg, hn]
          ring
        have hu := fr g ng mg
        set u := (g - mn) / d with hudef
        have hg := wh g
        rw [← hudef] at hg
        rw [hh]
        refine ⟨⟨by linarith, by linarith⟩, ?_, ?_, ?_⟩
        · rw [top _ (by linarith) (by linarith), ← cb]
          linarith
        · rw [fall u _ (by ring) hu.1 hu.2]
          linarith
        · rw [low _ (by linarith) (by linarith), hn]; ring
      · have hn : mn = g := by
          show min r (min g b) = g
          rw [min_eq_left (show g ≤ b by linarith), min_eq_right crg]
        have hh : hue = ((r - mn) / d + 4) * 60 := by
          show (if mx = r then _ else _) * 60 = _
          rw [if_neg cr, if_neg cg, hn]
        have hu := fr r nr mr
        have hu1 : (r - mn) / d < 1 := by
          rw [div_lt_one hdpos]
          have : r < mx := lt_of_le_of_ne mr (Ne.symm cr)
          linarith
        set u := (r - mn) / d with hudef
        have hr := wh r
        rw [← hudef] at hr
        rw [hh]
        refine ⟨⟨by linarith, by linarith⟩, ?_, ?_, ?_⟩
        · rw [top _ (by linarith) (by linarith), ← cb]
          linarith
        · rw [low _ (by linarith) (by linarith), hn]; ring
        · rcases lt_or_ge 1 ((u + 4) * 60 / 360 + 1 / 3) with c | c
          · rw [wrap1 _ c (by linarith), rise u _ (by ring) hu.1 hu.2]
            linarith
          · rw [low _ (by linarith) c]
            have : u = 0 := by linarith
            rw [this] at hr
            linarith

/-- C81: the HSL triplet of a colour is in the documented ranges, and determines the colour's
components exactly. -/
theorem hsl_exact (b g r : ℚ) (hb : 0 ≤ b ∧ b ≤ 1) (hg : 0 ≤ g ∧ g ≤ 1) (hr : 0 ≤ r ∧ r ≤ 1) :
    (0 ≤ (hslOf b g r).1 ∧ (hslOf b g r).1 < 360) ∧
    (0 ≤ (hslOf b g r).2.1 ∧ (hslOf b g r).2.1 ≤ 1) ∧
    (0 ≤ (hslOf b g r).2.2 ∧ (hslOf b g r).2.2 ≤ 1) ∧
    comp (hslOf b g r).1 (hslOf b g r).2.1 (hslOf b g r).2.2 (-(1 / 3)) = b ∧
    comp (hslOf b g r).1 (hslOf b g r).2.1 (hslOf b g r).2.2 0 = g ∧
    comp (hslOf b g r).1 (hslOf b g r).2.1 (hslOf b g r).2.2 (1 / 3) = r := by
  have mx1 : max r (max g b) ≤ 1 := max_le hr.2 (max_le hg.2 hb.2)
  have mn0 : 0 ≤ min r (min g b) := le_min hr.1 (le_min hg.1 hb.1)
  have mr : r ≤ max r (max g b) := le_max_left _ _
  have mg : g ≤ max r (max g b) := le_trans (le_max_left _ _) (le_max_right _ _)
  have mb : b ≤ max r (max g b) := le_trans (le_max_right _ _) (le_max_right _ _)
  have nr : min r (min g b) ≤ r := min_le_left _ _
  have ng : min r (min g b) ≤ g := le_trans (min_le_right _ _) (min_le_left _ _)
  have nb : min r (min g b) ≤ b := le_trans (min_le_right _ _) (min_le_right _ _)
  by_cases h : max r (max g b) = min r (min g b)
  · have e : hslOf b g r = (0, 0, (max r (max g b) + min r (min g b)) / 2) := by
      unfold hslOf
      dsimp only
      rw [if_pos h]
    rw [e]
    unfold comp
    dsimp only
    simp only [zero_mul, add_zero]
    refine ⟨⟨by norm_num, by norm_num⟩, ⟨by norm_num, by norm_num⟩, ⟨by linarith, by linarith⟩,
      by linarith, by linarith, by linarith⟩
  · have hd : min r (min g b) < max r (max g b) :=
      lt_of_le_of_ne (by linarith) (Ne.symm h)
    have h1 := hue_profile b g r hd
    have h2 := sat_half _ _ mn0 mx1 hd
    dsimp only at h1 h2
    unfold hslOf comp
    dsimp only
    rw [if_neg h]
    dsimp only
    rw [h2.2]
    refine ⟨h1.1, h2.1, ⟨by linarith, by linarith⟩, ?_, ?_, ?_⟩
    · have := h1.2.1
      linarith
    · have := h1.2.2.1
      linarith
    · have := h1.2.2.2
      linarith

theorem min_lip (l l' : ℚ) : |min l (1 - l) - min l' (1 - l')| ≤ |l - l'| := by
  rw [abs_le]
  have h1 := neg_abs_le (l - l')
  have h2 := le_abs_self (l - l')
  rcases le_total l (1 - l) with a | a <;> rcases le_total l' (1 - l') with c | c <;>
    simp only [min_eq_left, min_eq_right, a, c] <;> constructor <;> linarith

/-- the conversion depends continuously on its arguments -/
theorem comp_lip (hue s l hue' s' l' k : ℚ) (hk : -(1 / 3) ≤ k ∧ k ≤ 1 / 3)
    (hh : 0 ≤ hue ∧ hue ≤ 360) (hh' : 0 ≤ hue' ∧ hue' ≤ 360)
    (hs : 0 ≤ s ∧ s ≤ 1) (hl : 0 ≤ l ∧ l ≤ 1) (hs' : 0 ≤ s' ∧ s' ≤ 1) (hl' : 0 ≤ l' ∧ l' ≤ 1) :
    |comp hue' s' l' k - comp hue s l k| ≤ 2 * |l' - l| + |s' - s| / 2 + |hue' - hue| / 60 := by
  have t1 := T_range (hue / 360 + k) (by linarith) (by linarith)
  have t2 := T_range (hue' / 360 + k) (by linarith) (by linarith)
  have tl := T_lip (hue' / 360 + k) (hue / 360 + k) (by linarith) (by linarith) (by linarith)
    (by linarith)
  rw [show hue' / 360 + k - (hue / 360 + k) = (hue' - hue) / 360 by ring, abs_div,
    abs_of_pos (show (0 : ℚ) < 360 by norm_num)] at tl
  have ml := min_lip l' l
  have m0 : 0 ≤ min l (1 - l) ∧ min l (1 - l) ≤ 1 / 2 := by
    refine ⟨le_min hl.1 (by linarith), ?_⟩
    rcases le_total l (1 - l) with a | a
    · rw [min_eq_left a]; linarith
    · rw [min_eq_right a]; linarith
  have m0' : 0 ≤ min l' (1 - l') ∧ min l' (1 - l') ≤ 1 / 2 := by
    refine ⟨le_min hl'.1 (by linarith), ?_⟩
    rcases le_total l' (1 - l') with a | a
    · rw [min_eq_left a]; linarith
    · rw [min_eq_right a]; linarith
  unfold comp
  generalize T (hue / 360 + k) = t at *
  generalize T (hue' / 360 + k) = t' at *
  generalize min l (1 - l) = m at *
  generalize min l' (1 - l') = m' at *
  have e : l' + s' * m' * (2 * t' - 1) - (l + s * m * (2 * t - 1)) =
      (l' - l) + (s' - s) * (m' * (2 * t' - 1)) + s * (2 * t' - 1) * (m' - m) + s * m * 2 * (t' - t) := by
    ring
  rw [e]
  have a1 : |(s' - s) * (m' * (2 * t' - 1))| ≤ |s' - s| * (1 / 2) := by
    rw [abs_mul]
    apply mul_le_mul_of_nonneg_left _ (abs_nonneg _)
    rw [abs_mul, abs_of_nonneg m0'.1]
    have : |2 * t' - 1| ≤ 1 := by rw [abs_le]; constructor <;> linarith
    calc m' * |2 * t' - 1| ≤ 1 / 2 * 1 := mul_le_mul m0'.2 this (abs_nonneg _) (by norm_num)
      _ = 1 / 2 := by norm_num
  have a2 : |s * (2 * t' - 1) * (m' - m)| ≤ 1 * |l' - l| := by
    rw [abs_mul]
    apply mul_le_mul _ ml (abs_nonneg _) (by norm_num)
    rw [abs_mul, abs_of_nonneg hs.1]
    have : |2 * t' - 1| ≤ 1 := by rw [abs_le]; constructor <;> linarith
    calc s * |2 * t' - 1| ≤ 1 * 1 := mul_le_mul hs.2 this (abs_nonneg _) (by norm_num)
      _ = 1 := by norm_num
  have a3 : |s * m * 2 * (t' - t)| ≤ 1 * (6 * (|hue' - hue| / 360)) := by
    rw [abs_mul]
    apply mul_le_mul _ tl (abs_nonneg _) (by norm_num)
    rw [abs_of_nonneg (by have := mul_nonneg hs.1 m0.1; linarith)]
    have : s * m ≤ 1 * (1 / 2) := mul_le_mul hs.2 m0.2 m0.1 (by norm_num)
    linarith
  have b1 := abs_add_le ((l' - l) + (s' - s) * (m' * (2 * t' - 1)) + s * (2 * t' - 1) * (m' - m))
    (s * m * 2 * (t' - t))
  have b2 := abs_add_le ((l' - l) + (s' - s) * (m' * (2 * t' - 1))) (s * (2 * t' - 1) * (m' - m))
  have b3 := abs_add_le (l' - l) ((s' - s) * (m' * (2 * t' - 1)))
  linarith

/-- C81: every 8-bit colour is recovered from its HSL triplet, even if the triplet carries errors
(for instance of float storage) up to a bound far above float precision. -/
theorem hsl_roundtrip (b g r : Nat) (hb : b ≤ 255) (hg : g ≤ 255) (hr : r ≤ 255)
    (hue' s' l' : ℚ) (hh : 0 ≤ hue' ∧ hue' < 360) (hs : 0 ≤ s' ∧ s' ≤ 1) (hl : 0 ≤ l' ∧ l' ≤ 1)
    (herr : 2 * |l' - (toHSL b g r).2.2| + |s' - (toHSL b g r).2.1| / 2 +
      |hue' - (toHSL b g r).1| / 60 < 1 / 510) :
    toBGR hue' s' l' = ((b : Int), (g : Int), (r : Int)) := by
  have q : ∀ n : Nat, n ≤ 255 → (0 : ℚ) ≤ (n : ℚ) / 255 ∧ (n : ℚ) / 255 ≤ 1 := by
    intro n hn
    have : (n : ℚ) ≤ 255 := by exact_mod_cast hn
    refine ⟨by positivity, ?_⟩
    rw [div_le_one (by norm_num)]
    exact this
  obtain ⟨h1, h2, h3, e1, e2, e3⟩ := hsl_exact (b / 255) (g / 255) (r / 255) (q b hb) (q g hg) (q r hr)
  unfold toHSL at herr
  have key : ∀ (k : ℚ) (n : Nat), n ≤ 255 → -(1 / 3) ≤ k ∧ k ≤ 1 / 3 →
      comp (hslOf (b / 255) (g / 255) (r / 255)).1 (hslOf (b / 255) (g / 255) (r / 255)).2.1
        (hslOf (b / 255) (g / 255) (r / 255)).2.2 k = n / 255 →
      sat8 (round (comp hue' s' l' k * 255)) = n := by
    intro k n hn hk he
    have := comp_lip _ _ _ hue' s' l' k hk ⟨h1.1, h1.2.le⟩ ⟨hh.1, hh.2.le⟩ h2 h3 hs hl
    rw [he] at this
    apply round_255 n hn
    have h4 : |comp hue' s' l' k - n / 255| < 1 / 510 := lt_of_le_of_lt this herr
    rw [abs_lt] at h4 ⊢
    constructor <;> linarith [h4.1, h4.2]
  rw [toBGR_comp, key _ b hb ⟨by norm_num, by norm_num⟩ e1, key _ g hg ⟨by norm_num, by norm_num⟩ e2,
    key _ r hr ⟨by norm_num, by norm_num⟩ e3]

/-- C81: the exact round trip -/
theorem hsl_roundtrip_exact (b g r : Nat) (hb : b ≤ 255) (hg : g ≤ 255) (hr : r ≤ 255) :
    toBGR (toHSL b g r).1 (toHSL b g r).2.1 (toHSL b g r).2.2 = ((b : Int), (g : Int), (r : Int)) := by
  have q : ∀ n : Nat, n ≤ 255 → (0 : ℚ) ≤ (n : ℚ) / 255 ∧ (n : ℚ) / 255 ≤ 1 := by
    intro n hn
    have : (n : ℚ) ≤ 255 := by exact_mod_cast hn
    refine ⟨by positivity, ?_⟩
    rw [div_le_one (by norm_num)]
    exact this
  obtain ⟨h1, h2, h3, -⟩ := hsl_exact (b / 255) (g / 255) (r / 255) (q b hb) (q g hg) (q r hr)
  apply hsl_roundtrip b g r hb hg hr _ _ _ h1 h2 h3
  simp [toHSL]

/-- non-vacuity: an orange with a rounded triplet -/
example : toHSL 30 120 200 = (540 / 17, 17 / 23, 23 / 51) ∧
    toBGR (3176 / 100) (739 / 1000) (451 / 1000) = (30, 120, 200) := by decide +kernel

end Litiv.Color
