import Verif.Lemmas.PawcsFeed
import Verif.Spec.Pawcs

/-!
# Properties of the adaptation and of the frame-level analysis of PAWCS
-/

namespace Litiv.PawcsFeed
open IEEE Spec
open SubSense (consts mean meanRaw finalMean stepDist rd0 rd1 rd_nonneg rd_le_one rd_le_nat rVar_nonneg)

/-! ## C128: the adaptive values -/

theorem FbOk.inRange {rd : ℚ → ℚ} {b : Fb} (h : FbOk rd b) : InRange (rd (1 / 10)) b := by
  refine ⟨h.rate, h.dist, h.var, ?_⟩
  intro a ha
  simp only [List.mem_cons, List.not_mem_nil, or_false] at ha
  rcases ha with rfl | rfl | rfl | rfl | rfl | rfl
  · exact h.dLT
  · exact h.dST
  · exact h.rawLT
  · exact h.rawST
  · exact h.finLT
  · exact h.finST

/-- C128: after every history of a pixel, computed with `float` rounding, its adaptive values are in their ranges. Missing: the distance
factor has no upper bound, and after more than 2881 frames the descriptor threshold can be undefined (it does happen:
`dist_shift_refuted`). -/
theorem ranges_partial {rd : ℚ → ℚ} (H : Rounds rd) (P : Par) (hN : 8 ≤ P.N) (os : List Obs) (hos : ∀ o ∈ os, Sane rd P o) :
    (∃ b, feed rd P os = some b ∧ InRange (rd (1 / 10)) b) ∨ (feed rd P os = none ∧ 2881 < os.length) := by
  rcases feed_spec H hN os hos with h | ⟨b, h1, h2⟩
  · exact Or.inr h
  · exact Or.inl ⟨b, h1, h2.inRange⟩

/-- A pixel that is matched by words at a descriptor distance of 2, and blinks. -/
def near2 : Obs := ⟨0, 2, 1, 1, false, false, false, false, true, 0, false⟩

/-- A pixel whose words are as far as possible, and blinks. -/
def far16 : Obs := ⟨0, 16, 1, 1, false, false, false, false, true, 0, false⟩

/-- The default averaging window, one channel. -/
def gray : Par := ⟨100, 255, 16⟩

theorem near2_sane : Sane float32 gray near2 := ⟨by decide, by decide, by norm_num [near2], by decide +kernel⟩
theorem far16_sane : Sane float32 gray far16 := ⟨by decide, by decide, by norm_num [far16], by decide +kernel⟩

example : ∃ b, feed float32 gray [near2, far16, near2] = some b ∧ InRange (float32 (1 / 10)) b := by
  rcases ranges_partial float32_rounds gray (by decide) [near2, far16, near2] (by
    intro o ho
    simp only [List.mem_cons, List.not_mem_nil, or_false] at ho
    rcases ho with rfl | rfl | rfl
    · exact near2_sane
    · exact far16_sane
    · exact near2_sane) with h | ⟨-, h⟩
  · exact h
  · exact absurd h (by decide)

/-- C128: the directions of the adaptation. The frame leads from `b` to `b'`. The update rate rises for a pixel whose last label was
foreground and falls for a pixel that was background and is matched now; the variation factor rises if and only if the pixel
blinks and is not close to its model; the distance factor rises if it is less than the square of one plus twice the smaller
average distance; and a reset sets the update rate to 1. -/
theorem directions {rd : ℚ → ℚ} (H : Rounds rd) (P : Par) (hN : 8 ≤ P.N) (os : List Obs) (hos : ∀ o ∈ os, Sane rd P o) (o : Obs) (ho : Sane rd P o)
    (b b' : Fb) (e : feed rd P os = some b) (e' : feed rd P (os ++ [o]) = some b') :
    (o.reset = true → b'.T = 1) ∧
    (o.reset = false → o.lastFG = true → b.T ≤ b'.T) ∧
    (o.reset = false → o.lastFG = false → o.thr ≤ o.sum → b'.T ≤ b.T) ∧
    (o.blink = true ∧ rd (1 / 10) < max b'.dLT b'.dST → b.v ≤ b'.v) ∧
    (¬ (o.blink = true ∧ rd (1 / 10) < max b'.dLT b'.dST) → b'.v ≤ b.v) ∧
    (b.R < (rd (1 + rd (min b'.dLT b'.dST * 2))) ^ 2 → b.R ≤ b'.R) ∧
    (¬ b.R < (rd (1 + rd (min b'.dLT b'.dST * 2))) ^ 2 → b'.R ≤ b.R) := by
  have hb : FbOk rd b := by
    rcases feed_spec H hN os hos with ⟨h, -⟩ | ⟨b2, h1, h2⟩
    · rw [h] at e; exact absurd e (by simp)
    · rw [h1] at e; cases Option.some.inj e; exact h2
  rw [feed_snoc, e] at e'
  have hp := samplesLT_pos hN (os.length + 1)
  obtain ⟨fLT, e1, h1⟩ := factor_spec H (min (os.length + 1) (samplesLT P.N (os.length + 1))) (by omega)
  obtain ⟨fST, e2, h2⟩ := factor_spec H (min (os.length + 1) (samplesLT P.N (os.length + 1) / 4)) (by omega)
  change step rd P (os.length + 1) b o = some b' at e'
  unfold step at e'
  rw [e1, e2] at e'
  cases hd : descThr rd 0 b with
  | none => rw [hd] at e'; exact absurd e' (by simp)
  | some n =>
    rw [hd] at e'
    have hba := averages_ok H ho h1 h2 hb
    dsimp only at e'
    generalize hB : averages rd P fLT fST o b = B at e' hba
    have hBT : B.T = b.T ∧ B.R = b.R ∧ B.v = b.v := by rw [← hB]; exact ⟨rfl, rfl, rfl⟩
    have := Option.some.inj e'
    subst this
    obtain ⟨-, -, r1, r2⟩ := stepRate_spec H o hba
    obtain ⟨v0, -, v1, v2⟩ := stepVar_spec H (decide (os.length + 1 ≤ 500)) o hba
    obtain ⟨d1, d2⟩ := stepDist_dir H (mn := min B.dLT B.dST) (v := stepVar rd (decide (os.length + 1 ≤ 500)) o B) hba.distR hba.dist v0
    rw [hBT.1] at r1 r2
    rw [hBT.2.2] at v1 v2
    rw [hBT.2.1] at d1 d2
    refine ⟨?_, ?_, ?_, ?_, ?_, ?_, ?_⟩
    · intro h; dsimp only; rw [if_pos h]
    · intro h hf
      show b.T ≤ if o.reset = true then 1 else stepRate rd o B
      rw [if_neg (by rw [h]; simp)]
      exact r1 (Or.inl hf)
    · intro h hf hs
      show (if o.reset = true then 1 else stepRate rd o B) ≤ b.T
      rw [if_neg (by rw [h]; simp)]
      refine r2 ?_
      rintro (h' | ⟨-, h'⟩)
      · rw [hf] at h'; exact absurd h' (by simp)
      · unfold label isBG at h'
        rw [decide_eq_true hs] at h'
        exact absurd h' (by simp)
    · intro h; exact v1 ⟨h.2, h.1⟩
    · intro h; exact v2 (fun h' => h ⟨h'.2, h'.1⟩)
    · intro h
      show b.R ≤ stepDist rd (min B.dLT B.dST) (stepVar rd (decide (os.length + 1 ≤ 500)) o B) B.R
      rw [hBT.2.1]; exact d1 h
    · intro h
      show stepDist rd (min B.dLT B.dST) (stepVar rd (decide (os.length + 1 ≤ 500)) o B) B.R ≤ b.R
      rw [hBT.2.1]; exact d2 h

example : ∃ b b', feed float32 gray [near2] = some b ∧ feed float32 gray [near2, far16] = some b' ∧ b.v < b'.v ∧ b.R < b'.R ∧ b'.T = 1 := by
  have h1 : (feed float32 gray [near2]).isSome = true := by decide +kernel
  have h2 : (feed float32 gray [near2, far16]).isSome = true := by decide +kernel
  obtain ⟨b, e⟩ := Option.isSome_iff_exists.1 h1
  obtain ⟨b', e'⟩ := Option.isSome_iff_exists.1 h2
  have key : (feed float32 gray [near2]).bind (fun b => (feed float32 gray [near2, far16]).map fun b' => decide (b.v < b'.v ∧ b.R < b'.R ∧ b'.T = 1)) = some true := by
    decide +kernel
  rw [e, e'] at key
  exact ⟨b, b', e, e', of_decide_eq_true (Option.some.inj key)⟩

/-- C128: what the averages of the raw labels and the unstable flag follow. Let `n` be the number of frames averaged so far. A pixel matched by its
words (or at the border) leaves the averages at no more than 1 - 1/n, a pixel that is not at no less than 1/n (up to rounding). The flag is set if and only
if the distance factor was above three, or an average of the raw labels exceeds the one of the final labels by more than a tenth. -/
theorem raw_follow {rd : ℚ → ℚ} (H : Rounds rd) (P : Par) (hN : 8 ≤ P.N) (os : List Obs) (hos : ∀ o ∈ os, Sane rd P o) (o : Obs) (ho : Sane rd P o)
    (b b' : Fb) (e : feed rd P os = some b) (e' : feed rd P (os ++ [o]) = some b') :
    (∀ W n : Nat, W = (if os.length + 1 ≤ 500 then P.N / 2 else P.N) → n = min (os.length + 1) W →
      (o.thr ≤ o.sum ∨ o.border = true → b'.rawLT ≤ rd (1 - rd (1 / n))) ∧ (¬ (o.thr ≤ o.sum ∨ o.border = true) → rd (1 / n) ≤ b'.rawLT)) ∧
    (∀ W n : Nat, W = (if os.length + 1 ≤ 500 then P.N / 2 else P.N) → n = min (os.length + 1) (W / 4) →
      (o.thr ≤ o.sum ∨ o.border = true → b'.rawST ≤ rd (1 - rd (1 / n))) ∧ (¬ (o.thr ≤ o.sum ∨ o.border = true) → rd (1 / n) ≤ b'.rawST)) ∧
    (b'.unstable = true ↔ 3 < b.R ∨ rd (1 / 10) < rd (b'.rawLT - b.finLT) ∨ rd (1 / 10) < rd (b'.rawST - b.finST)) := by
  have hb : FbOk rd b := by
    rcases feed_spec H hN os hos with ⟨h, -⟩ | ⟨b2, h1, h2⟩
    · rw [h] at e; exact absurd e (by simp)
    · rw [h1] at e; cases Option.some.inj e; exact h2
  rw [feed_snoc, e] at e'
  have hp := samplesLT_pos hN (os.length + 1)
  have hfac : ∀ n, 0 < n → factor rd n = some (rd (1 / n)) ∧ SubSense.Factor rd (rd (1 / n)) := by
    intro n hn
    obtain ⟨f, h1, h2⟩ := factor_spec H n hn
    have : factor rd n = some (rd (1 / n)) := if_neg (by omega)
    rw [this] at h1
    cases Option.some.inj h1
    exact ⟨this, h2⟩
  obtain ⟨e1, h1⟩ := hfac (min (os.length + 1) (samplesLT P.N (os.length + 1))) (by omega)
  obtain ⟨e2, h2⟩ := hfac (min (os.length + 1) (samplesLT P.N (os.length + 1) / 4)) (by omega)
  have hmr : ∀ f a : ℚ, SubSense.Factor rd f → SubSense.Unit a → ((o.thr ≤ o.sum ∨ o.border = true → meanRaw rd f a (!isBG o) ≤ rd (1 - f)) ∧
      (¬ (o.thr ≤ o.sum ∨ o.border = true) → f ≤ meanRaw rd f a (!isBG o))) := by
    intro f a hf ha
    obtain ⟨g1, g2⟩ := SubSense.mul_rd_le H hf ha
    have hbg : isBG o = true ↔ o.thr ≤ o.sum ∨ o.border = true := by simp [isBG]
    constructor
    · intro h
      rw [hbg.2 h]
      exact g2
    · intro h
      have : isBG o = false := by
        cases hc : isBG o with
        | false => rfl
        | true => exact absurd (hbg.1 hc) h
      rw [this]
      show f ≤ rd (rd (a * rd (1 - f)) + f)
      have := H.mono f (rd (a * rd (1 - f)) + f) (by linarith)
      rwa [hf.rep] at this
  change step rd P (os.length + 1) b o = some b' at e'
  unfold step at e'
  rw [e1, e2] at e'
  cases hd : descThr rd 0 b with
  | none => rw [hd] at e'; exact absurd e' (by simp)
  | some n =>
    rw [hd] at e'
    dsimp only at e'
    have := Option.some.inj e'
    subst this
    refine ⟨?_, ?_, ?_⟩
    · rintro W n rfl rfl
      exact hmr _ _ h1 hb.rawLT
    · rintro W n rfl rfl
      exact hmr _ _ h2 hb.rawST
    · show unstableNow rd _ = true ↔ _
      unfold unstableNow
      rw [decide_eq_true_iff]
      exact Iff.rfl

example (b b' : Fb) (e : feed float32 gray [near2] = some b) (e' : feed float32 gray [near2, far16] = some b') : b'.rawLT ≤ float32 (1 - float32 (1 / (2 : Nat))) :=
  ((raw_follow float32_rounds gray (by decide) [near2] (by
    intro o ho
    rw [List.mem_singleton.1 ho]
    exact near2_sane) far16 far16_sane b b' e e').1 50 2 rfl rfl).1 (Or.inl (by norm_num [far16]))

/-- C128, refuted part: with an averaging window of fewer than eight frames, accepted by the constructor, the first frame divides by zero. -/
theorem short_window_refuted (rd : ℚ → ℚ) (P : Par) (hN : P.N < 8) (o : Obs) (os : List Obs) : feed rd P (o :: os) = none := by
  have h : factor rd (min 1 (samplesLT P.N 1 / 4)) = none := by
    unfold factor samplesLT
    rw [if_pos (by rw [if_pos (by norm_num)]; omega)]
  have hs : step rd P 1 Fb.init o = none := by
    unfold step
    rw [h]
    cases descThr rd 0 Fb.init <;> cases factor rd (min 1 (samplesLT P.N 1)) <;> rfl
  unfold feed feedFrom
  rw [hs]

/-- A pixel with a constant distance average of 1/8 that blinks for `k` frames: variation factor. -/
def varAt (k : Nat) : Nat := 10 + (k + min k 500)

/-- A lower bound of its distance factor, in units of `2^-16`. -/
def distAt (k : Nat) : Nat := 131072 - (64 * min k 64 + 8 * (min k 500 - 64) + (k - 500))

theorem distAt_ge (k : Nat) (hk : k ≤ 5890) : 117000 ≤ distAt k := by unfold distAt; omega

/-- A whole number of `2^-16`. -/
theorem float32_unit (n : Nat) (hn : n ≤ 2 ^ 24) : float32 ((n : ℚ) / 65536) = (n : ℚ) / 65536 := by
  have := fl_exact 24 (by norm_num) n (-16) (by rw [abs_of_nonneg (by positivity)]; exact_mod_cast hn)
  unfold float32
  rw [show ((n : ℚ) / 65536) = (((n : Int) : ℚ) * (2 : ℚ) ^ (-16 : Int)) by rw [zpow_neg]; norm_num [div_eq_mul_inv]]
  exact this

theorem near2_step (k : Nat) (hk : k < 5890) (b : Fb) (hv : b.v = varAt k) (hL : b.dLT = if k = 0 then 0 else 1 / 8) (hS : b.dST = if k = 0 then 0 else 1 / 8)
    (hR1 : (distAt k : ℚ) / 65536 ≤ b.R) (hR2 : b.R ≤ 2) :
    ∃ b', step float32 gray (k + 1) b near2 = some b' ∧ b'.v = varAt (k + 1) ∧ b'.dLT = 1 / 8 ∧ b'.dST = 1 / 8 ∧
      (distAt (k + 1) : ℚ) / 65536 ≤ b'.R ∧ b'.R ≤ 2 := by
  have H := float32_rounds
  obtain ⟨n, hn⟩ := descThr_some H 0 (b := b) (by linarith)
  have hnd : normDist float32 gray near2 = 1 / 8 := by decide +kernel
  have hmean : ∀ n : Nat, 0 < n → n ≤ 100 → (k = 0 → n = 1) → mean float32 (float32 (1 / n)) (if k = 0 then 0 else 1 / 8) (1 / 8) = 1 / 8 := by
    intro n h1 h2 h3
    by_cases h : k = 0
    · rw [if_pos h, h3 h]
      decide +kernel
    · rw [if_neg h]
      have key : ∀ n < 100, mean float32 (float32 (1 / ((n + 1 : Nat) : ℚ))) (1 / 8) (1 / 8) = 1 / 8 := by decide +kernel
      have := key (n - 1) (by omega)
      rwa [show n - 1 + 1 = n by omega] at this
  have hs : 50 ≤ samplesLT gray.N (k + 1) ∧ samplesLT gray.N (k + 1) ≤ 100 := by
    unfold samplesLT gray
    split_ifs <;> decide
  unfold step
  rw [hn]
  unfold factor
  rw [if_neg (by omega), if_neg (by omega)]
  dsimp only
  refine ⟨_, rfl, ?_⟩
  dsimp only
  have hA : averages float32 gray (float32 (1 / (min (k + 1) (samplesLT gray.N (k + 1)) : Nat))) (float32 (1 / (min (k + 1) (samplesLT gray.N (k + 1) / 4) : Nat))) near2 b =
      { b with dLT := 1 / 8, dST := 1 / 8, rawLT := (averages float32 gray (float32 (1 / (min (k + 1) (samplesLT gray.N (k + 1)) : Nat))) (float32 (1 / (min (k + 1) (samplesLT gray.N (k + 1) / 4) : Nat))) near2 b).rawLT,
               rawST := (averages float32 gray (float32 (1 / (min (k + 1) (samplesLT gray.N (k + 1)) : Nat))) (float32 (1 / (min (k + 1) (samplesLT gray.N (k + 1) / 4) : Nat))) near2 b).rawST } := by
    unfold averages
    rw [hnd, hL, hS, hmean _ (by omega) (by omega) (by omega), hmean _ (by omega) (by omega) (by omega)]
  rw [hA]
  generalize (averages float32 gray (float32 (1 / (min (k + 1) (samplesLT gray.N (k + 1)) : Nat))) (float32 (1 / (min (k + 1) (samplesLT gray.N (k + 1) / 4) : Nat))) near2 b).rawLT = q1
  generalize (averages float32 gray (float32 (1 / (min (k + 1) (samplesLT gray.N (k + 1)) : Nat))) (float32 (1 / (min (k + 1) (samplesLT gray.N (k + 1) / 4) : Nat))) near2 b).rawST = q2
  have hvar : stepVar float32 (decide (k + 1 ≤ 500)) near2 { b with dLT := 1 / 8, dST := 1 / 8, rawLT := q1, rawST := q2 } = varAt (k + 1) := by
    unfold stepVar
    rw [if_pos ⟨by rw [max_self]; show (consts float32).ratioMin < 1 / 8; decide +kernel, rfl⟩]
    dsimp only
    rw [hv]
    have : ((varAt k : Nat) : ℚ) + (if decide (k + 1 ≤ 500) = true then 2 else 1) = ((varAt (k + 1) : Nat) : ℚ) := by
      unfold varAt
      by_cases h : k + 1 ≤ 500
      · rw [decide_eq_true h, if_pos rfl, show 10 + (k + 1 + min (k + 1) 500) = 10 + (k + min k 500) + 2 by omega]; push_cast; ring
      · rw [decide_eq_false h, if_neg (by simp), show 10 + (k + 1 + min (k + 1) 500) = 10 + (k + min k 500) + 1 by omega]; push_cast; ring
    rw [this]
    exact H.nat _ (by unfold varAt; omega)
  have hdist := distAt_ge k (by omega)
  have hdist' := distAt_ge (k + 1) (by omega)
  have hlow : (117000 : ℚ) / 65536 ≤ b.R := le_trans (by have : (117000 : ℚ) ≤ distAt k := by exact_mod_cast hdist
                                                         linarith) hR1
  have hRR : (distAt (k + 1) : ℚ) / 65536 ≤ stepDist float32 (1 / 8) (varAt (k + 1)) b.R ∧ stepDist float32 (1 / 8) (varAt (k + 1)) b.R ≤ 2 := by
    have hsq : ¬ b.R < (float32 (1 + float32 (1 / 8 * 2))) ^ 2 := by
      have : (float32 (1 + float32 (1 / 8 * 2))) ^ 2 ≤ 117000 / 65536 := by decide +kernel
      linarith
    -- the decrement
    obtain ⟨d, hd1, hd2, hd3⟩ : ∃ d : Nat, distAt (k + 1) + d = distAt k ∧ d ≤ 64 ∧ (consts float32).rVar / (varAt (k + 1) : ℚ) ≤ (d : ℚ) / 65536 := by
      have hr : (consts float32).rVar ≤ 1001 / 100000 := by decide +kernel
      have hq : ∀ d V : Nat, 0 < V → 1001 * 65536 ≤ d * V * 100000 → V ≤ varAt (k + 1) → (consts float32).rVar / (varAt (k + 1) : ℚ) ≤ (d : ℚ) / 65536 := by
        intro d V h0 h1 h2
        have h2' : (V : ℚ) ≤ varAt (k + 1) := by exact_mod_cast h2
        have h0' : (0 : ℚ) < V := by exact_mod_cast h0
        have h1' : (1001 : ℚ) * 65536 ≤ d * V * 100000 := by exact_mod_cast h1
        rw [div_le_div_iff₀ (by linarith) (by norm_num)]
        have : (d : ℚ) * V ≤ d * (varAt (k + 1) : ℚ) := mul_le_mul_of_nonneg_left h2' (Nat.cast_nonneg _)
        linarith
      by_cases h1 : k < 64
      · exact ⟨64, by unfold distAt; omega, le_rfl, hq 64 12 (by norm_num) (by norm_num) (by unfold varAt; omega)⟩
      · by_cases h2 : k < 500
        · exact ⟨8, by unfold distAt; omega, by norm_num, hq 8 130 (by norm_num) (by norm_num) (by unfold varAt; omega)⟩
        · exact ⟨1, by unfold distAt; omega, by norm_num, hq 1 1000 (by norm_num) (by norm_num) (by unfold varAt; omega)⟩
    have hdec : float32 ((consts float32).rVar / (varAt (k + 1) : ℚ)) ≤ (d : ℚ) / 65536 := by
      have := H.mono _ _ hd3
      rwa [float32_unit d (by omega)] at this
    have hdec0 : 0 ≤ float32 ((consts float32).rVar / (varAt (k + 1) : ℚ)) := rd_nonneg H (div_nonneg (rVar_nonneg H) (Nat.cast_nonneg _))
    have hge : (distAt (k + 1) : ℚ) / 65536 ≤ float32 (b.R - float32 ((consts float32).rVar / (varAt (k + 1) : ℚ))) := by
      have h3 : (distAt (k + 1) : ℚ) / 65536 ≤ b.R - float32 ((consts float32).rVar / (varAt (k + 1) : ℚ)) := by
        have : ((distAt (k + 1) : ℚ) + d) = distAt k := by exact_mod_cast hd1
        have h4 : (distAt (k + 1) : ℚ) / 65536 + (d : ℚ) / 65536 = (distAt k : ℚ) / 65536 := by rw [← add_div, this]
        linarith
      have := H.mono _ _ h3
      rwa [float32_unit _ (by unfold distAt; omega)] at this
    have hle : float32 (b.R - float32 ((consts float32).rVar / (varAt (k + 1) : ℚ))) ≤ 2 := by
      have := rd_le_nat H 2 (by norm_num) (x := b.R - float32 ((consts float32).rVar / (varAt (k + 1) : ℚ))) (by push_cast; linarith)
      exact_mod_cast this
    have h117 : (117000 : ℚ) ≤ distAt (k + 1) := by exact_mod_cast hdist'
    unfold stepDist
    rw [if_neg hsq, if_neg (by linarith)]
    exact ⟨hge, hle⟩
  refine ⟨hvar, rfl, rfl, ?_, ?_⟩
  · show (distAt (k + 1) : ℚ) / 65536 ≤ stepDist float32 (min (1 / 8) (1 / 8)) _ b.R
    rw [hvar, min_self]; exact hRR.1
  · show stepDist float32 (min (1 / 8) (1 / 8)) _ b.R ≤ 2
    rw [hvar, min_self]; exact hRR.2

theorem near2_feed (k : Nat) (hk : k ≤ 5890) : ∃ b, feed float32 gray (List.replicate k near2) = some b ∧ b.v = varAt k ∧
    b.dLT = (if k = 0 then 0 else 1 / 8) ∧ b.dST = (if k = 0 then 0 else 1 / 8) ∧ (distAt k : ℚ) / 65536 ≤ b.R ∧ b.R ≤ 2 := by
  induction k with
  | zero =>
    refine ⟨Fb.init, rfl, ?_, rfl, rfl, ?_, ?_⟩
    · norm_num [Fb.init, varAt]
    · have : distAt 0 = 131072 := by decide
      rw [this]
      norm_num [Fb.init]
    · norm_num [Fb.init]
  | succ k ih =>
    obtain ⟨b, e, h1, h2, h3, h4, h5⟩ := ih (by omega)
    obtain ⟨b', e', g1, g2, g3, g4, g5⟩ := near2_step k (by omega) b h1 h2 h3 h4 h5
    refine ⟨b', ?_, g1, by rw [if_neg (by omega)]; exact g2, by rw [if_neg (by omega)]; exact g3, g4, g5⟩
    rw [List.replicate_succ', feed_snoc, e, List.length_replicate]
    exact e'

/-- The averages while the distance is 1. -/
def avgLT (j : Nat) : ℚ := (fun m => mean float32 (float32 (1 / (100 : Nat))) m 1)^[j] (1 / 8)
def avgST (j : Nat) : ℚ := (fun m => mean float32 (float32 (1 / (25 : Nat))) m 1)^[j] (1 / 8)

theorem far16_feed (K : Nat) (hK : K = 5890) (j : Nat) (hj : j ≤ 11) : feed float32 gray (List.replicate K near2 ++ List.replicate j far16) = none ∨
    ∃ b, feed float32 gray (List.replicate K near2 ++ List.replicate j far16) = some b ∧
      (64 ≤ b.R ∨ (j < 11 ∧ 1 ≤ b.R ∧ b.R ≤ 2 ∧ b.v = varAt (K + j) ∧ b.dLT = avgLT j ∧ b.dST = avgST j)) := by
  have H := float32_rounds
  induction j with
  | zero =>
    obtain ⟨b, e, h1, h2, h3, h4, h5⟩ := near2_feed K (by omega)
    right
    rw [if_neg (by omega)] at h2 h3
    refine ⟨b, by rw [List.replicate_zero, List.append_nil]; exact e, Or.inr ⟨by norm_num, ?_, h5, h1, h2, h3⟩⟩
    refine le_trans ?_ h4
    have : (117000 : ℚ) ≤ distAt K := by exact_mod_cast distAt_ge K (by omega)
    linarith
  | succ j ih =>
    rw [List.replicate_succ' (n := j), ← List.append_assoc, feed_snoc]
    have hlen : (List.replicate K near2 ++ List.replicate j far16).length = K + j := by simp
    rw [hlen]
    rcases ih (by omega) with h | ⟨b, e, h⟩
    · left; rw [h]; rfl
    · rw [e]
      show step float32 gray (K + j + 1) b far16 = none ∨ ∃ b', step float32 gray (K + j + 1) b far16 = some b' ∧ _
      rcases h with h | ⟨-, hR1, hR2, hv, hL, hS⟩
      · left
        unfold step
        have : descThr float32 0 b = none := by
          unfold descThr
          rw [if_pos]
          have h1 : float32 (64 : ℚ) ≤ float32 (b.R + 1 / 2) := H.mono _ _ (by linarith)
          rw [show (64 : ℚ) = ((64 : Nat) : ℚ) by norm_num, H.nat 64 (by norm_num)] at h1
          exact Int.le_floor.2 (by exact_mod_cast h1)
        rw [this]
      · right
        obtain ⟨n, hn⟩ := descThr_some H 0 (b := b) (by linarith)
        have hsm : samplesLT gray.N (K + j + 1) = 100 := by unfold samplesLT gray; rw [if_neg (by omega)]
        have hnd : normDist float32 gray far16 = 1 := by decide +kernel
        have hA : averages float32 gray (float32 (1 / (100 : Nat))) (float32 (1 / (25 : Nat))) far16 b =
            { b with dLT := avgLT (j + 1), dST := avgST (j + 1), rawLT := (averages float32 gray (float32 (1 / (100 : Nat))) (float32 (1 / (25 : Nat))) far16 b).rawLT,
                     rawST := (averages float32 gray (float32 (1 / (100 : Nat))) (float32 (1 / (25 : Nat))) far16 b).rawST } := by
          have e1 : avgLT (j + 1) = mean float32 (float32 (1 / (100 : Nat))) (avgLT j) 1 := by unfold avgLT; rw [Function.iterate_succ_apply']
          have e2 : avgST (j + 1) = mean float32 (float32 (1 / (25 : Nat))) (avgST j) 1 := by unfold avgST; rw [Function.iterate_succ_apply']
          unfold averages
          rw [hnd, hL, hS, e1, e2]
        unfold step
        rw [hn, hsm, show min (K + j + 1) 100 = 100 by omega, show min (K + j + 1) (100 / 4) = 25 by omega]
        unfold factor
        rw [if_neg (by norm_num), if_neg (by norm_num)]
        dsimp only
        rw [hA]
        generalize (averages float32 gray (float32 (1 / (100 : Nat))) (float32 (1 / (25 : Nat))) far16 b).rawLT = q1
        generalize (averages float32 gray (float32 (1 / (100 : Nat))) (float32 (1 / (25 : Nat))) far16 b).rawST = q2
        have hfin : ∀ j < 11, (consts float32).ratioMin < max (avgLT (j + 1)) (avgST (j + 1)) := by decide +kernel
        have hvar : stepVar float32 (decide (K + j + 1 ≤ 500)) far16 { b with dLT := avgLT (j + 1), dST := avgST (j + 1), rawLT := q1, rawST := q2 } = varAt (K + (j + 1)) := by
          unfold stepVar
          rw [if_pos ⟨hfin j (by omega), rfl⟩, decide_eq_false (by omega), if_neg (by simp)]
          dsimp only
          rw [hv, show ((varAt (K + j) : Nat) : ℚ) + 1 = ((varAt (K + (j + 1)) : Nat) : ℚ) by
            unfold varAt
            rw [show 10 + (K + (j + 1) + min (K + (j + 1)) 500) = 10 + (K + j + min (K + j) 500) + 1 by omega]; push_cast; ring]
          exact H.nat _ (by unfold varAt; omega)
        refine ⟨_, rfl, ?_⟩
        show 64 ≤ stepDist float32 (min (avgLT (j + 1)) (avgST (j + 1))) (stepVar float32 (decide (K + j + 1 ≤ 500)) far16 { b with dLT := avgLT (j + 1), dST := avgST (j + 1), rawLT := q1, rawST := q2 }) b.R ∨
          (j + 1 < 11 ∧ 1 ≤ stepDist float32 (min (avgLT (j + 1)) (avgST (j + 1))) (stepVar float32 (decide (K + j + 1 ≤ 500)) far16 { b with dLT := avgLT (j + 1), dST := avgST (j + 1), rawLT := q1, rawST := q2 }) b.R ∧
            stepDist float32 (min (avgLT (j + 1)) (avgST (j + 1))) (stepVar float32 (decide (K + j + 1 ≤ 500)) far16 { b with dLT := avgLT (j + 1), dST := avgST (j + 1), rawLT := q1, rawST := q2 }) b.R ≤ 2 ∧
            stepVar float32 (decide (K + j + 1 ≤ 500)) far16 { b with dLT := avgLT (j + 1), dST := avgST (j + 1), rawLT := q1, rawST := q2 } = varAt (K + (j + 1)) ∧ _ = avgLT (j + 1) ∧ _ = avgST (j + 1))
        rw [hvar]
        unfold stepDist
        by_cases hc : b.R < (float32 (1 + float32 (min (avgLT (j + 1)) (avgST (j + 1)) * 2))) ^ 2
        · left
          rw [if_pos hc]
          have hb : (64 : ℚ) ≤ float32 (1 + float32 ((consts float32).rVar * float32 ((6400 : ℚ) - (consts float32).vDecr))) := by decide +kernel
          have hge : (6400 : ℚ) ≤ varAt (K + (j + 1)) := by
            have : 6400 ≤ varAt (K + (j + 1)) := by unfold varAt; omega
            exact_mod_cast this
          refine hb.trans (H.mono _ _ (add_le_add hR1 (H.mono _ _ (mul_le_mul_of_nonneg_left (H.mono _ _ (by linarith)) (rVar_nonneg H)))))
        · right
          rw [if_neg hc]
          have h10 : j + 1 < 11 := by
            by_contra hj11
            have : j = 10 := by omega
            subst this
            apply hc
            have : (2 : ℚ) < (float32 (1 + float32 (min (avgLT (10 + 1)) (avgST (10 + 1)) * 2))) ^ 2 := by decide +kernel
            linarith
          have h0 : 0 ≤ float32 ((consts float32).rVar / (varAt (K + (j + 1)) : ℚ)) := rd_nonneg H (div_nonneg (rVar_nonneg H) (Nat.cast_nonneg _))
          have hle : float32 (b.R - float32 ((consts float32).rVar / (varAt (K + (j + 1)) : ℚ))) ≤ 2 := by
            have := rd_le_nat H 2 (by norm_num) (x := b.R - float32 ((consts float32).rVar / (varAt (K + (j + 1)) : ℚ))) (by push_cast; linarith)
            exact_mod_cast this
          refine ⟨h10, ?_, ?_, rfl, rfl, rfl⟩
          · split
            · exact le_rfl
            · linarith
          · split
            · norm_num
            · exact hle

/-- C128, refuted part: the distance factor is not bounded by what the descriptor threshold can be computed for. With the default
window, a pixel that blinks for 5890 frames at a descriptor distance of 2 of 16 and is then unlike its words for 12 frames
has a shift count that is not less than the width of the shifted integer. -/
theorem dist_shift_refuted : ∃ os : List Obs, (∀ o ∈ os, Sane float32 gray o) ∧ os.length = 5902 ∧ feed float32 gray os = none := by
  obtain ⟨K, hK⟩ : ∃ K : Nat, K = 5890 := ⟨_, rfl⟩
  refine ⟨List.replicate K near2 ++ (List.replicate 11 far16 ++ [far16]), ?_, ?_, ?_⟩
  · intro o ho
    rcases List.mem_append.1 ho with h | h
    · rw [List.eq_of_mem_replicate h]; exact near2_sane
    · rcases List.mem_append.1 h with h | h
      · rw [List.eq_of_mem_replicate h]; exact far16_sane
      · rw [List.mem_singleton.1 h]; exact far16_sane
  · rw [List.length_append, List.length_append, List.length_replicate, List.length_replicate, hK]; rfl
  · rw [← List.append_assoc, feed_snoc]
    rcases far16_feed K hK 11 le_rfl with h | ⟨b, e, h | ⟨h, -⟩⟩
    · rw [h]; rfl
    · rw [e]
      show step float32 gray _ b far16 = none
      unfold step
      have : descThr float32 0 b = none := by
        unfold descThr
        rw [if_pos]
        have h1 : float32 (64 : ℚ) ≤ float32 (b.R + 1 / 2) := float32_rounds.mono _ _ (by linarith)
        rw [show (64 : ℚ) = ((64 : Nat) : ℚ) by norm_num, float32_rounds.nat 64 (by norm_num)] at h1
        exact Int.le_floor.2 (by exact_mod_cast h1)
      rw [this]
    · exact absurd h (by norm_num)

/-- C128: with the rates that the adaptation gives, with no override, a positive override of at most 2^62 or an infinite one, a frame is
callable (C121): no remainder by zero is computed. -/
theorem rates_callable {F : Type} {vmin : ℚ} (fb : Nat → Nat → Fb) (h : ∀ y x, InRange vmin (fb y x)) (ov : Over)
    (ho : ∀ q, ov = .val q → 0 < q ∧ q ≤ 2 ^ 62) (ill : Nat → Nat → Bool) (f : Pawcs.Frame F)
    (hr : ∀ y x, f.rate y x = updRate ov (f.flat y x) (fb y x)) (hi : ∀ y x i, f.irate y x i = illRate (ill y x) (f.rate y x)) :
    Pawcs.Spec.Callable f := by
  intro y x
  have key : 0 < f.rate y x ∧ f.rate y x < 2 ^ 64 ∧ f.rate y x ≠ 2 ^ 63 := by
    rw [hr]
    unfold updRate
    cases ov with
    | inf => exact ⟨by norm_num, by norm_num, by norm_num⟩
    | val q =>
      obtain ⟨h1, h2⟩ := ho q rfl
      have h3 : 0 < ⌈q⌉ := Int.ceil_pos.2 h1
      have h4 : ⌈q⌉ ≤ 2 ^ 62 := Int.ceil_le.2 (by push_cast; exact h2)
      dsimp only
      omega
    | none =>
      obtain ⟨h1, h2⟩ := (h y x).rate
      dsimp only
      split
      · have h3 : 1 < ⌈(fb y x).T + 1⌉ := Int.lt_ceil.2 (by push_cast; linarith)
        have h4 : ⌈(fb y x).T + 1⌉ ≤ 257 := Int.ceil_le.2 (by push_cast; linarith)
        omega
      · have h3 : 0 < ⌈(fb y x).T⌉ := Int.ceil_pos.2 (by linarith)
        have h4 : ⌈(fb y x).T⌉ ≤ 256 := Int.ceil_le.2 (by push_cast; linarith)
        omega
  refine ⟨key.1, key.2.1, key.2.2, fun i => ?_⟩
  rw [hi]
  unfold illRate
  split
  · omega
  · exact key.1

/-- The hypotheses are met: a frame with the initial values at each pixel. -/
example : InRange (float32 (1 / 10)) Fb.init ∧ updRate .none true Fb.init = 1 ∧ updRate .none false Fb.init = 1 ∧ illRate true 1 = 1 :=
  ⟨(init_ok float32_rounds).inRange, by decide +kernel, by decide +kernel, rfl⟩

/-! ## C129: the camera mode -/

/-- C129: the offset of the word weights is 5 in the moving-camera mode and 1000 otherwise, and the mode is not entered before frame 500. -/
theorem mode_offset (N : Nat) (auto : Bool) (evs : List Ev) :
    (modes N auto evs).1.off = (if (modes N auto evs).1.moving then 5 else 1000) ∧
    ((modes N auto evs).1.moving = true → 500 ≤ frameCount evs) := by
  have h := modes_ok N auto evs
  exact ⟨h.off, fun hm => by rw [← h.count]; exact h.late hm⟩

/-- C129: the mode is entered only in frame 500, when the model or its colours are far from the mean frame; it is left only in frames whose number is a
multiple of 500, when both are close. -/
theorem mode_switches (N : Nat) (auto : Bool) (evs : List Ev) (e : Ev) :
    ((modes N auto evs).1.moving = false → (modes N auto (evs ++ [e])).1.moving = true →
      ∃ r, e = .frame r ∧ frameCount evs + 1 = 500 ∧ (45 ≤ r.model ∨ 4 ≤ r.colour)) ∧
    ((modes N auto evs).1.moving = true → (modes N auto (evs ++ [e])).1.moving = false →
      ∃ r, e = .frame r ∧ (frameCount evs + 1) % 500 = 0 ∧ r.model < 11 ∧ r.colour < 1) := by
  have hk := (modes_ok N auto evs).count
  rw [modes_snoc]
  cases e with
  | setAuto b =>
    change ((modes N auto evs).1.moving = false → (modes N auto evs).1.moving = true → _) ∧ ((modes N auto evs).1.moving = true → (modes N auto evs).1.moving = false → _)
    exact ⟨fun h1 h2 => absurd (h1.symm.trans h2) (by simp), fun h1 h2 => absurd (h1.symm.trans h2) (by simp)⟩
  | frame r =>
    have h := (frameLevel_spec N r (modes N auto evs).1).mode
    change ((modes N auto evs).1.moving = false → (frameLevel N r (modes N auto evs).1).1.moving = true → _) ∧ ((modes N auto evs).1.moving = true → (frameLevel N r (modes N auto evs).1).1.moving = false → _)
    rw [← hk]
    rcases h with ⟨h, -⟩ | ⟨h1, h2, -, h3, h4, h5⟩ | ⟨h1, h2, -, h3, h4⟩
    · rw [h]
      exact ⟨fun h1 h2 => absurd (h1.symm.trans h2) (by simp), fun h1 h2 => absurd (h1.symm.trans h2) (by simp)⟩
    · exact ⟨fun g1 g2 => absurd (h2.symm.trans g2) (by simp), fun _ _ => ⟨r, rfl, h3, h4, h5⟩⟩
    · exact ⟨fun _ _ => ⟨r, rfl, h3, h4⟩, fun g1 g2 => absurd (h2.symm.trans g2) (by simp)⟩

/-- C129: every change of the mode refreshes the model, with one occurrence for new words and all counts dropped. -/
theorem mode_switch_refreshes (N : Nat) (auto : Bool) (evs : List Ev) (e : Ev) (h : (modes N auto (evs ++ [e])).1.moving ≠ (modes N auto evs).1.moving) :
    (frameCount evs + 1, ⟨1, 1, false⟩) ∈ (modes N auto (evs ++ [e])).2 := by
  have hk := (modes_ok N auto evs).count
  rw [modes_snoc] at h ⊢
  cases e with
  | setAuto b => exact absurd rfl h
  | frame r =>
    change (frameLevel N r (modes N auto evs).1).1.moving ≠ (modes N auto evs).1.moving at h
    refine List.mem_append_right _ (List.mem_map.2 ⟨⟨1, 1, false⟩, ?_, by rw [hk]⟩)
    generalize (modes N auto evs).1 = m at h
    unfold frameLevel at h ⊢
    dsimp only at h ⊢
    generalize hm1 : (if m.auto = false ∧ 90 ≤ r.change then { m with t := m.t + 1, auto := true } else { m with t := m.t + 1 } : Mode) = m1 at h ⊢
    have hmv : m1.moving = m.moving := by rw [← hm1]; split <;> rfl
    by_cases hc : m1.auto = true ∨ m1.moving = true
    · rw [if_pos hc] at h ⊢
      dsimp only at h ⊢
      refine List.mem_append_left _ ?_
      rw [(resetStep_spec N r (switchMode r m1).1).2.1, ← hmv] at h
      unfold switchMode at h ⊢
      split_ifs at h ⊢ <;> simp at h ⊢
    · rw [if_neg hc] at h
      exact absurd hmv h

/-- C129: in these frames the decision is made whenever automatic resets are on (or, for leaving, always). -/
theorem mode_decided (N : Nat) (auto : Bool) (evs : List Ev) (r : Ratios) :
    (frameCount evs + 1 = 500 → (modes N auto evs).1.auto = true →
      ((modes N auto (evs ++ [.frame r])).1.moving = true ↔ 45 ≤ r.model ∨ 4 ≤ r.colour)) ∧
    ((frameCount evs + 1) % 500 = 0 → (modes N auto evs).1.moving = true →
      ((modes N auto (evs ++ [.frame r])).1.moving = false ↔ r.model < 11 ∧ r.colour < 1)) := by
  have hk := modes_ok N auto evs
  rw [modes_snoc, ← hk.count]
  change (_ → _ → ((frameLevel N r (modes N auto evs).1).1.moving = true ↔ _)) ∧ (_ → _ → ((frameLevel N r (modes N auto evs).1).1.moving = false ↔ _))
  have hl := hk.late
  generalize (modes N auto evs).1 = m at hl ⊢
  have hmov : (m.auto = true ∨ m.moving = true) → (frameLevel N r m).1.moving = (switchMode r { m with t := m.t + 1, auto := m.auto || decide (90 ≤ r.change) }).1.moving := by
    intro hc
    unfold frameLevel
    dsimp only
    have e1 : (if m.auto = false ∧ 90 ≤ r.change then ({ m with t := m.t + 1, auto := true } : Mode) else { m with t := m.t + 1 }) =
        { m with t := m.t + 1, auto := m.auto || decide (90 ≤ r.change) } := by
      cases ha : m.auto <;> by_cases hh : 90 ≤ r.change <;> simp [hh]
    rw [e1, if_pos (by
      rcases hc with h | h
      · left; show (m.auto || _) = true; rw [h]; rfl
      · right; exact h)]
    dsimp only
    exact (resetStep_spec N r _).2.1
  constructor
  · intro h5 ha
    rw [hmov (Or.inl ha)]
    have hm0 : m.moving = false := by
      cases hm : m.moving with
      | false => rfl
      | true => have := hl hm; omega
    unfold switchMode
    dsimp only
    rw [h5, if_pos (by norm_num), if_neg (by rw [hm0]; simp)]
    by_cases hc : 45 ≤ r.model ∨ 4 ≤ r.colour
    · rw [if_pos ⟨le_rfl, hm0, hc⟩]; exact ⟨fun _ => hc, fun _ => rfl⟩
    · rw [if_neg (fun h => hc h.2.2)]
      exact ⟨fun h => absurd (hm0.symm.trans h) (by simp), fun h => absurd h hc⟩
  · intro h5 hm
    rw [hmov (Or.inr hm)]
    unfold switchMode
    dsimp only
    rw [if_pos h5]
    by_cases hc : r.model < 11 ∧ r.colour < 1
    · rw [if_pos ⟨hm, hc⟩]; exact ⟨fun _ => hc, fun _ => rfl⟩
    · rw [if_neg (fun h => hc h.2), if_neg (by rw [hm]; simp)]
      exact ⟨fun h => absurd (hm.symm.trans h) (by simp), fun h => absurd h hc⟩

/-- C129: after frame 500 the mode is never entered again. -/
theorem mode_once (N : Nat) (auto : Bool) (evs later : List Ev) (h : 500 ≤ frameCount evs) (hm : (modes N auto (evs ++ later)).1.moving = true) :
    (modes N auto evs).1.moving = true := by
  induction later using List.reverseRecOn with
  | nil => rwa [List.append_nil] at hm
  | append_singleton later e ih =>
    rw [← List.append_assoc] at hm
    apply ih
    by_contra hc
    obtain ⟨r, -, h2, -⟩ := (mode_switches N auto (evs ++ later) e).1 (by simpa using hc) hm
    have : frameCount evs ≤ frameCount (evs ++ later) := by unfold frameCount; rw [List.countP_append]; omega
    omega

/-- C129: the refreshes made by the frame-level analysis: with one occurrence and all counts dropped when the mode changes; with an eighth of the weight
offset (125, or 0 in the moving-camera mode) and no count dropped in a reset, which needs a mean change of 45 or more. -/
theorem mode_refreshes (N : Nat) (auto : Bool) (evs : List Ev) (r : Ratios) (c : Call) (h : (frameCount evs + 1, c) ∈ (modes N auto (evs ++ [.frame r])).2) :
    (c = ⟨1, 1, false⟩ ∧ (modes N auto (evs ++ [.frame r])).1.moving ≠ (modes N auto evs).1.moving) ∨
    (c = ⟨if (modes N auto (evs ++ [.frame r])).1.moving then 0 else 125, 0, true⟩ ∧ 45 ≤ r.change) := by
  have hk := (modes_ok N auto evs).count
  have hoff := (modes_ok N auto (evs ++ [.frame r])).off
  have hold : ∀ e ∈ (modes N auto evs).2, e.1 ≤ (modes N auto evs).1.t := by
    clear h hoff hk
    induction evs using List.reverseRecOn with
    | nil => intro e he; exact absurd he (by simp [modes])
    | append_singleton evs e ih =>
      rw [modes_snoc]
      cases e with
      | setAuto b => exact ih
      | frame r =>
        intro e he
        show e.1 ≤ (frameLevel N r (modes N auto evs).1).1.t
        rw [(frameLevel_spec N r _).t]
        rcases List.mem_append.1 he with he | he
        · have := ih e he; omega
        · obtain ⟨c, -, rfl⟩ := List.mem_map.1 he
          exact le_rfl
  rw [modes_snoc] at h hoff ⊢
  have hf := frameLevel_spec N r (modes N auto evs).1
  change _ ∈ (modes N auto evs).2 ++ (frameLevel N r (modes N auto evs).1).2.map fun c => ((modes N auto evs).1.t + 1, c) at h
  rcases List.mem_append.1 h with h | h
  · have := hold _ h
    dsimp only at this
    omega
  · obtain ⟨c', hc', e⟩ := List.mem_map.1 h
    have : c' = c := congrArg Prod.snd e
    subst this
    rcases hf.calls c' hc' with ⟨h1, h2⟩ | h1
    · exact Or.inl ⟨h1, h2⟩
    · right
      refine ⟨?_, (hf.reset ⟨c', hc', by rw [h1]⟩).1⟩
      rw [h1]
      change (frameLevel N r (modes N auto evs).1).1.off = if (frameLevel N r (modes N auto evs).1).1.moving = true then 5 else 1000 at hoff
      show Call.mk _ 0 true = Call.mk (if (frameLevel N r (modes N auto evs).1).1.moving = true then 0 else 125) 0 true
      rw [hoff]
      split <;> rfl

/-- Quiet frames, frames far from the model, and frames with a strong change. -/
def calm : Ev := .frame ⟨0, 0, 0⟩
def apart : Ev := .frame ⟨0, 50, 0⟩
def flash : Ev := .frame ⟨100, 0, 0⟩

theorem calm_start (N n : Nat) (hn : n ≤ 500) : modes N true (List.replicate n calm) = (⟨n, false, 1000, true, 0, 0⟩, []) := by
  induction n with
  | zero => rfl
  | succ n ih =>
    rw [List.replicate_succ', modes_snoc, ih (by omega)]
    have h := frameLevel_spec N ⟨0, 0, 0⟩ ⟨n, false, 1000, true, 0, 0⟩
    have hs := (since_le N ⟨0, 0, 0⟩ ⟨n, false, 1000, true, 0, 0⟩).2
    show ((frameLevel N ⟨0, 0, 0⟩ ⟨n, false, 1000, true, 0, 0⟩).1, [] ++ (frameLevel N ⟨0, 0, 0⟩ ⟨n, false, 1000, true, 0, 0⟩).2.map fun c => (n + 1, c)) = _
    generalize frameLevel N ⟨0, 0, 0⟩ ⟨n, false, 1000, true, 0, 0⟩ = fl at h hs ⊢
    have hnr : ∀ c ∈ fl.2, c.reset = false := by
      intro c hc
      cases hr : c.reset with
      | false => rfl
      | true => exact absurd (h.reset ⟨c, hc, hr⟩).1 (by norm_num)
    have hm : fl.1.moving = false ∧ fl.1.off = 1000 := by
      rcases h.mode with h | ⟨h, -⟩ | ⟨-, -, -, -, h⟩
      · exact h
      · exact absurd h (by simp)
      · exact absurd h (by norm_num)
    have hcs : fl.2 = [] := by
      rw [List.eq_nil_iff_forall_not_mem]
      intro c hc
      rcases h.calls c hc with ⟨-, h1⟩ | h1
      · exact h1 hm.1
      · have := hnr c hc
        rw [h1] at this
        exact absurd this (by simp)
    have ht := h.t
    have hc := h.cool
    rw [if_neg (by rw [hcs]; simp)] at hc
    have ha := h.auto rfl (Nat.zero_le _)
    have hz : fl.1.since = 0 := Nat.le_zero.1 (hs (by rw [ht]; exact hn))
    rw [hcs]
    obtain ⟨⟨a1, a2, a3, a4, a5, a6⟩, cs⟩ := fl
    dsimp only at *
    rw [ht, hm.1, hm.2, ha, hz, hc]
    rfl

/-- The mode does change, and a reset in it refreshes with no occurrences. -/
example : (modes 100 true (List.replicate 499 calm ++ [apart])).1.moving = true ∧
    (modes 100 true (List.replicate 499 calm ++ [apart] ++ [flash])).2 = [(500, ⟨1, 1, false⟩), (501, ⟨0, 0, true⟩)] := by
  obtain ⟨a, ha⟩ : ∃ a : Nat, a = 499 := ⟨_, rfl⟩
  rw [← ha, modes_snoc, modes_snoc, calm_start 100 a (by omega), ha]
  decide +kernel

/-! ## C130: automatic resets -/

/-- C130: resets are apart: after one in frame `i` the next comes at least a short-term window (and at least one frame) later. -/
theorem resets_apart (N : Nat) (auto : Bool) (evs : List Ev) :
    (resets (modes N auto evs).2).Pairwise fun i j => i + max 1 ((if i ≤ 500 then N / 2 else N) / 4) ≤ j :=
  (modes_log N auto evs).apart

/-- C130: while automatic resets have not been switched off, a frame with a mean change of 45 or more resets the model unless there was a reset within the
short-term window, or there was no reset within the last 1000 frames and the first 1500 frames are over. -/
theorem reset_happens (N : Nat) (evs : List Ev) (h : NeverOff evs) (r : Ratios) (hr : 45 ≤ r.change)
    (hw : ∀ i ∈ resets (modes N true evs).2, i + (if i ≤ 500 then N / 2 else N) / 4 ≤ frameCount evs + 1)
    (hl : frameCount evs ≤ 1500 ∨ ∃ i ∈ resets (modes N true evs).2, frameCount evs ≤ i + 1000) :
    frameCount evs + 1 ∈ resets (modes N true (evs ++ [.frame r])).2 := by
  have hk := (modes_ok N true evs).count
  have hlog := modes_log N true evs
  have hs : (modes N true evs).1.since ≤ 1000 := by
    rcases hl with hl | ⟨i, hi, hl⟩
    · have := hlog.since.1; omega
    · have := hlog.since.2 i hi; omega
  have hc : (modes N true evs).1.cool = 0 := by
    rcases hlog.cool with h0 | ⟨i, hi, h0⟩
    · exact h0
    · have := hw i hi
      unfold samplesLT at h0
      omega
  have ha := modes_auto N evs h hs
  rw [modes_snoc]
  show _ ∈ resets ((modes N true evs).2 ++ (frameLevel N r (modes N true evs).1).2.map fun c => ((modes N true evs).1.t + 1, c))
  rw [resets_append]
  refine List.mem_append_right _ ?_
  rcases frame_resets N r (modes N true evs).1 with ⟨h1, -⟩ | ⟨-, h2⟩
  · exfalso
    have hlast : ∃ c ∈ (frameLevel N r (modes N true evs).1).2, c.reset = true := by
      generalize (modes N true evs).1 = m at hs hc ha
      unfold frameLevel
      dsimp only
      have e1 : (if m.auto = false ∧ 90 ≤ r.change then ({ m with t := m.t + 1, auto := true } : Mode) else { m with t := m.t + 1 }) = { m with t := m.t + 1 } :=
        if_neg (by rw [ha]; simp)
      rw [e1, if_pos (Or.inl ha)]
      dsimp only
      obtain ⟨s1, s2, s3, s4, s5, s6⟩ := switchMode_spec r { m with t := m.t + 1 }
      refine ⟨⟨(switchMode r { m with t := m.t + 1 }).1.off / 8, 0, true⟩, List.mem_append_right _ ?_, rfl⟩
      unfold resetStep
      rw [if_neg (by rw [s3]; show ¬ 1000 < m.since; omega), if_pos ⟨hr, by rw [s4]; exact hc⟩]
      exact List.mem_singleton_self _
    obtain ⟨c, h3, h4⟩ := hlast
    rw [h1 c h3] at h4
    exact absurd h4 (by simp)
  · rw [h2, hk]
    exact List.mem_singleton_self _

example : resets (modes 100 true ([calm, flash, flash] ++ List.replicate 10 calm ++ [flash, flash])).2 = [2, 14] := by decide +kernel

/-- C130: if automatic resets have not been switched off and 1001 frames after frame 500 pass with no reset, there is never a reset again. -/
theorem resets_end (N : Nat) (evs more later : List Ev) (h500 : 500 ≤ frameCount evs) (hoff : NeverOff (evs ++ more)) (hlen : 1001 ≤ frameCount more)
    (hno : resets (modes N true (evs ++ more)).2 = resets (modes N true evs).2) :
    resets (modes N true (evs ++ more ++ later)).2 = resets (modes N true evs).2 := by
  have h := counter_grows N evs h500 more hoff hno
  rw [(locked N true (evs ++ more) (by omega) later).2, hno]

/-- C130, refuted part: `setAutomaticModelReset(true)` does not make resets possible again, nor does a strong change, which the frame-level analysis
takes as a reason to switch automatic resets on. -/
theorem reenable_refuted : ¬ ∀ (evs : List Ev) (r : Ratios), 90 ≤ r.change → resets (modes 100 true evs).2 = [] →
    frameCount evs + 1 ∈ resets (modes 100 true (evs ++ [.setAuto true, .frame r])).2 := by
  intro h
  have hcount : ∀ n, frameCount (List.replicate n calm) = n := by
    intro n
    unfold frameCount
    rw [List.countP_replicate]; rfl
  have hoff : ∀ n, NeverOff (List.replicate n calm) := by
    intro n hm
    exact absurd (List.eq_of_mem_replicate hm) (by unfold calm; simp)
  have hcalm : ∀ n, resets (modes 100 true (List.replicate n calm)).2 = [] := by
    intro n
    induction n with
    | zero => rfl
    | succ n ih =>
      rw [List.replicate_succ', modes_snoc]
      show resets ((modes 100 true (List.replicate n calm)).2 ++ (frameLevel 100 ⟨0, 0, 0⟩ (modes 100 true (List.replicate n calm)).1).2.map fun c => ((modes 100 true (List.replicate n calm)).1.t + 1, c)) = []
      rw [resets_append, ih, List.nil_append]
      rcases frame_resets 100 ⟨0, 0, 0⟩ (modes 100 true (List.replicate n calm)).1 with ⟨-, h2⟩ | ⟨h1, -⟩
      · exact h2
      · have := (frameLevel_spec 100 ⟨0, 0, 0⟩ (modes 100 true (List.replicate n calm)).1).reset h1
        exact absurd this.1 (by norm_num)
  have happ : ∀ a b : Nat, List.replicate a calm ++ List.replicate b calm = List.replicate (a + b) calm := fun a b => by rw [List.replicate_append_replicate]
  obtain ⟨a, ha⟩ : ∃ a : Nat, a = 500 := ⟨_, rfl⟩
  obtain ⟨b, hb⟩ : ∃ b : Nat, b = 1001 := ⟨_, rfl⟩
  have key := resets_end 100 (List.replicate a calm) (List.replicate b calm) [.setAuto true, flash] (by rw [hcount]; omega) (by rw [happ]; exact hoff _)
    (by rw [hcount]; omega) (by rw [happ, hcalm, hcalm])
  have h2 := h (List.replicate a calm ++ List.replicate b calm) ⟨100, 0, 0⟩ (by norm_num) (by rw [happ, hcalm])
  change _ ∈ resets (modes 100 true (List.replicate a calm ++ List.replicate b calm ++ [Ev.setAuto true, flash])).2 at h2
  rw [key, hcalm] at h2
  exact absurd h2 (by simp)

end Litiv.PawcsFeed
