import Verif.Model.SC
import Verif.Spec.SC
import Mathlib.Analysis.SpecialFunctions.Log.Base
import Mathlib.Analysis.SpecialFunctions.Trigonometric.Angle
import Mathlib.Tactic.Linarith
import Mathlib.Tactic.FieldSimp
import Mathlib.Tactic.Positivity

/-!
# Lemmas about shape contexts
-/

namespace Litiv.SC

open Classical

theorem radLoop_length (l δ : ℝ) : ∀ (m : Nat) (acc : ℝ), (radLoop l δ m acc).length = m
  | 0, _ => rfl
  | m + 1, acc => by simp [radLoop, radLoop_length l δ m]

theorem radLoop_get (l δ : ℝ) : ∀ (m : Nat) (acc : ℝ) (i : Nat) (h : i < (radLoop l δ m acc).length),
    (radLoop l δ m acc)[i] = (2 : ℝ) ^ (l + acc + i * δ)
  | 0, _, i, h => by simp [radLoop] at h
  | m + 1, acc, 0, h => by simp [radLoop]
  | m + 1, acc, i + 1, h => by
    have := radLoop_get l δ m (acc + δ) i (by simpa [radLoop, radLoop_length] using h)
    simp only [radLoop, List.getElem_cons_succ]
    rw [this]
    congr 1
    push_cast
    ring

theorem angLoop_length (δ : ℝ) : ∀ (m : Nat) (acc : ℝ), (angLoop δ m acc).length = m
  | 0, _ => rfl
  | m + 1, acc => by simp [angLoop, angLoop_length δ m]

theorem angLoop_get (δ : ℝ) : ∀ (m : Nat) (acc : ℝ) (i : Nat) (h : i < (angLoop δ m acc).length), (angLoop δ m acc)[i] = acc + (i + 1) * δ
  | 0, _, i, h => by simp [angLoop] at h
  | m + 1, acc, 0, h => by simp [angLoop]
  | m + 1, acc, i + 1, h => by
    have := angLoop_get δ m (acc + δ) i (by simpa [angLoop, angLoop_length] using h)
    simp only [angLoop, List.getElem_cons_succ]
    rw [this]
    push_cast
    ring

theorem radLimits_length (c : Cfg) (hR : 0 < c.R) : (radLimits c).length = c.R := by
  unfold radLimits
  split
  · rename_i h; simp [h]
  · dsimp only; rw [List.length_cons, radLoop_length]; omega

theorem radLimits_get (c : Cfg) (hv : c.Valid) (i : Nat) (h : i < (radLimits c).length) : (radLimits c)[i] = Spec.bound c.R c.inner c.outer i := by
  have hin := hv.inner
  have hout := hv.outer.1
  unfold Spec.bound
  unfold radLimits at h ⊢
  split
  · rename_i h1
    have : i = 0 := by simp [h1] at h; exact h
    subst this
    rfl
  · rename_i h1
    dsimp only
    cases i with
    | zero => simp
    | succ j =>
      rw [List.getElem_cons_succ, radLoop_get]
      have hR : (c.R : ℝ) - 1 ≠ 0 := by
        have : (c.R : ℝ) ≠ 1 := by exact_mod_cast h1
        intro h; apply this; linarith
      have e : Real.logb 2 c.inner + (Real.logb 2 c.outer - Real.logb 2 c.inner) / ((c.R : ℝ) - 1) +
          (j : ℝ) * ((Real.logb 2 c.outer - Real.logb 2 c.inner) / ((c.R : ℝ) - 1)) =
          Real.logb 2 c.inner + Real.logb 2 (c.outer / c.inner) * (((j + 1 : Nat) : ℝ) / ((c.R : ℝ) - 1)) := by
        rw [Real.logb_div hout.ne' hin.ne']
        push_cast
        field_simp
        ring
      rw [e, Real.rpow_add (by norm_num), Real.rpow_logb (by norm_num) (by norm_num) hin, Real.rpow_mul (by norm_num),
        Real.rpow_logb (by norm_num) (by norm_num) (div_pos hout hin)]

theorem angLimits_length (c : Cfg) : (angLimits c).length = c.A := angLoop_length _ _ _

theorem angLimits_get (c : Cfg) (i : Nat) (h : i < (angLimits c).length) : (angLimits c)[i] = (i + 1) * (2 * Real.pi / c.A) := by
  have h' : i < (angLoop (2 * Real.pi / c.A) c.A 0).length := h
  have := angLoop_get (2 * Real.pi / c.A) c.A 0 i h'
  rw [zero_add] at this
  exact this

theorem bound_strict (c : Cfg) (hv : c.Valid) (i j : Nat) (hij : i < j) (hj : j < c.R) :
    Spec.bound c.R c.inner c.outer i < Spec.bound c.R c.inner c.outer j := by
  have hR : c.R ≠ 1 := by omega
  unfold Spec.bound
  rw [if_neg hR, if_neg hR]
  have h1 : 1 < c.outer / c.inner := (one_lt_div hv.inner).2 hv.outer.2
  have h2 : (0 : ℝ) < (c.R : ℝ) - 1 := by
    have : (1 : ℝ) < c.R := by exact_mod_cast (by omega : 1 < c.R)
    linarith
  apply mul_lt_mul_of_pos_left _ hv.inner
  apply Real.rpow_lt_rpow_of_exponent_lt h1
  have : (i : ℝ) < j := by exact_mod_cast hij
  exact div_lt_div_of_pos_right this h2

theorem bound_mono (c : Cfg) (hv : c.Valid) (i j : Nat) (hij : i ≤ j) (hj : j < c.R) :
    Spec.bound c.R c.inner c.outer i ≤ Spec.bound c.R c.inner c.outer j := by
  rcases Nat.lt_or_eq_of_le hij with h | h
  · exact (bound_strict c hv i j h hj).le
  · rw [h]

theorem bound_last (c : Cfg) (hv : c.Valid) : Spec.bound c.R c.inner c.outer (c.R - 1) = c.outer := by
  unfold Spec.bound
  split
  · rfl
  · rename_i h
    have hR := hv.rad
    have e : ((c.R - 1 : Nat) : ℝ) = (c.R : ℝ) - 1 := by push_cast [Nat.cast_sub (show 1 ≤ c.R from hR)]; ring
    have h2 : (c.R : ℝ) - 1 ≠ 0 := by
      have : (c.R : ℝ) ≠ 1 := by exact_mod_cast h
      intro h; apply this; linarith
    rw [e, div_self h2, Real.rpow_one, mul_div_cancel₀ _ hv.inner.ne']

theorem bound_pos (c : Cfg) (hv : c.Valid) (i : Nat) : 0 < Spec.bound c.R c.inner c.outer i := by
  unfold Spec.bound
  split
  · exact hv.outer.1
  · exact mul_pos hv.inner (Real.rpow_pos_of_pos (div_pos hv.outer.1 hv.inner) _)

theorem findBin_some (l : List ℝ) (v : ℝ) (i : Nat) : findBin l v = some i ↔ ∃ h : i < l.length, v < l[i] ∧ ∀ j (hj : j < i), l[j] ≤ v := by
  unfold findBin
  rw [List.findIdx?_eq_some_iff_getElem]
  constructor
  · rintro ⟨h, h1, h2⟩
    refine ⟨h, by simpa using h1, fun j hj => ?_⟩
    have := h2 j hj
    simpa using this
  · rintro ⟨h, h1, h2⟩
    refine ⟨h, by simpa using h1, fun j hj => ?_⟩
    have := h2 j hj
    simpa using this

theorem findRing (c : Cfg) (hv : c.Valid) (d : ℝ) (r : Nat) : findBin (radLimits c) d = some r ↔ Spec.InRing c.R c.inner c.outer r d := by
  rw [findBin_some]
  unfold Spec.InRing
  constructor
  · rintro ⟨h, h1, h2⟩
    have h' := h
    rw [radLimits_length c hv.rad] at h'
    rw [radLimits_get c hv] at h1
    refine ⟨h', fun h0 => ?_, h1⟩
    have := h2 (r - 1) (by omega)
    rwa [radLimits_get c hv] at this
  · rintro ⟨h, h1, h2⟩
    have hl : r < (radLimits c).length := by rw [radLimits_length c hv.rad]; exact h
    refine ⟨hl, by rw [radLimits_get c hv]; exact h2, fun j hj => ?_⟩
    rw [radLimits_get c hv]
    exact le_trans (bound_mono c hv j (r - 1) (by omega) (by omega)) (h1 (by omega))

theorem findSector (c : Cfg) (hA : 0 < c.A) (v : ℝ) (a : Nat) (h0 : 0 ≤ v) (h1 : v < 2 * Real.pi) :
    findBin (angLimits c) v = some a ↔ Spec.InSector c.A a v := by
  have hA' : (0 : ℝ) < c.A := by exact_mod_cast hA
  have hδ : 0 < 2 * Real.pi / c.A := div_pos (by linarith [Real.pi_pos]) hA'
  have hfull : (c.A : ℝ) * (2 * Real.pi / c.A) = 2 * Real.pi := mul_div_cancel₀ _ hA'.ne'
  rw [findBin_some]
  unfold Spec.InSector
  constructor
  · rintro ⟨h, h2, h3⟩
    have h' := h
    rw [angLimits_length] at h'
    rw [angLimits_get] at h2
    refine ⟨h', 0, ?_, by simpa using h2⟩
    cases a with
    | zero => simpa using h0
    | succ b =>
      have := h3 b (by omega)
      rw [angLimits_get] at this
      push_cast
      simpa using this
  · rintro ⟨h, n, h2, h3⟩
    have ha : ((a : ℝ) + 1) ≤ c.A := by exact_mod_cast h
    have hup : ((a : ℝ) + 1) * (2 * Real.pi / c.A) ≤ 2 * Real.pi :=
      le_trans (mul_le_mul_of_nonneg_right ha hδ.le) hfull.le
    have hlo : 0 ≤ (a : ℝ) * (2 * Real.pi / c.A) := by positivity
    have hpi := Real.pi_pos
    have hn : n = 0 := by
      have hn1 : -1 < n := by
        by_contra hc
        have : (n : ℝ) ≤ -1 := by exact_mod_cast (by omega : n ≤ -1)
        nlinarith
      have hn2 : n < 1 := by
        by_contra hc
        have : (1 : ℝ) ≤ n := by exact_mod_cast (by omega : 1 ≤ n)
        nlinarith
      omega
    subst hn
    simp only [Int.cast_zero, zero_mul, add_zero] at h2 h3
    have hl : a < (angLimits c).length := by rw [angLimits_length]; exact h
    refine ⟨hl, by rw [angLimits_get]; exact h3, fun j hj => ?_⟩
    rw [angLimits_get]
    have : ((j : ℝ) + 1) ≤ a := by exact_mod_cast hj
    exact le_trans (mul_le_mul_of_nonneg_right this hδ.le) h2

/-- Sectors do not see whole turns. -/
theorem inSector_turn (A a : Nat) (θ : ℝ) (n : ℤ) : Spec.InSector A a (θ + n * (2 * Real.pi)) ↔ Spec.InSector A a θ := by
  unfold Spec.InSector
  constructor
  · rintro ⟨h, m, h1, h2⟩
    refine ⟨h, n + m, ?_, ?_⟩ <;> push_cast <;> linarith
  · rintro ⟨h, m, h1, h2⟩
    refine ⟨h, m - n, ?_, ?_⟩ <;> push_cast <;> linarith

/-- Every angle is in one sector. -/
theorem inSector_exists (A : Nat) (hA : 0 < A) (θ : ℝ) : ∃ a, Spec.InSector A a θ := by
  have hpi := Real.pi_pos
  have hA' : (0 : ℝ) < A := by exact_mod_cast hA
  have hδ : 0 < 2 * Real.pi / A := div_pos (by linarith) hA'
  have h2 : 0 < 2 * Real.pi := by linarith
  set φ := θ - ⌊θ / (2 * Real.pi)⌋ * (2 * Real.pi) with hφ
  have h0 : 0 ≤ φ := by
    have := Int.floor_le (θ / (2 * Real.pi))
    rw [le_div_iff₀ h2] at this
    linarith
  have h1 : φ < 2 * Real.pi := by
    have := Int.lt_floor_add_one (θ / (2 * Real.pi))
    rw [div_lt_iff₀ h2] at this
    linarith
  refine ⟨⌊φ / (2 * Real.pi / A)⌋₊, ?_, -⌊θ / (2 * Real.pi)⌋, ?_, ?_⟩
  · rw [Nat.floor_lt (div_nonneg h0 hδ.le), div_lt_iff₀ hδ, mul_div_cancel₀ _ hA'.ne']
    exact h1
  · have := Nat.floor_le (div_nonneg h0 hδ.le)
    rw [le_div_iff₀ hδ] at this
    push_cast
    linarith
  · have := Nat.lt_floor_add_one (φ / (2 * Real.pi / A))
    rw [div_lt_iff₀ hδ] at this
    push_cast
    linarith

theorem fmod_range (x : ℝ) (hx : 0 ≤ x) (m : ℝ) (hm : 0 < m) : 0 ≤ fmod x m ∧ fmod x m < m ∧ ∃ n : ℤ, fmod x m = x + n * m := by
  unfold fmod
  rw [if_pos (div_nonneg hx hm.le)]
  have h1 := Int.floor_le (x / m)
  have h2 := Int.lt_floor_add_one (x / m)
  rw [le_div_iff₀ hm] at h1
  rw [div_lt_iff₀ hm] at h2
  refine ⟨by linarith, by linarith, -⌊x / m⌋, ?_⟩
  push_cast
  ring

theorem keyDist_norm (k p : ℂ) : keyDist k p = ‖p - k‖ := by
  rw [Complex.norm_def, Complex.normSq_apply]
  unfold keyDist
  congr 1
  simp only [Complex.sub_re, Complex.sub_im]
  ring

theorem not_coincident_dist (k p : ℂ) (h : ¬ Spec.Coincident k p) : ¬ keyDist k p < 1 / 100 := by
  intro hd
  apply h
  rw [keyDist_norm] at hd
  have h1 := Complex.abs_re_le_norm (p - k)
  have h2 := Complex.abs_im_le_norm (p - k)
  rw [Complex.sub_re, abs_sub_comm] at h1
  rw [Complex.sub_im, abs_sub_comm] at h2
  exact ⟨lt_of_le_of_lt h1 hd, lt_of_le_of_lt h2 hd⟩

theorem eps_pos : 0 < eps := by unfold eps; positivity

theorem sector_keyAng (c : Cfg) (hA : 0 < c.A) (mass k p : ℂ) (a : Nat) (h : ¬ Spec.Coincident k p) :
    findBin (angLimits c) (keyAng c.rot mass k p) = some a ↔
      Spec.InSector c.A a (Spec.direction k p - (if c.rot then Spec.direction mass p else 0) + 1 / 2 ^ 23) := by
  have hpi := Real.pi_pos
  have hd : Spec.direction k p = Complex.arg ⟨-(k.re - p.re), k.im - p.im⟩ := by unfold Spec.direction; congr 2; ring
  have hm : Spec.direction mass p = Complex.arg ⟨(p - mass).re, -(p - mass).im⟩ := by
    unfold Spec.direction; congr 2; rw [Complex.sub_im]; ring
  unfold keyAng
  rw [if_neg (not_coincident_dist k p h)]
  dsimp only
  rw [← hd, ← hm]
  have b1 : -Real.pi < Spec.direction k p := Complex.neg_pi_lt_arg _
  have b2 : Spec.direction k p ≤ Real.pi := Complex.arg_le_pi _
  have b3 : -Real.pi < Spec.direction mass p := Complex.neg_pi_lt_arg _
  have b4 : Spec.direction mass p ≤ Real.pi := Complex.arg_le_pi _
  have e : (if c.rot = true then Spec.direction k p - Spec.direction mass p else Spec.direction k p) =
      Spec.direction k p - (if c.rot then Spec.direction mass p else 0) := by split_ifs <;> ring
  rw [e]
  have hpos : 0 ≤ Spec.direction k p - (if c.rot then Spec.direction mass p else 0) + 2 * Real.pi + eps := by
    have := eps_pos
    split_ifs <;> linarith
  obtain ⟨f0, f1, n, hn⟩ := fmod_range _ hpos (2 * Real.pi) (by linarith)
  rw [findSector c hA _ a f0 f1, hn]
  have e2 : Spec.direction k p - (if c.rot then Spec.direction mass p else 0) + 2 * Real.pi + eps + n * (2 * Real.pi) =
      (Spec.direction k p - (if c.rot then Spec.direction mass p else 0) + 1 / 2 ^ 23) + ((n + 1 : ℤ) : ℝ) * (2 * Real.pi) := by
    unfold eps; push_cast; ring
  rw [e2, inSector_turn]

theorem mapBin_some (c : Cfg) (hv : c.Valid) (mass : ℂ) (sc : ℝ) (k p : ℂ) (b : Nat) :
    mapBin c mass sc k p = some b ↔ Spec.Counted c.A c.R c.inner c.outer sc (if c.rot then Spec.direction mass p else 0) k p b := by
  unfold mapBin Spec.Counted
  by_cases h : Spec.Coincident k p
  · rw [if_pos (show |k.re - p.re| < 1 / 100 ∧ |k.im - p.im| < 1 / 100 from h)]
    constructor
    · intro h'; cases h'
    · rintro ⟨h1, _⟩; exact absurd h h1
  · rw [if_neg (show ¬ (|k.re - p.re| < 1 / 100 ∧ |k.im - p.im| < 1 / 100) from h)]
    constructor
    · intro h'
      split at h'
      · rename_i r a hr ha
        injection h' with h'
        refine ⟨h, r, a, h'.symm, ?_, ?_⟩
        · rw [← keyDist_norm]; exact (findRing c hv _ r).1 hr
        · exact (sector_keyAng c hv.ang mass k p a h).1 ha
      · cases h'
    · rintro ⟨_, r, a, rfl, h1, h2⟩
      rw [← keyDist_norm] at h1
      rw [(findRing c hv _ r).2 h1, (sector_keyAng c hv.ang mass k p a h).2 h2]

theorem accum_count (bin : ℂ → Option Nat) : ∀ (contour : List ℂ) (d : Nat → ℝ) (b : Nat),
    accum bin contour d b = d b + ((contour.filter fun p => decide (bin p = some b)).length : ℝ)
  | [], d, b => by simp [accum]
  | p :: ps, d, b => by
    have ih := accum_count bin ps
    unfold accum at ih ⊢
    rw [List.foldl_cons, ih, List.filter_cons]
    cases hb : bin p with
    | none => simp
    | some v =>
      by_cases hv : b = v
      · subst hv
        simp
        ring
      · simp [hv, Ne.symm hv]

theorem foldl_sum : ∀ (l : List ℂ) (s : ℂ), l.foldl (fun s p => s + p) s = s + l.sum
  | [], s => by simp
  | p :: ps, s => by rw [List.foldl_cons, foldl_sum ps, List.sum_cons, add_assoc]

theorem massCenter_spec (l : List ℂ) : massCenter l = Spec.centroid l := by
  unfold massCenter Spec.centroid
  dsimp only
  rw [foldl_sum, zero_add]
  apply Complex.ext
  · rw [← Complex.ofReal_natCast, Complex.div_ofReal_re]
  · rw [← Complex.ofReal_natCast, Complex.div_ofReal_im]

theorem meanDist_spec (keys contour : List ℂ) : meanDist keys contour = Spec.meanDistance keys contour := by
  unfold meanDist Spec.meanDistance
  simp only [keyDist_norm]

theorem cround_int (z : Int) : cround (z : ℝ) = z := by
  unfold cround
  split
  · rw [Int.floor_eq_iff]; constructor <;> linarith
  · rw [Int.ceil_eq_iff]; constructor <;> linarith

theorem binOf_map (c : Cfg) (hv : c.Valid) (hm : c.relative = true ∨ c.rot = true) (outer : Nat) (keys contour : List ℂ) (k p : ℂ) (b : Nat) :
    binOf c outer keys contour k p = some b ↔
      Spec.Counted c.A c.R c.inner c.outer (if c.relative then Spec.meanDistance keys contour + 1 / 2 ^ 23 else 1)
        (if c.rot then Spec.direction (Spec.centroid contour) p else 0) k p b := by
  have hf : ¬ ((!c.relative && !c.rot) = true) := by rcases hm with h | h <;> simp [h]
  unfold binOf
  rw [if_neg hf, mapBin_some c hv]
  have e1 : scale c keys contour = if c.relative then Spec.meanDistance keys contour + 1 / 2 ^ 23 else 1 := by
    unfold scale eps; rw [meanDist_spec]
  rw [e1]
  cases hr : c.rot
  · simp
  · simp only [if_true, massCenter_spec]

/-- Adding up the bins counts the points that have one. -/
theorem sum_bins (bin : ℂ → Option Nat) (D : Nat) : ∀ contour : List ℂ,
    ((List.range D).map fun b => ((contour.filter fun p => decide (bin p = some b)).length : ℝ)).sum =
      ((contour.filter fun p => decide (∃ b < D, bin p = some b)).length : ℝ)
  | [] => by simp
  | p :: ps => by
    have ih := sum_bins bin D ps
    have key : ∀ n : Nat, ((List.range n).map fun b => (((p :: ps).filter fun p => decide (bin p = some b)).length : ℝ)).sum =
        ((List.range n).map fun b => ((ps.filter fun p => decide (bin p = some b)).length : ℝ)).sum + if ∃ b < n, bin p = some b then 1 else 0 := by
      intro n
      induction n with
      | zero => simp
      | succ n ihn =>
        rw [List.range_succ, List.map_append, List.sum_append, ihn, List.map_append, List.sum_append]
        simp only [List.map_cons, List.map_nil, List.sum_cons, List.sum_nil, add_zero]
        rw [List.filter_cons]
        by_cases hb : bin p = some n
        · have h1 : ¬ ∃ b < n, bin p = some b := by
            rintro ⟨b, hlt, he⟩
            rw [hb] at he
            injection he with he
            omega
          have h2 : ∃ b < n + 1, bin p = some b := ⟨n, by omega, hb⟩
          rw [if_neg h1, if_pos h2, if_pos (by simpa using hb), List.length_cons]
          push_cast
          ring
        · have h3 : (∃ b < n + 1, bin p = some b) ↔ ∃ b < n, bin p = some b := by
            constructor
            · rintro ⟨b, hlt, he⟩
              refine ⟨b, ?_, he⟩
              rcases Nat.lt_succ_iff_lt_or_eq.1 hlt with h | h
              · exact h
              · subst h; exact absurd he hb
            · rintro ⟨b, hlt, he⟩; exact ⟨b, by omega, he⟩
          rw [if_neg (show ¬ decide (bin p = some n) = true by simpa using hb)]
          simp only [h3]
          ring
    rw [key D, ih, List.filter_cons]
    by_cases h : ∃ b < D, bin p = some b
    · rw [if_pos h, if_pos (by simpa using h), List.length_cons]
      push_cast
      ring
    · rw [if_neg h, if_neg (by simpa using h)]
      ring

theorem mapStep_in (c : Cfg) (outer : Nat) (kernel : Int → Int → Bool) (rows cols : Nat) (img : Int → Int → Bool) (keys contour : List ℂ)
    (d : Int → Int → Nat → ℝ) (k : ℂ) (h : 0 ≤ cround k.im ∧ cround k.im < rows ∧ 0 ≤ cround k.re ∧ cround k.re < cols) :
    ∃ d', mapStep c outer kernel rows cols img keys contour d k = some d' ∧ ∀ r q b, d' r q b = d r q b +
      if cround k.im = r ∧ cround k.re = q ∧ skipped c kernel rows cols img r q = false then
        ((contour.filter fun p => decide (binOf c outer keys contour k p = some b)).length : ℝ) else 0 := by
  unfold mapStep
  dsimp only
  rw [if_pos h]
  refine ⟨_, rfl, fun r q b => ?_⟩
  by_cases hs : skipped c kernel rows cols img (cround k.im) (cround k.re) = true
  · rw [if_pos hs, if_neg, add_zero]
    rintro ⟨rfl, rfl, h3⟩
    rw [hs] at h3
    cases h3
  · rw [if_neg hs]
    by_cases hp : r = cround k.im ∧ q = cround k.re
    · obtain ⟨rfl, rfl⟩ := hp
      rw [if_pos ⟨rfl, rfl⟩, if_pos ⟨rfl, rfl, by simpa using hs⟩, accum_count]
    · rw [if_neg hp, if_neg, add_zero]
      rintro ⟨h1, h2, _⟩
      exact hp ⟨h1.symm, h2.symm⟩

theorem foldMap (c : Cfg) (outer : Nat) (kernel : Int → Int → Bool) (rows cols : Nat) (img : Int → Int → Bool) (keys contour : List ℂ) :
    ∀ (order : List ℂ) (d : Int → Int → Nat → ℝ),
      (∀ k ∈ order, 0 ≤ cround k.im ∧ cround k.im < rows ∧ 0 ≤ cround k.re ∧ cround k.re < cols) →
      ∃ d', order.foldlM (mapStep c outer kernel rows cols img keys contour) d = some d' ∧ ∀ r q b, d' r q b = d r q b +
        ((order.filter fun k => decide (cround k.im = r ∧ cround k.re = q ∧ skipped c kernel rows cols img r q = false)).map fun k =>
          ((contour.filter fun p => decide (binOf c outer keys contour k p = some b)).length : ℝ)).sum
  | [], d, _ => ⟨d, rfl, fun r q b => by simp⟩
  | k :: ks, d, h => by
    obtain ⟨d1, e1, h1⟩ := mapStep_in c outer kernel rows cols img keys contour d k (h k (List.mem_cons_self ..))
    obtain ⟨d2, e2, h2⟩ := foldMap c outer kernel rows cols img keys contour ks d1 fun k' hk' => h k' (List.mem_cons_of_mem _ hk')
    refine ⟨d2, ?_, fun r q b => ?_⟩
    · rw [List.foldlM_cons, e1]
      exact e2
    · rw [h2, h1, List.filter_cons]
      by_cases hc : cround k.im = r ∧ cround k.re = q ∧ skipped c kernel rows cols img r q = false
      · rw [if_pos hc, if_pos (by simpa using hc), List.map_cons, List.sum_cons]
        ring
      · rw [if_neg hc, if_neg (by simpa using hc)]
        ring

theorem foldMap_out (c : Cfg) (outer : Nat) (kernel : Int → Int → Bool) (rows cols : Nat) (img : Int → Int → Bool) (keys contour : List ℂ) :
    ∀ (order : List ℂ) (d : Int → Int → Nat → ℝ),
      (∃ k ∈ order, ¬ (0 ≤ cround k.im ∧ cround k.im < rows ∧ 0 ≤ cround k.re ∧ cround k.re < cols)) →
      order.foldlM (mapStep c outer kernel rows cols img keys contour) d = none
  | [], _, h => by obtain ⟨k, hk, _⟩ := h; cases hk
  | k :: ks, d, h => by
    rw [List.foldlM_cons]
    by_cases hk : 0 ≤ cround k.im ∧ cround k.im < rows ∧ 0 ≤ cround k.re ∧ cround k.re < cols
    · obtain ⟨d1, e1, _⟩ := mapStep_in c outer kernel rows cols img keys contour d k hk
      rw [e1]
      refine foldMap_out c outer kernel rows cols img keys contour ks d1 ?_
      obtain ⟨k', hm, hn⟩ := h
      rcases List.mem_cons.1 hm with rfl | hm
      · exact absurd hk hn
      · exact ⟨k', hm, hn⟩
    · have : mapStep c outer kernel rows cols img keys contour d k = none := by
        unfold mapStep
        dsimp only
        rw [if_neg hk]
      rw [this]
      rfl

end Litiv.SC
