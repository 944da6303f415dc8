import Verif.Spec.VptzCam
import Verif.Props.Vptz

/-!
# Lemmas about the settings of the virtual camera
-/

namespace Litiv.VptzCam
open Litiv.Vptz Litiv.Vptz.Spec

theorem fmod_nonneg (a : ℝ) (h : 0 ≤ a) : 0 ≤ fmod a 360 ∧ fmod a 360 < 360 ∧ ∃ k : ℤ, fmod a 360 = a - 360 * k := by
  have h1 : 0 ≤ a / 360 := by positivity
  have h2 := Int.floor_le (a / 360)
  have h3 := Int.lt_floor_add_one (a / 360)
  have h4 : fmod a 360 = a - 360 * (⌊a / 360⌋ : ℤ) := by unfold fmod; rw [if_pos h1]
  refine ⟨?_, ?_, ⌊a / 360⌋, h4⟩
  · rw [h4]; linarith
  · rw [h4]; linarith

theorem fmod_neg (a : ℝ) (h : a < 0) : -360 < fmod a 360 ∧ fmod a 360 ≤ 0 ∧ ∃ k : ℤ, fmod a 360 = a - 360 * k := by
  have h1 : ¬0 ≤ a / 360 := by rw [not_le]; exact div_neg_of_neg_of_pos h (by norm_num)
  have h2 := Int.le_ceil (a / 360)
  have h3 := Int.ceil_lt_add_one (a / 360)
  have h4 : fmod a 360 = a - 360 * (⌈a / 360⌉ : ℤ) := by unfold fmod; rw [if_neg h1]
  refine ⟨?_, ?_, ⌈a / 360⌉, h4⟩
  · rw [h4]; linarith
  · rw [h4]; linarith

theorem normHori_mod (value : ℝ) : ∃ k : ℤ, normHori value = value - 360 * k := by
  unfold normHori
  split_ifs with h1 h2
  · obtain ⟨-, -, k, hk⟩ := fmod_neg (value + 180 - 360) (by linarith)
    exact ⟨k, by rw [hk]; ring⟩
  · obtain ⟨-, -, k, hk⟩ := fmod_nonneg (value + 180 - 0) (by linarith)
    exact ⟨k, by rw [hk]; ring⟩
  · exact ⟨0, by simp⟩

theorem normHori_range (value : ℝ) (hb : ¬Bad value) : -180 < normHori value ∧ normHori value ≤ 180 := by
  unfold normHori
  split_ifs with h1 h2
  · obtain ⟨a, b, -⟩ := fmod_neg (value + 180 - 360) (by linarith)
    constructor <;> linarith
  · obtain ⟨a, b, k, hk⟩ := fmod_nonneg (value + 180 - 0) (by linarith)
    refine ⟨?_, by linarith⟩
    rcases lt_or_eq_of_le a with a | a
    · linarith
    · exfalso
      have hv : value = 360 * k - 180 := by linarith
      have h180 : 180 < value := by rcases h1 with h1 | h1 <;> linarith
      have hk2 : 2 ≤ k := by
        by_contra hn
        have : (k : ℝ) ≤ 1 := by exact_mod_cast (by omega : k ≤ 1)
        linarith
      refine hb ⟨(k - 1).toNat, by omega, ?_⟩
      have : (((k - 1).toNat : ℤ) : ℝ) = ((k - 1 : ℤ) : ℝ) := by rw [Int.toNat_of_nonneg (by omega)]
      rw [Int.cast_natCast] at this
      rw [this]; push_cast; linarith
  · simp only [not_or, not_le, not_lt] at h1
    exact h1

theorem toInt_ok {r : ℝ} {z : ℤ} (h : toInt r = .ok z) : z = if 0 ≤ r then ⌊r⌋ else ⌈r⌉ := by
  unfold toInt at h
  by_cases hc : -2 ^ 31 ≤ (if 0 ≤ r then ⌊r⌋ else ⌈r⌉) ∧ (if 0 ≤ r then ⌊r⌋ else ⌈r⌉) < 2 ^ 31
  · rw [if_pos hc] at h
    cases h
    rfl
  · rw [if_neg hc] at h
    cases h

theorem set_pos_ok {c d : Cam} {value : ℝ} (h : set c .framePos value = .ok d) : d = { c with pos := ⌊value⌋ } ∧ 0 ≤ ⌊value⌋ := by
  simp only [set] at h
  by_cases hc : value > c.count - 1 ∨ value < 0
  · rw [if_pos hc] at h
    cases h
  · rw [if_neg hc] at h
    simp only [not_or, not_lt] at hc
    cases ht : toInt value with
    | error => rw [ht] at h; cases h
    | ub => rw [ht] at h; cases h
    | ok z =>
      rw [ht] at h
      have := toInt_ok ht
      rw [if_pos hc.2] at this
      cases h
      exact ⟨by rw [this], Int.floor_nonneg.2 hc.2⟩

theorem step_good {c c' : Cam} (hc : Good c) (o : Op) (ho : o.Fine) (h : step c o = some c') : Good c' := by
  cases o with
  | set f value =>
    simp only [step] at h
    cases hs : set c f value with
    | error => rw [hs] at h; cases Option.some.inj h; exact hc
    | ub => rw [hs] at h; cases h
    | ok d =>
      rw [hs] at h
      cases Option.some.inj h
      cases f
      case framePos =>
        obtain ⟨e, h0⟩ := set_pos_ok hs
        subst e
        exact ⟨hc.view, hc.speeds, hc.delays, h0⟩
      all_goals simp only [set] at hs
      · cases hs; exact ⟨hc.view, hc.speeds, hc.delays, hc.pos⟩
      · split at hs
        · cases hs
        · next hn =>
          simp only [not_or, not_le, ge_iff_le] at hn
          cases hs
          exact ⟨⟨hc.view.width, hc.view.height, ⟨hn.2, hn.1⟩, hc.view.hori, hc.view.verti⟩, hc.speeds, hc.delays, hc.pos⟩
      · cases hs
        exact ⟨⟨hc.view.width, hc.view.height, hc.view.fov, normHori_range value ho, hc.view.verti⟩, hc.speeds, hc.delays, hc.pos⟩
      · split at hs
        · cases hs
        · next hn =>
          simp only [not_or, not_lt, gt_iff_lt] at hn
          cases hs
          exact ⟨⟨hc.view.width, hc.view.height, hc.view.fov, hc.view.hori, hn⟩, hc.speeds, hc.delays, hc.pos⟩
      · split at hs
        · cases hs
        · next hn => cases hs; exact ⟨hc.view, ⟨not_le.1 hn, hc.speeds.2⟩, hc.delays, hc.pos⟩
      · split at hs
        · cases hs
        · next hn => cases hs; exact ⟨hc.view, ⟨hc.speeds.1, not_le.1 hn⟩, hc.delays, hc.pos⟩
      · split at hs
        · cases hs
        · next hn => cases hs; exact ⟨hc.view, hc.speeds, ⟨not_lt.1 hn, hc.delays.2⟩, hc.pos⟩
      · split at hs
        · cases hs
        · next hn => cases hs; exact ⟨hc.view, hc.speeds, ⟨hc.delays.1, not_lt.1 hn⟩, hc.pos⟩
      · cases hs
  | goTo x y =>
    simp only [step, goTo] at h
    by_cases hv : (0 ≤ x ∧ x < c.W) ∧ 0 ≤ y ∧ y < c.H
    · obtain ⟨th, tv, e, h1, h2, -⟩ := pixel_direction hc.view x y hv.1 hv.2
      rw [e] at h
      cases Option.some.inj h
      exact ⟨⟨hc.view.width, hc.view.height, hc.view.fov, h1, h2⟩, hc.speeds, hc.delays, hc.pos⟩
    · rw [(pixel_direction_refuses x y).2 (fun hn => hv hn.2)] at h
      cases Option.some.inj h
      exact hc
  | play idx now =>
    simp only [step, beginPlaying] at h
    cases hs : set c .framePos idx with
    | error => rw [hs] at h; cases Option.some.inj h; exact hc
    | ub => rw [hs] at h; cases h
    | ok d =>
      rw [hs] at h
      cases Option.some.inj h
      obtain ⟨e, h0⟩ := set_pos_ok hs
      subst e
      exact ⟨hc.view, hc.speeds, hc.delays, h0⟩
  | wait t1 t2 =>
    simp only [step, wait] at h
    by_cases hp : c.pos ≥ c.count
    · rw [if_pos hp] at h
      cases Option.some.inj h
      exact hc
    · rw [if_neg hp] at h
      generalize toInt _ = o at h
      cases o with
      | error => cases Option.some.inj h; exact hc
      | ub => cases h
      | ok p =>
        cases Option.some.inj h
        refine ⟨hc.view, hc.speeds, hc.delays, ?_⟩
        have := hc.pos
        show 0 ≤ max p (c.pos + 1)
        omega
  | frame d =>
    cases Option.some.inj h
    exact ⟨hc.view, hc.speeds, hc.delays, hc.pos⟩

theorem wrapChange_rotation {h h' : ℝ} (a : -180 ≤ h ∧ h ≤ 180) (b : -180 ≤ h' ∧ h' ≤ 180) : Rotation h h' |wrapChange (h' - h)| := by
  have key : |wrapChange (h' - h)| ≤ 180 ∧ ∃ k : ℤ, |wrapChange (h' - h)| = |h' - h + 360 * k| := by
    unfold wrapChange
    split_ifs with h1 h2
    · refine ⟨abs_le.2 ⟨by linarith, by linarith⟩, -1, ?_⟩
      rw [← abs_neg]; congr 1; push_cast; ring
    · exact ⟨abs_le.2 ⟨by linarith, by linarith⟩, 1, by push_cast; ring_nf⟩
    · exact ⟨abs_le.2 ⟨by linarith, by linarith⟩, 0, by simp⟩
  refine ⟨key.2, fun j => ?_⟩
  obtain ⟨k, hk⟩ := key.2
  have hle := key.1
  rw [hk] at hle ⊢
  by_cases hjk : j = k
  · rw [hjk]
  · have h2 := abs_le.1 hle
    have hj : (360 : ℝ) ≤ |360 * ((j : ℝ) - k)| := by
      rw [abs_mul]
      have h1 : (1 : ℝ) ≤ |(j : ℝ) - k| := by
        have : (1 : ℤ) ≤ |j - k| := Int.one_le_abs (sub_ne_zero.2 hjk)
        have h' : ((1 : ℤ) : ℝ) ≤ ((|j - k| : ℤ) : ℝ) := Int.cast_le.2 this
        rwa [Int.cast_abs, Int.cast_sub, Int.cast_one] at h'
      rw [abs_of_pos (by norm_num : (0 : ℝ) < 360)]
      linarith
    have htri : |360 * ((j : ℝ) - k)| ≤ |h' - h + 360 * j| + |h' - h + 360 * k| := by
      have := abs_sub (h' - h + 360 * (j : ℝ)) (h' - h + 360 * k)
      have e : h' - h + 360 * (j : ℝ) - (h' - h + 360 * k) = 360 * ((j : ℝ) - k) := by ring
      rw [e] at this
      exact this
    linarith

end Litiv.VptzCam
