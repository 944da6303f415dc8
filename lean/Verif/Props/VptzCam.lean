import Verif.Lemmas.VptzCam

/-!
# C136 — directions and motions of the virtual camera; C137 — its playback
-/

namespace Litiv.VptzCam
open Litiv.Vptz Litiv.Vptz.Spec

/-! ## C136: directions -/

/-- **C136, proved part.** Setting a horizontal angle stores the angle of (−180°, 180°] that is the same direction, for every value but 540°, 900°, …. -/
theorem set_direction_partial (c : Cam) (value : ℝ) (hb : ¬Bad value) :
    ∃ c', set c .horiAngle value = .ok c' ∧ (-180 < c'.h ∧ c'.h ≤ 180) ∧ (∃ k : ℤ, c'.h = value + 360 * k) ∧ c'.v = c.v ∧ c'.fov = c.fov := by
  refine ⟨_, rfl, normHori_range value hb, ?_, rfl, rfl⟩
  obtain ⟨k, hk⟩ := normHori_mod value
  exact ⟨-k, by push_cast; linarith⟩

example : ¬Bad 500 := by
  rintro ⟨k, h1, h2⟩
  have : (1 : ℝ) ≤ k := by exact_mod_cast h1
  linarith

/-- **C136, refuted.** For the other values the camera is left at −180°, which is not a valid angle: every conversion then throws, so it can no longer
be moved to a position of the image. -/
theorem set_direction_refuted (c : Cam) : ∃ c', set c .horiAngle 540 = .ok c' ∧ c'.h = -180 ∧ ∀ x y, goTo c' x y = .error := by
  have hn : normHori 540 = -180 := by
    unfold normHori fmod
    have e : ((540 : ℝ) + 180 - 0) / 360 = ((2 : ℤ) : ℝ) := by norm_num
    rw [if_pos (Or.inr (by norm_num)), if_neg (by norm_num), e, if_pos (by norm_num), Int.floor_intCast]
    norm_num
  refine ⟨_, rfl, hn, fun x y => ?_⟩
  unfold goTo
  rw [(pixel_direction_refuses x y).2]
  · rfl
  · rintro ⟨V, -⟩
    have := V.hori.1
    dsimp only at this
    rw [hn] at this
    exact lt_irrefl _ this

/-- **C136.** Going to a pixel of the image succeeds; the camera then looks in the direction that appeared at this pixel, which is now at the centre
of the image; nothing else about its view changes. -/
theorem goto_centres {c : Cam} (hc : Good c) (hW : c.W < 2 ^ 31) (hH : c.H < 2 ^ 31) (x y : ℤ) (hx : 0 ≤ x ∧ x < c.W) (hy : 0 ≤ y ∧ y < c.H) :
    ∃ c', goTo c x y = .ok c' ∧ Good c' ∧ Appears c.W c.H c.fov c.h c.v x y (dir c'.h c'.v) ∧ c'.W = c.W ∧ c'.H = c.H ∧ c'.fov = c.fov ∧
      hvToXY c'.h c'.v c'.W c'.H c'.fov c'.h c'.v = .ok (true, (c.W + 1) / 2, (c.H + 1) / 2) := by
  obtain ⟨th, tv, e, h1, h2, ha⟩ := pixel_direction hc.view x y hx hy
  have V : Valid c.W c.H c.fov th tv := ⟨hc.view.width, hc.view.height, hc.view.fov, h1, h2⟩
  refine ⟨{ c with h := th, v := tv, dh := wrapChange (th - c.h), dv := tv - c.v }, by unfold goTo; rw [e]; rfl, ⟨V, hc.speeds, hc.delays, hc.pos⟩, ha, rfl, rfl, rfl, ?_⟩
  exact pixel_of_camera V hW hH

/-- **C136.** A position out of the image is refused. -/
theorem goto_refuses (c : Cam) (x y : ℤ) (h : ¬((0 ≤ x ∧ x < c.W) ∧ 0 ≤ y ∧ y < c.H)) : goTo c x y = .error := by
  unfold goTo
  rw [(pixel_direction_refuses x y).2 (fun hn => h hn.2)]
  rfl

/-- **C136.** Whatever is called, and whatever values are given (valid or not), the settings of the camera stay valid, so that all of its pixels can
be aimed at — provided no horizontal angle of 540°, 900°, … is set. -/
theorem settings_valid_partial (ops : List Op) {c c' : Cam} (hc : Good c) (ho : ∀ o ∈ ops, o.Fine) (h : run c ops = some c') :
    Good c' ∧ ∀ x y, (0 ≤ x ∧ x < c'.W) → (0 ≤ y ∧ y < c'.H) → ∃ d, goTo c' x y = .ok d := by
  have key : Good c' := by
    induction ops generalizing c with
    | nil => cases Option.some.inj h; exact hc
    | cons o os ih =>
      rw [run, Option.bind_eq_some_iff] at h
      obtain ⟨d, h1, h2⟩ := h
      exact ih (step_good hc o (ho o List.mem_cons_self) h1) (fun o' hm => ho o' (List.mem_cons_of_mem _ hm)) h2
  refine ⟨key, fun x y hx hy => ?_⟩
  obtain ⟨th, tv, e, -⟩ := pixel_direction key.view x y hx hy
  exact ⟨_, by unfold goTo; rw [e]; rfl⟩

/-- A camera at the start of a video of 100 frames at ten frames per second. -/
noncomputable def cam0 : Cam := ⟨640, 480, 90, 0, 90, 90, 45, 1, 0, 0, 0, 0, 0, 0, 0, 0, 0, 10, 100, 0⟩

theorem good0 : Good cam0 :=
  ⟨⟨by norm_num [cam0], by norm_num [cam0], by norm_num [cam0], by norm_num [cam0], by norm_num [cam0]⟩, by norm_num [cam0], by norm_num [cam0], by norm_num [cam0]⟩

/-! ## C136: motions -/

/-- **C136.** The delay of a motion: after the camera is aimed at new angles (the horizontal one first, then the vertical one) or at a position of its
image, the next wait adds the time of the smallest rotation around the vertical axis, at the horizontal speed, plus that of the tilt at the vertical speed. -/
theorem motion_delay {c c' : Cam} (hc : Good c)
    (h : (∃ x y, goTo c x y = .ok c') ∨ ∃ a b, ¬Bad a ∧ ((set c .horiAngle a).bind fun d => set d .vertiAngle b) = .ok c')
    (hp : c'.pos < c'.count) {t1 t2 : ℝ} {r : Bool} {d : Cam} (hw : wait c' t1 t2 = .ok (r, d)) :
    ∃ rot, Rotation c.h c'.h rot ∧ d.motion = rot / c'.hs + |c'.v - c.v| / c'.vs := by
  have key : Rotation c.h c'.h |c'.dh| ∧ |c'.dv| = |c'.v - c.v| := by
    have hh := hc.view.hori
    rcases h with ⟨x, y, h⟩ | ⟨a, b, hb, h⟩
    · unfold goTo at h
      by_cases hv : (0 ≤ x ∧ x < c.W) ∧ 0 ≤ y ∧ y < c.H
      · obtain ⟨th, tv, e, h1, -⟩ := pixel_direction hc.view x y hv.1 hv.2
        rw [e] at h
        cases h
        exact ⟨wrapChange_rotation ⟨hh.1.le, hh.2⟩ ⟨h1.1.le, h1.2⟩, rfl⟩
      · rw [(pixel_direction_refuses x y).2 (fun hn => hv hn.2)] at h
        cases h
    · have hr := normHori_range a hb
      simp only [set, Out.bind] at h
      split at h
      · cases h
      · cases h
        exact ⟨wrapChange_rotation ⟨hh.1.le, hh.2⟩ ⟨hr.1.le, hr.2⟩, rfl⟩
  refine ⟨_, key.1, ?_⟩
  unfold wait at hw
  rw [if_neg (by omega)] at hw
  dsimp only at hw
  generalize toInt _ = o at hw
  cases o with
  | error => cases hw
  | ub => cases hw
  | ok p =>
    cases hw
    show |c'.dh| / c'.hs + |c'.dv| / c'.vs = _
    rw [key.2]

/-- A camera at −170° that is aimed at 170° turns by 20°, not by 340°. -/
example : Rotation (-170) 170 20 := by
  have := wrapChange_rotation (h := -170) (h' := 170) (by norm_num) (by norm_num)
  have e : |wrapChange (170 - -170)| = 20 := by
    unfold wrapChange
    rw [if_pos (by norm_num)]
    norm_num
  rwa [e] at this

/-- **C136, refuted.** A camera that stays where it is pays for its last motion again at every wait, because a wait does not forget it: after a turn of
90° at 90° per second, two waits (with no other delay) bring the time to two seconds instead of one. -/
theorem motion_repeated_refuted :
    ∃ c1 c2 c3, set cam0 .horiAngle 90 = .ok c1 ∧ wait c1 0 0 = .ok (true, c2) ∧ wait c2 0 0 = .ok (true, c3) ∧ c2.time = 1 ∧ c3.time = 2 ∧ c3.pos = 20 := by
  have hn : normHori 90 = 90 := by unfold normHori; rw [if_neg (by norm_num)]
  have hw : wrapChange (90 - 0) = 90 := by unfold wrapChange; norm_num
  have w1 : ∀ c : Cam, c.dh = 90 → c.hs = 90 → c.dv = 0 → c.firstTick = 0 → c.execBegin = 0 → c.overhead = 0 → c.comm = 0 → c.rate = 10 → c.count = 100 →
      ∀ n : ℤ, 0 ≤ n → n < 9 → c.time = n → c.pos = 10 * n → wait c 0 0 = .ok (true, { c with exec := 0, motion := 1, time := n + 1, pos := 10 * (n + 1), execBegin := 0 }) := by
    intro c a1 a2 a3 a4 a5 a6 a7 a8 a9 n n0 n9 a10 a11
    unfold wait
    rw [if_neg (by omega)]
    have e1 : |c.dh| / c.hs + |c.dv| / c.vs = 1 := by rw [a1, a2, a3]; norm_num
    have e2 : (0 : ℝ) - c.firstTick - c.execBegin - c.overhead = 0 := by rw [a4, a5, a6]; ring
    dsimp only
    rw [e1, e2, a7, a8, a10]
    have e3 : ((n : ℝ) + (c.ratio * 0 + 1 + 0)) = n + 1 := by ring
    have e4 : ((n : ℝ) + 1) * 10 + 1 / 2 = ((10 * (n + 1) : ℤ) : ℝ) + 1 / 2 := by push_cast; ring
    have n0' : (0 : ℝ) ≤ n := by exact_mod_cast n0
    have n9' : (n : ℝ) < 9 := by exact_mod_cast n9
    rw [e3, toInt_nonneg _ (by linarith) (by linarith), e4]
    have e5 : ⌊((10 * (n + 1) : ℤ) : ℝ) + 1 / 2⌋ = 10 * (n + 1) := by
      rw [Int.floor_eq_iff]; constructor <;> linarith
    rw [e5]
    have e6 : max (10 * (n + 1)) (c.pos + 1) = 10 * (n + 1) := by omega
    simp only [Out.bind, e6, a4, a9]
    rw [decide_eq_true (by omega : 10 * (n + 1) < 100)]
    norm_num
  refine ⟨_, _, _, rfl, w1 _ ?_ rfl rfl rfl rfl rfl rfl rfl rfl 0 (by norm_num) (by norm_num) ?_ ?_, w1 _ ?_ rfl rfl rfl rfl rfl rfl rfl rfl 1 (by norm_num) (by norm_num) ?_ ?_, ?_, ?_, ?_⟩
  · show wrapChange (normHori 90 - 0) = 90
    rw [hn, hw]
  · norm_num [cam0]
  · norm_num [cam0]
  · show wrapChange (normHori 90 - 0) = 90
    rw [hn, hw]
  · norm_num
  · norm_num
  · norm_num
  · norm_num
  · norm_num

/-! ## C137: playback -/

/-- **C137.** Playback begins at any frame of the video, at the time of this frame, and is refused for any other. -/
theorem play_begins (c : Cam) (idx : ℤ) (now : ℝ) (hc : c.count < 2 ^ 31) :
    (0 ≤ idx ∧ idx < c.count → ∃ c', beginPlaying c idx now = .ok c' ∧ c'.pos = idx ∧ c'.time = idx / c.rate) ∧
    (¬(0 ≤ idx ∧ idx < c.count) → beginPlaying c idx now = .error) := by
  constructor
  · intro hi
    have h0 : (0 : ℝ) ≤ idx := by exact_mod_cast hi.1
    have h1 : (idx : ℝ) + 1 ≤ c.count := by exact_mod_cast hi.2
    have h2 : (idx : ℝ) < 2 ^ 31 := by exact_mod_cast (by omega : idx < 2 ^ 31)
    refine ⟨{ c with pos := idx, time := idx / c.rate, firstTick := now }, ?_, rfl, rfl⟩
    unfold beginPlaying
    simp only [set]
    rw [if_neg (by rintro (h | h) <;> linarith), toInt_nonneg _ h0 h2, Int.floor_intCast]
    rfl
  · intro hn
    unfold beginPlaying
    simp only [set]
    rw [if_pos]
    · rfl
    · by_contra hc'
      simp only [not_or, not_lt, gt_iff_lt] at hc'
      have a1 : (0 : ℤ) ≤ idx := by exact_mod_cast hc'.2
      have a2 : idx ≤ c.count - 1 := by exact_mod_cast hc'.1
      exact hn ⟨a1, by omega⟩

/-- **C137.** A wait, if the playback is not over: the simulated time grows by the time spent between the calls (scaled) and the delays of motion and
communication; the next frame is the nearest to this time, but at least the one after the current one; and the result says if there is such a frame.
The time spent is counted from the end of the last wait (`firstTick + execBegin`), which this one sets to its own end. -/
theorem wait_advances {c c' : Cam} (h0 : 0 ≤ c.pos) (hp : c.pos < c.count) {t1 t2 : ℝ} {r : Bool} (hw : wait c t1 t2 = .ok (r, c')) :
    c'.time = c.time + c.ratio * (t1 - (c.firstTick + c.execBegin) - c.overhead) + (|c.dh| / c.hs + |c.dv| / c.vs) + c.comm ∧
    c.pos < c'.pos ∧ c'.time * c.rate - 1 / 2 < c'.pos ∧ (c'.pos = c.pos + 1 ∨ c'.pos ≤ c'.time * c.rate + 1 / 2) ∧ (r = true ↔ c'.pos < c'.count) ∧ c'.count = c.count ∧
    c'.firstTick + c'.execBegin = t2 := by
  unfold wait at hw
  rw [if_neg (by omega)] at hw
  dsimp only at hw
  generalize hti : toInt _ = o at hw
  cases o with
  | error => cases hw
  | ub => cases hw
  | ok p =>
    have hpd := toInt_ok hti
    simp only [Out.bind, Out.ok.injEq, Prod.mk.injEq] at hw
    obtain ⟨h1, h2⟩ := hw
    subst h2 h1
    dsimp only
    generalize ht : c.time + (c.ratio * (t1 - c.firstTick - c.execBegin - c.overhead) + (|c.dh| / c.hs + |c.dv| / c.vs) + c.comm) = time at hpd
    have hp1 : time * c.rate + 1 / 2 < p + 1 := by
      rw [hpd]
      split_ifs with h0
      · exact Int.lt_floor_add_one _
      · have := Int.le_ceil (time * c.rate + 1 / 2)
        linarith
    have hm : (p : ℝ) ≤ (max p (c.pos + 1) : ℤ) := by exact_mod_cast le_max_left _ _
    refine ⟨by rw [← ht]; ring, by omega, by linarith, ?_, by simp, rfl, by ring⟩
    by_cases hcase : p ≤ c.pos + 1
    · left; omega
    · right
      rw [max_eq_left (by omega)]
      by_cases hs : 0 ≤ time * c.rate + 1 / 2
      · rw [hpd, if_pos hs]; exact Int.floor_le _
      · exfalso
        rw [hpd, if_neg hs] at hcase
        have : ⌈time * c.rate + 1 / 2⌉ ≤ 0 := Int.ceil_le.2 (by push_cast; linarith)
        omega

/-- **C137.** Playback ends: whatever the clock does, after as many waits as there are frames left a wait returns that the video is over. -/
theorem play_ends (ts : List (ℝ × ℝ)) (c : Cam) (h0 : 0 ≤ c.pos) (hn : ts ≠ []) (hl : c.count - c.pos ≤ ts.length) {r : Bool} {c' : Cam} (hw : waits c ts = .ok (r, c')) : r = false := by
  induction ts generalizing c with
  | nil => exact absurd rfl hn
  | cons t ts ih =>
    rw [waits] at hw
    cases h1 : wait c t.1 t.2 with
    | error => rw [h1] at hw; cases hw
    | ub => rw [h1] at hw; cases hw
    | ok a =>
      rw [h1] at hw
      cases ts with
      | nil =>
        simp only [Out.bind, Out.ok.injEq] at hw
        by_cases hp : c.pos < c.count
        · have := wait_advances h0 hp (r := a.1) (c' := a.2) h1
          rw [hw] at this
          by_contra hr
          have := this.2.2.2.2.1.1 (by simpa using hr)
          simp only [List.length_cons, List.length_nil] at hl
          omega
        · unfold wait at h1
          rw [if_pos (by omega)] at h1
          cases h1
          cases hw
          rfl
      | cons u us =>
        simp only [Out.bind] at hw
        refine ih a.2 ?_ (by simp) ?_ hw
        · by_cases hp : c.pos < c.count
          · have := wait_advances h0 hp (r := a.1) (c' := a.2) h1
            omega
          · unfold wait at h1
            rw [if_pos (by omega)] at h1
            cases h1
            exact h0
        simp only [List.length_cons] at hl ⊢
        by_cases hp : c.pos < c.count
        · have := wait_advances h0 hp (r := a.1) (c' := a.2) h1
          push_cast at hl ⊢
          omega
        · unfold wait at h1
          rw [if_pos (by omega)] at h1
          cases h1
          push_cast at hl ⊢
          omega

/-- A wait, for a camera that does not move and has no delay of communication. -/
theorem wait_still (c : Cam) (hd : c.dh = 0 ∧ c.dv = 0) (hcm : c.comm = 0) (hr : c.ratio = 1) (hp : c.pos < c.count) (t1 t2 T : ℝ)
    (hT : T = c.time + (t1 - c.firstTick - c.execBegin - c.overhead)) (p : ℤ) (ht : toInt (T * c.rate + 1 / 2) = .ok p) :
    wait c t1 t2 = .ok (decide (max p (c.pos + 1) < c.count),
      { c with exec := t1 - c.firstTick - c.execBegin - c.overhead, motion := 0, time := T, pos := max p (c.pos + 1), execBegin := t2 - c.firstTick }) := by
  unfold wait
  rw [if_neg (by omega)]
  have e : c.time + (c.ratio * (t1 - c.firstTick - c.execBegin - c.overhead) + (|c.dh| / c.hs + |c.dv| / c.vs) + c.comm) = T := by
    rw [hT, hd.1, hd.2, hcm, hr]; simp
  dsimp only
  rw [e, ht, hd.1, hd.2]
  simp [Out.bind]

/-- **C137, refuted.** A second playback does not start like the first: its clock is set to zero, but not the beginning of the current execution. A
wait one second after the beginning of the first playback brings it to the tenth frame (at ten frames per second); a wait one second after the beginning
of the second one, to the first frame, at the time of −8 seconds. -/
theorem play_again_refuted :
    ∃ c1 c2 c3 c4, beginPlaying cam0 0 100 = .ok c1 ∧ wait c1 101 109 = .ok (true, c2) ∧ c2.pos = 10 ∧ c2.time = 1 ∧
      beginPlaying c2 0 200 = .ok c3 ∧ wait c3 201 201 = .ok (true, c4) ∧ c4.pos = 1 ∧ c4.time = -8 := by
  have p0 : ∀ c : Cam, c.count = 100 → ∀ now, beginPlaying c 0 now = .ok { c with pos := 0, time := 0 / c.rate, firstTick := now } := by
    intro c hc now
    unfold beginPlaying
    simp only [set]
    rw [if_neg (by rw [hc]; norm_num), toInt_nonneg _ (by norm_num) (by norm_num)]
    simp [Out.bind]
  have ta : toInt ((1 : ℝ) * 10 + 1 / 2) = .ok 10 := by
    rw [toInt_nonneg _ (by norm_num) (by norm_num)]
    congr 1
    rw [Int.floor_eq_iff]; norm_num
  have tb : toInt ((-8 : ℝ) * 10 + 1 / 2) = .ok (-79) := by
    have : ⌈(-8 : ℝ) * 10 + 1 / 2⌉ = -79 := by rw [Int.ceil_eq_iff]; norm_num
    unfold toInt
    have hn : ¬(0 : ℝ) ≤ -8 * 10 + 1 / 2 := by norm_num
    simp only [hn, if_false, this]
    norm_num
  refine ⟨_, _, _, _, p0 _ rfl _, wait_still _ ⟨rfl, rfl⟩ rfl rfl (by simp [cam0]) 101 109 1 (by norm_num [cam0]) 10 ta, rfl, rfl, p0 _ rfl _,
    wait_still _ ⟨rfl, rfl⟩ rfl rfl (by simp [cam0]) 201 201 (-8) (by norm_num [cam0]) (-79) tb, rfl, rfl⟩

/-- The largest `double`, the frame rate that a camera gets for a single image (line 63). -/
noncomputable def dblMax : ℝ := (2 ^ 53 - 1) * 2 ^ 971

/-- **C137, refuted.** A camera on a single image: as soon as a nanosecond has passed, the position of the frame is computed as a number far beyond the
range of `int`, and its conversion is undefined. -/
theorem still_image_refuted (c : Cam) (hr : c.rate = dblMax) (hp : c.pos < c.count) (t1 t2 : ℝ)
    (ht : 1 / 10 ^ 9 ≤ c.time + (c.ratio * (t1 - c.firstTick - c.execBegin - c.overhead) + (|c.dh| / c.hs + |c.dv| / c.vs) + c.comm)) : wait c t1 t2 = .ub := by
  unfold wait
  rw [if_neg (by omega)]
  dsimp only
  generalize c.time + (c.ratio * (t1 - c.firstTick - c.execBegin - c.overhead) + (|c.dh| / c.hs + |c.dv| / c.vs) + c.comm) = T at ht
  rw [hr]
  have hb : (2 : ℝ) ^ 31 ≤ T * dblMax := by
    have h1 : (2 : ℝ) ^ 64 ≤ dblMax := by
      unfold dblMax
      have : (2 : ℝ) ^ 64 ≤ 2 ^ 971 := pow_le_pow_right₀ (by norm_num) (by norm_num)
      have h2 : (1 : ℝ) ≤ 2 ^ 53 - 1 := by norm_num
      exact this.trans (le_mul_of_one_le_left (by positivity) h2)
    have h3 : (2 : ℝ) ^ 31 ≤ 1 / 10 ^ 9 * 2 ^ 64 := by norm_num
    have h4 : 1 / 10 ^ 9 * (2 : ℝ) ^ 64 ≤ T * dblMax := by
      have : (0 : ℝ) ≤ 1 / 10 ^ 9 := by norm_num
      nlinarith
    linarith
  have hu : toInt (T * dblMax + 1 / 2) = .ub := by
    unfold toInt
    rw [if_neg]
    rintro ⟨-, h⟩
    rw [if_pos (by linarith [show (0 : ℝ) ≤ 2 ^ 31 by norm_num]), Int.floor_lt] at h
    push_cast at h
    linarith
  rw [hu]
  rfl

/-- Such a camera, one second after the beginning. -/
example : wait { cam0 with rate := dblMax, count := 1 } 1 1 = .ub :=
  still_image_refuted _ rfl (by simp [cam0]) 1 1 (by simp [cam0]; norm_num)

/-- A playback of the camera above, with a wait. -/
example : ∃ c', wait cam0 1 1 = .ok (true, c') ∧ c'.pos = 10 := by
  refine ⟨_, wait_still cam0 ⟨rfl, rfl⟩ rfl rfl (by simp [cam0]) 1 1 1 (by norm_num [cam0]) 10 ?_, rfl⟩
  show toInt ((1 : ℝ) * 10 + 1 / 2) = .ok 10
  rw [toInt_nonneg _ (by norm_num) (by norm_num)]
  congr 1
  rw [Int.floor_eq_iff]; norm_num

end Litiv.VptzCam
