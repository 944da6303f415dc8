import Verif.Lemmas.Vptz

/-!
# C133, C134 — the virtual camera: pixels and directions; C135 — boxes of the ground truth

The vocabulary (`dir`, `right`, `up`, `Valid`, `Appears`, `cosBetween`) is that of `Verif.Spec.Vptz`: a direction *appears* at a position of the
image if the ray through this position, on the image plane of a pinhole camera, has this direction.
-/

namespace Litiv.Vptz
open Real Matrix Spec

/-! ## C133: from pixels to directions -/

/-- **C133.** For a valid camera and a pixel of its image, the conversion succeeds, with angles in their ranges, and the direction it gives
appears at this pixel. -/
theorem pixel_direction {W H : ℤ} {fov h v : ℝ} (V : Valid W H fov h v) (x y : ℤ) (hx : 0 ≤ x ∧ x < W) (hy : 0 ≤ y ∧ y < H) :
    ∃ th tv, xyToHV x y W H fov h v = .ok (th, tv) ∧ (-180 < th ∧ th ≤ 180) ∧ (0 ≤ tv ∧ tv ≤ 180) ∧ Appears W H fov h v x y (dir th tv) :=
  xyToHV_spec V x y hx hy

/-- **C133.** Anything else is refused: an exception is thrown for exactly the pixels outside of the image and the invalid cameras. -/
theorem pixel_direction_refuses {W H : ℤ} {fov h v : ℝ} (x y : ℤ) :
    xyToHV x y W H fov h v = .error ↔ ¬(Valid W H fov h v ∧ (0 ≤ x ∧ x < W) ∧ 0 ≤ y ∧ y < H) := by
  constructor
  · rintro he ⟨V, hx, hy⟩
    obtain ⟨th, tv, e, -⟩ := xyToHV_spec V x y hx hy
    rw [e] at he
    cases he
  · intro hn
    unfold xyToHV
    rw [if_pos]
    by_contra hc
    simp only [not_or, not_lt, not_le, ge_iff_le, gt_iff_lt] at hc
    obtain ⟨a1, a2, a3, a4, a5, a6, a7, a8, a9, a10, a11, a12⟩ := hc
    exact hn ⟨⟨a1, a2, ⟨a7, a8⟩, ⟨a9, a10⟩, ⟨a11, a12⟩⟩, ⟨a3, a4⟩, a5, a6⟩

/-- **C133.** Round trip: a pixel converted to a direction and back is the same pixel, for every camera and every pixel of its image. -/
theorem pixel_round_trip {W H : ℤ} {fov h v : ℝ} (V : Valid W H fov h v) (x y : ℤ) (hx : 0 ≤ x ∧ x < W) (hy : 0 ≤ y ∧ y < H) (hW : W < 2 ^ 31) (hH : H < 2 ^ 31) :
    ((xyToHV x y W H fov h v).bind fun a => hvToXY a.1 a.2 W H fov h v) = .ok (true, x, y) := by
  obtain ⟨th, tv, e, h1, h2, ha⟩ := xyToHV_spec V x y hx hy
  rw [e]
  show hvToXY th tv W H fov h v = _
  rw [hvToXY_appears V th tv h1 h2 _ _ ha]
  have key : ∀ z : ℤ, 0 ≤ z → z < 2 ^ 31 - 1 → toInt ((z : ℝ) + 1 / 2) = .ok z := by
    intro z h0 h1
    have h0' : (0 : ℝ) ≤ z := by exact_mod_cast h0
    have h1' : (z : ℝ) + 1 < 2 ^ 31 := by exact_mod_cast (by omega : z + 1 < 2 ^ 31)
    rw [toInt_nonneg _ (by linarith) (by linarith)]
    congr 1
    rw [Int.floor_eq_iff]
    constructor <;> linarith
  rw [key x hx.1 (by omega), key y hy.1 (by omega)]
  rfl

/-- A camera. -/
theorem valid_example : Valid 640 480 90 30 100 := ⟨by norm_num, by norm_num, by norm_num, by norm_num, by norm_num⟩

example : ((xyToHV 17 300 640 480 90 30 100).bind fun a => hvToXY a.1 a.2 640 480 90 30 100) = .ok (true, 17, 300) :=
  pixel_round_trip valid_example 17 300 (by norm_num) (by norm_num) (by norm_num) (by norm_num)

/-! ## C134: from directions to pixels -/

/-- **C134, proved part.** A direction that appears at a position which is not left of the first column of pixels nor above the first row (a pixel
extends for half its size on both sides of its position), and whose coordinates are those of an `int`, is given the nearest pixel, even beyond the
right and bottom borders. (Missing: positions to the left and above, for which see `pixel_of_direction_refuted`.) -/
theorem pixel_of_direction_partial {W H : ℤ} {fov h v : ℝ} (V : Valid W H fov h v) (th tv : ℝ) (hth : -180 < th ∧ th ≤ 180) (htv : 0 ≤ tv ∧ tv ≤ 180) (p q : ℝ)
    (ha : Appears W H fov h v p q (dir th tv)) (hp : -1 / 2 ≤ p ∧ p < 2 ^ 31 - 1 / 2) (hq : -1 / 2 ≤ q ∧ q < 2 ^ 31 - 1 / 2) :
    ∃ X Y : ℤ, hvToXY th tv W H fov h v = .ok (true, X, Y) ∧ (X - 1 / 2 ≤ p ∧ p < X + 1 / 2) ∧ (Y - 1 / 2 ≤ q ∧ q < Y + 1 / 2) := by
  refine ⟨⌊p + 1 / 2⌋, ⌊q + 1 / 2⌋, ?_, ?_, ?_⟩
  · rw [hvToXY_appears V th tv hth htv p q ha, toInt_nonneg _ (by linarith) (by linarith), toInt_nonneg _ (by linarith) (by linarith)]
    rfl
  · have h1 := Int.floor_le (p + 1 / 2)
    have h2 := Int.lt_floor_add_one (p + 1 / 2)
    constructor <;> linarith
  · have h1 := Int.floor_le (q + 1 / 2)
    have h2 := Int.lt_floor_add_one (q + 1 / 2)
    constructor <;> linarith

/-- **C134.** A direction at less than 90 degrees of that of the camera appears at exactly one position (so the theorem above says what its pixel is),
and no other direction appears anywhere. -/
theorem appears_once {W H : ℤ} {fov h v : ℝ} (V : Valid W H fov h v) (th tv : ℝ) :
    (0 < cosBetween h v th tv → ∃! a : ℝ × ℝ, Appears W H fov h v a.1 a.2 (dir th tv)) ∧
    (cosBetween h v th tv ≤ 0 → ∀ p q, ¬Appears W H fov h v p q (dir th tv)) := by
  have hps := pixelSize_pos V.height V.fov
  constructor
  · intro hc
    have hc' : 0 < dot (dir h v) (dir th tv) := hc
    refine ⟨(W / 2 + dot (right h) (dir th tv) / dot (dir h v) (dir th tv) / pixelSize H fov, H / 2 - dot (up h v) (dir th tv) / dot (dir h v) (dir th tv) / pixelSize H fov), ?_, ?_⟩
    · refine (appears_iff V _ _ _).2 ⟨hc', ?_, ?_⟩
      · dsimp only; field_simp; ring
      · dsimp only; field_simp; ring
    · rintro ⟨p, q⟩ ha
      obtain ⟨h1, h2, h3⟩ := (appears_iff V _ _ _).1 ha
      refine Prod.ext ?_ ?_
      · show p = _
        rw [h2]; field_simp; ring
      · show q = _
        rw [h3]; field_simp; ring
  · intro hc p q ha
    exact absurd ((appears_iff V _ _ _).1 ha).1 (not_lt.2 hc)

/-- **C134.** A direction at more than 90 degrees of that of the camera is reported as out of view, with the largest `int` as its coordinates. -/
theorem pixel_behind {W H : ℤ} {fov h v : ℝ} (V : Valid W H fov h v) (th tv : ℝ) (hth : -180 < th ∧ th ≤ 180) (htv : 0 ≤ tv ∧ tv ≤ 180)
    (hc : cosBetween h v th tv < 0) : hvToXY th tv W H fov h v = .ok (false, 2 ^ 31 - 1, 2 ^ 31 - 1) := by
  rw [hvToXY_eq V th tv hth htv, if_pos (show dot (dir h v) (dir th tv) < 0 from hc)]
  rfl

/-- **C134, refuted.** A direction at exactly 90 degrees of that of the camera passes the check and is projected with a division by zero: the
coordinates are infinite, or not a number, and their conversion is undefined. -/
theorem pixel_right_angle_refuted {W H : ℤ} {fov h v : ℝ} (V : Valid W H fov h v) (th tv : ℝ) (hth : -180 < th ∧ th ≤ 180) (htv : 0 ≤ tv ∧ tv ≤ 180)
    (hc : cosBetween h v th tv = 0) : hvToXY th tv W H fov h v = .ub := by
  have hc' : dot (dir h v) (dir th tv) = 0 := hc
  rw [hvToXY_eq V th tv hth htv, if_neg (by rw [hc']; exact lt_irrefl _), if_pos hc']

/-- A camera along the horizon and the zenith are at 90 degrees. -/
theorem cos_zenith : cosBetween 0 90 0 0 = 0 := by
  have e : rad 90 = π / 2 := by unfold rad; ring
  have e0 : rad 0 = 0 := by unfold rad; ring
  simp [cosBetween, dir, e, e0]

example : hvToXY 0 0 640 480 90 0 90 = .ub :=
  pixel_right_angle_refuted ⟨by norm_num, by norm_num, by norm_num, by norm_num, by norm_num⟩ 0 0 (by norm_num) (by norm_num) cos_zenith

/-- **C134, refuted.** Positions further to the left (or above) are not given the nearest pixel, because the conversion truncates toward zero: for a
camera with two columns, a direction that appears at column −1, out of view, is said to be in column 0. -/
theorem pixel_of_direction_refuted :
    ∃ th tv : ℝ, (-180 < th ∧ th ≤ 180) ∧ (0 ≤ tv ∧ tv ≤ 180) ∧ Appears 2 2 90 0 90 (-1) 1 (dir th tv) ∧ hvToXY th tv 2 2 90 0 90 = .ok (true, 0, 1) := by
  have V : Valid 2 2 90 0 90 := ⟨by norm_num, by norm_num, by norm_num, by norm_num, by norm_num⟩
  have hpos : (0 : ℝ) < (![1, 2, 0] : Fin 3 → ℝ) 0 * (![1, 2, 0] : Fin 3 → ℝ) 0 + (![1, 2, 0] : Fin 3 → ℝ) 1 * (![1, 2, 0] : Fin 3 → ℝ) 1 +
      (![1, 2, 0] : Fin 3 → ℝ) 2 * (![1, 2, 0] : Fin 3 → ℝ) 2 := by
    show (0 : ℝ) < 1 * 1 + 2 * 2 + 0 * 0
    norm_num
  obtain ⟨th, tv, a, b, hs⟩ := angles_of (![1, 2, 0] : Fin 3 → ℝ) hpos
  have ha : Appears 2 2 90 0 90 (-1) 1 (dir th tv) := by
    refine ⟨_, Real.sqrt_pos.2 hpos, fun i => ?_⟩
    rw [hs i]
    have e : rad 90 = π / 2 := by unfold rad; ring
    have e0 : rad 0 = 0 := by unfold rad; ring
    have e2 : pixelSize 2 90 = 1 := by
      unfold pixelSize
      rw [e, show π / 2 / 2 = π / 4 by ring, Real.tan_pi_div_four]; norm_num
    rw [e2]
    unfold dir right up
    rw [e, e0]
    fin_cases i <;> norm_num
  refine ⟨th, tv, a, b, ha, ?_⟩
  rw [hvToXY_appears V _ _ a b _ _ ha]
  have t0 : toInt ((-1 : ℝ) + 1 / 2) = .ok 0 := by
    have : ⌈(-1 : ℝ) + 1 / 2⌉ = 0 := by rw [Int.ceil_eq_iff]; norm_num
    unfold toInt
    have hn : ¬(0 : ℝ) ≤ -1 + 1 / 2 := by norm_num
    simp only [hn, if_false, this]
    norm_num
  have t1 : toInt ((1 : ℝ) + 1 / 2) = .ok 1 := by
    rw [toInt_nonneg _ (by norm_num) (by norm_num)]
    congr 1
    rw [Int.floor_eq_iff]; norm_num
  rw [t0, t1]
  rfl

/-- **C134.** The direction of the camera itself is the centre of the image: its pixel is half of the size, rounded up. -/
theorem pixel_of_camera {W H : ℤ} {fov h v : ℝ} (V : Valid W H fov h v) (hW : W < 2 ^ 31) (hH : H < 2 ^ 31) :
    hvToXY h v W H fov h v = .ok (true, (W + 1) / 2, (H + 1) / 2) := by
  have ha : Appears W H fov h v (W / 2) (H / 2) (dir h v) := ⟨1, one_pos, fun i => by ring⟩
  rw [hvToXY_appears V h v V.hori V.verti _ _ ha]
  have key : ∀ z : ℤ, 1 ≤ z → z < 2 ^ 31 → toInt ((z : ℝ) / 2 + 1 / 2) = .ok ((z + 1) / 2) := by
    intro z h1 h2
    have e : (z : ℝ) / 2 + 1 / 2 = ((z + 1 : ℤ) : ℝ) / ((2 : ℕ) : ℝ) := by push_cast; ring
    have h1' : (1 : ℝ) ≤ z := by exact_mod_cast h1
    have h2' : (z : ℝ) < 2 ^ 31 := by exact_mod_cast h2
    rw [toInt_nonneg _ (by linarith) (by linarith), e, Int.floor_div_natCast]
    simp
  rw [key W V.width hW, key H V.height hH]
  rfl

/-! ## C135: ground truth seen by another camera -/

/-- **C135, proved part.** If the current camera is that of the ground truth and looks at the target, the box that the translation gives is exactly
the box of the ground truth, centred in the image, for every box smaller than the image. -/
theorem box_same_camera_partial {W H : ℤ} {fov h v : ℝ} (V : Valid W H fov h v) (hW : W < 2 ^ 31) (hH : H < 2 ^ 31) (bw bh : ℤ) (h1 : 0 ≤ bw ∧ bw < W)
    (h2 : 0 ≤ bh ∧ bh < H) (old : Rect) :
    gtBox ⟨W, H, fov, h, v, W, H, fov⟩ h v bw bh old = .ok (true, ⟨(W - bw) / 2, (H - bh) / 2, (W + bw) / 2 - (W - bw) / 2, (H + bh) / 2 - (H - bh) / 2⟩) ∧
    (W + bw) / 2 - (W - bw) / 2 = bw ∧ (H + bh) / 2 - (H - bh) / 2 = bh := by
  refine ⟨?_, by omega, by omega⟩
  unfold gtBox
  rw [if_neg (by
    have := V.hori; have := V.verti
    rintro (h | h | h | h | h | h | h | h) <;> first | linarith | omega)]
  dsimp only
  rw [Int.tdiv_eq_ediv_of_nonneg (by omega), Int.tdiv_eq_ediv_of_nonneg (by omega), Int.tdiv_eq_ediv_of_nonneg (by omega), Int.tdiv_eq_ediv_of_nonneg (by omega)]
  have key : ∀ x y : ℤ, 0 ≤ x ∧ x < W → 0 ≤ y ∧ y < H → ∃ a : ℝ × ℝ, xyToHV x y W H fov h v = .ok a ∧ hvToXY a.1 a.2 W H fov h v = .ok (true, x, y) := by
    intro x y hx hy
    obtain ⟨th, tv, e, -⟩ := xyToHV_spec V x y hx hy
    have := pixel_round_trip V x y hx hy hW hH
    rw [e] at this
    exact ⟨(th, tv), e, this⟩
  obtain ⟨a, e1, e2⟩ := key ((W - bw) / 2) ((H - bh) / 2) (by omega) (by omega)
  obtain ⟨b, e3, e4⟩ := key ((W - bw) / 2) ((H + bh) / 2) (by omega) (by omega)
  obtain ⟨c, e5, e6⟩ := key ((W + bw) / 2) ((H - bh) / 2) (by omega) (by omega)
  obtain ⟨d, e7, e8⟩ := key ((W + bw) / 2) ((H + bh) / 2) (by omega) (by omega)
  rw [e1, e3, e5, e7]
  simp only [Out.bind, e2, e4, e6, e8, Bool.true_eq_false, if_false]
  unfold Rect.of
  have dbl : ∀ z : ℤ, (z + z).tdiv 2 = z := by intro z; rw [← two_mul]; exact Int.mul_tdiv_cancel_left z (by norm_num)
  rw [dbl, dbl, dbl, dbl, min_eq_left (by omega), min_eq_left (by omega), max_eq_right (by omega), max_eq_right (by omega)]

example : gtBox ⟨640, 480, 90, 30, 100, 640, 480, 90⟩ 30 100 41 20 ⟨0, 0, 0, 0⟩ = .ok (true, ⟨299, 230, 41, 20⟩) := by
  have := (box_same_camera_partial valid_example (by norm_num) (by norm_num) 41 20 (by norm_num) (by norm_num) ⟨0, 0, 0, 0⟩).1
  norm_num at this
  exact this

/-- **C135, refuted.** A box as wide as the image passes the check on the parameters, but its right side is then outside of the image and an exception
is thrown, whatever the cameras. -/
theorem box_full_width_refuted (t : Translator) (bh bv : ℝ) (bht : ℤ) (old : Rect) : gtBox t bh bv t.bW bht old = .error := by
  unfold gtBox
  by_cases hc : bh ≤ -180 ∨ bh > 180 ∨ bv < 0 ∨ bv > 180 ∨ t.bW < 0 ∨ t.bW > t.bW ∨ bht < 0 ∨ bht > t.bH
  · rw [if_pos hc]
  · rw [if_neg hc]
    dsimp only
    have hr : (t.bW + t.bW).tdiv 2 = t.bW := by rw [← two_mul]; exact Int.mul_tdiv_cancel_left _ (by norm_num)
    have he : ∀ y, xyToHV t.bW y t.bW t.bH t.bfov bh bv = .error := fun y => (pixel_direction_refuses _ _).2 (by rintro ⟨-, h, -⟩; omega)
    have nu : ∀ x y, xyToHV x y t.bW t.bH t.bfov bh bv ≠ .ub := by
      intro x y e
      unfold xyToHV at e
      split at e <;> cases e
    rw [hr, he]
    cases h1 : xyToHV ((t.bW - t.bW).tdiv 2) ((t.bH - bht).tdiv 2) t.bW t.bH t.bfov bh bv with
    | error => rfl
    | ub => exact absurd h1 (nu _ _)
    | ok a =>
      cases h2 : xyToHV ((t.bW - t.bW).tdiv 2) ((t.bH + bht).tdiv 2) t.bW t.bH t.bfov bh bv with
      | error => rfl
      | ub => exact absurd h2 (nu _ _)
      | ok b => rfl

/-- **C135.** A target behind the camera is reported as such, and the box passed by the caller is left as it was: if the ground truth has a valid
direction and its four corners are all more than 90 degrees away from the camera. (One is enough: the first one is tested first.) -/
theorem box_behind {t : Translator} (V : Valid t.W t.H t.fov t.h t.v) {bh bv : ℝ} (B : Valid t.bW t.bH t.bfov bh bv) (bw bht : ℤ) (h1 : 0 ≤ bw ∧ bw < t.bW)
    (h2 : 0 ≤ bht ∧ bht < t.bH) (old : Rect)
    (hb : ∀ th tv, Appears t.bW t.bH t.bfov bh bv ((t.bW - bw) / 2 : ℤ) ((t.bH - bht) / 2 : ℤ) (dir th tv) → cosBetween t.h t.v th tv < 0) :
    gtBox t bh bv bw bht old = .ok (false, old) := by
  unfold gtBox
  rw [if_neg (by
    have := B.hori; have := B.verti
    rintro (h | h | h | h | h | h | h | h) <;> first | linarith | omega)]
  dsimp only
  rw [Int.tdiv_eq_ediv_of_nonneg (by omega), Int.tdiv_eq_ediv_of_nonneg (by omega), Int.tdiv_eq_ediv_of_nonneg (by omega), Int.tdiv_eq_ediv_of_nonneg (by omega)]
  obtain ⟨a1, a2, e1, r1, r2, ap⟩ := xyToHV_spec B ((t.bW - bw) / 2) ((t.bH - bht) / 2) (by omega) (by omega)
  obtain ⟨b1, b2, e3, -⟩ := xyToHV_spec B ((t.bW - bw) / 2) ((t.bH + bht) / 2) (by omega) (by omega)
  obtain ⟨c1, c2, e5, -⟩ := xyToHV_spec B ((t.bW + bw) / 2) ((t.bH - bht) / 2) (by omega) (by omega)
  obtain ⟨d1, d2, e7, -⟩ := xyToHV_spec B ((t.bW + bw) / 2) ((t.bH + bht) / 2) (by omega) (by omega)
  rw [e1, e3, e5, e7]
  simp only [Out.bind, pixel_behind V a1 a2 r1 r2 (hb _ _ ap), if_true]

/-- A target in the back of the camera. -/
example (old : Rect) : gtBox ⟨2, 2, 90, 0, 90, 2, 2, 90⟩ 180 90 0 0 old = .ok (false, old) := by
  refine box_behind (t := ⟨2, 2, 90, 0, 90, 2, 2, 90⟩) ⟨by norm_num, by norm_num, by norm_num, by norm_num, by norm_num⟩
    ⟨by norm_num, by norm_num, by norm_num, by norm_num, by norm_num⟩ 0 0 (by norm_num) (by norm_num) old ?_
  rintro th tv ⟨t, ht, he⟩
  have e : rad 90 = π / 2 := by unfold rad; ring
  have e0 : rad 0 = 0 := by unfold rad; ring
  have e1 : rad 180 = π := by unfold rad; ring
  have h0 := he 0
  norm_num at h0
  unfold cosBetween
  have k0 : dir 0 90 0 = 1 := by unfold dir; simp [e, e0]
  have k1 : dir 0 90 1 = 0 := by unfold dir; simp [e, e0]
  have k2 : dir 0 90 2 = 0 := by unfold dir; simp [e]
  have k3 : dir 180 90 0 = -1 := by unfold dir; simp [e, e1]
  rw [k0, k1, k2]
  rw [k3] at h0
  by_contra hn
  nlinarith

/-- **C135.** The point of the target is what the current camera sees of its direction. -/
theorem gt_point {t : Translator} (V : Valid t.W t.H t.fov t.h t.v) (bh bv : ℝ) (hb : -180 < bh ∧ bh ≤ 180) (hv : 0 ≤ bv ∧ bv ≤ 180) (p q : ℝ)
    (ha : Appears t.W t.H t.fov t.h t.v p q (dir bh bv)) (hp : -1 / 2 ≤ p ∧ p < 2 ^ 31 - 1 / 2) (hq : -1 / 2 ≤ q ∧ q < 2 ^ 31 - 1 / 2) :
    ∃ X Y : ℤ, gtPoint t bh bv = .ok (true, X, Y) ∧ (X - 1 / 2 ≤ p ∧ p < X + 1 / 2) ∧ (Y - 1 / 2 ≤ q ∧ q < Y + 1 / 2) := by
  unfold gtPoint
  rw [if_neg (by rintro (h | h | h | h) <;> linarith)]
  exact pixel_of_direction_partial V bh bv hb hv p q ha hp hq

example : ∃ X Y : ℤ, gtPoint ⟨640, 480, 90, 30, 100, 320, 240, 60⟩ 30 100 = .ok (true, X, Y) ∧ ((X : ℝ) - 1 / 2 ≤ 320 ∧ (320 : ℝ) < X + 1 / 2) ∧
    ((Y : ℝ) - 1 / 2 ≤ 240 ∧ (240 : ℝ) < Y + 1 / 2) :=
  gt_point valid_example 30 100 (by norm_num) (by norm_num) 320 240 ⟨1, one_pos, fun i => by push_cast; ring⟩ (by norm_num) (by norm_num)

/-- **C135, refuted.** The update of the view checks the angles it replaces instead of those it is given: from a valid state it accepts any angles,
and the translation then throws; from the state it has left, it refuses valid angles. -/
theorem update_view_refuted (t : Translator) (ht : (-180 < t.h ∧ t.h ≤ 180) ∧ 0 ≤ t.v ∧ t.v ≤ 180) (bh bv h v : ℝ) :
    updateView t 500 90 = .ok { t with h := 500, v := 90 } ∧ gtPoint { t with h := 500, v := 90 } bh bv = .error ∧
    updateView { t with h := 500, v := 90 } h v = .error := by
  refine ⟨?_, ?_, ?_⟩
  · unfold updateView
    rw [if_neg (by rintro (h | h | h | h) <;> linarith)]
  · unfold gtPoint
    split
    · rfl
    · unfold hvToXY
      rw [if_pos (by norm_num)]
  · unfold updateView
    rw [if_pos (by norm_num)]

end Litiv.Vptz
