import Verif.Spec.Vptz

/-!
# Lemmas about the virtual camera
-/

namespace Litiv.Vptz
open Real Matrix Spec

theorem d2r_r2d (x : ℝ) : d2r (r2d x) = x := by
  unfold d2r r2d
  field_simp

theorem d2r_rad (x : ℝ) : d2r x = rad x := rfl

theorem onSphere_dir (h v : ℝ) : onSphere h v = dir h v := rfl

theorem view_eq (h v : ℝ) : view h v = !![right h 0, right h 1, right h 2; up h v 0, up h v 1, up h v 2; -dir h v 0, -dir h v 1, -dir h v 2] := by
  have e1 : d2r (v - 180) = rad v - π := by unfold d2r rad; ring
  have e2 : d2r (90 - h) = π / 2 - rad h := by unfold d2r rad; ring
  unfold view rotX rotZ
  rw [e1, e2, cos_sub_pi, sin_sub_pi, cos_pi_div_two_sub, sin_pi_div_two_sub]
  ext i j
  fin_cases i <;> fin_cases j <;> simp [Matrix.mul_apply, Fin.sum_univ_three, dir, right, up]

/-! ## The camera frame is orthonormal -/

theorem rr (h : ℝ) : dot (right h) (right h) = 1 := by
  simp only [dot, right]; simp; nlinarith [sin_sq_add_cos_sq (rad h)]

theorem uu (h v : ℝ) : dot (up h v) (up h v) = 1 := by
  have h1 := sin_sq_add_cos_sq (rad h)
  have h2 := sin_sq_add_cos_sq (rad v)
  simp only [dot, up]; simp; linear_combination (cos (rad v)) ^ 2 * h1 + h2

theorem dd (h v : ℝ) : dot (dir h v) (dir h v) = 1 := by
  have h1 := sin_sq_add_cos_sq (rad h)
  have h2 := sin_sq_add_cos_sq (rad v)
  simp only [dot, dir]; simp; linear_combination (sin (rad v)) ^ 2 * h1 + h2

theorem ru (h v : ℝ) : dot (right h) (up h v) = 0 := by
  simp only [dot, up, right]; simp; ring

theorem rd (h v : ℝ) : dot (right h) (dir h v) = 0 := by
  simp only [dot, dir, right]; simp; ring

theorem ud (h v : ℝ) : dot (up h v) (dir h v) = 0 := by
  have h1 := sin_sq_add_cos_sq (rad h)
  simp only [dot, dir, up]; simp; linear_combination (-(cos (rad v)) * sin (rad v)) * h1

/-- The frame spans: every vector is the sum of its components. -/
theorem span (h v : ℝ) (d : Fin 3 → ℝ) (i : Fin 3) :
    d i = dot (dir h v) d * dir h v i + dot (right h) d * right h i + dot (up h v) d * up h v i := by
  have h1 := sin_sq_add_cos_sq (rad h)
  have h2 := sin_sq_add_cos_sq (rad v)
  simp only [dot, dir, right, up]
  fin_cases i <;> simp
  · linear_combination (-d 0) * h1 + (-(d 0 * cos (rad h) ^ 2) - d 1 * sin (rad h) * cos (rad h)) * h2
  · linear_combination (-d 1) * h1 + (-(d 0 * cos (rad h) * sin (rad h)) - d 1 * sin (rad h) ^ 2) * h2
  · linear_combination (-d 2) * h2

theorem view_inv (h v : ℝ) : (view h v)⁻¹ = (view h v)ᵀ := by
  refine Matrix.inv_eq_right_inv ?_
  rw [view_eq]
  have a1 := rr h
  have a2 := uu h v
  have a3 := dd h v
  have a4 := ru h v
  have a5 := rd h v
  have a6 := ud h v
  unfold dot at a1 a2 a3 a4 a5 a6
  ext i j
  fin_cases i <;> fin_cases j <;> simp [Matrix.mul_apply, Fin.sum_univ_three]
  all_goals linarith

theorem view_mulVec (h v : ℝ) (d : Fin 3 → ℝ) : view h v *ᵥ d = ![dot (right h) d, dot (up h v) d, -dot (dir h v) d] := by
  rw [view_eq]
  ext i
  fin_cases i <;> simp [Matrix.mulVec, dotProduct, Fin.sum_univ_three, dot]
  ring

theorem inv_mulVec (h v : ℝ) (c : Fin 3 → ℝ) (i : Fin 3) : ((view h v)⁻¹ *ᵥ c) i = c 0 * right h i + c 1 * up h v i - c 2 * dir h v i := by
  rw [view_inv, view_eq]
  fin_cases i <;> simp [Matrix.mulVec, dotProduct, Fin.sum_univ_three] <;> ring

/-! ## Spherical coordinates -/

theorem sphere_coords (r : Fin 3 → ℝ) (hr : 0 < r 0 * r 0 + r 1 * r 1 + r 2 * r 2) (i : Fin 3) :
    √(r 0 * r 0 + r 1 * r 1 + r 2 * r 2) * dir (r2d (Complex.arg ⟨r 0, r 1⟩)) (r2d (arccos (r 2 / √(r 0 * r 0 + r 1 * r 1 + r 2 * r 2)))) i = r i := by
  set R := √(r 0 * r 0 + r 1 * r 1 + r 2 * r 2) with hR
  have hR0 : 0 < R := Real.sqrt_pos.2 hr
  have hR2 : R * R = r 0 * r 0 + r 1 * r 1 + r 2 * r 2 := Real.mul_self_sqrt hr.le
  have hb : -1 ≤ r 2 / R ∧ r 2 / R ≤ 1 := by
    have : |r 2| ≤ R := by
      rw [hR]
      refine Real.abs_le_sqrt ?_
      nlinarith [mul_self_nonneg (r 0), mul_self_nonneg (r 1)]
    rw [abs_le] at this
    constructor
    · rw [le_div_iff₀ hR0]; linarith
    · rw [div_le_one hR0]; exact this.2
  have hcos : cos (arccos (r 2 / R)) = r 2 / R := Real.cos_arccos hb.1 hb.2
  have hsin : R * sin (arccos (r 2 / R)) = √(r 0 * r 0 + r 1 * r 1) := by
    rw [Real.sin_arccos]
    rw [← Real.sqrt_mul_self hR0.le, ← Real.sqrt_mul (mul_self_nonneg R), Real.sqrt_mul_self hR0.le]
    congr 1
    field_simp
    nlinarith
  have harg : ‖(⟨r 0, r 1⟩ : ℂ)‖ = √(r 0 * r 0 + r 1 * r 1) := by
    rw [Complex.norm_def, Complex.normSq_mk]
  unfold dir
  rw [← d2r_rad, ← d2r_rad, d2r_r2d, d2r_r2d]
  have hx : √(r 0 * r 0 + r 1 * r 1) * cos (Complex.arg ⟨r 0, r 1⟩) = r 0 := by
    rw [← harg]; exact Complex.norm_mul_cos_arg _
  have hy : √(r 0 * r 0 + r 1 * r 1) * sin (Complex.arg ⟨r 0, r 1⟩) = r 1 := by
    rw [← harg]; exact Complex.norm_mul_sin_arg _
  fin_cases i
  · show R * (sin (arccos (r 2 / R)) * cos _) = r 0
    rw [← mul_assoc, hsin, hx]
  · show R * (sin (arccos (r 2 / R)) * sin _) = r 1
    rw [← mul_assoc, hsin, hy]
  · show R * cos (arccos (r 2 / R)) = r 2
    rw [hcos]; field_simp

theorem angle_ranges (z : ℂ) (c : ℝ) : -180 < r2d (Complex.arg z) ∧ r2d (Complex.arg z) ≤ 180 ∧ 0 ≤ r2d (arccos c) ∧ r2d (arccos c) ≤ 180 := by
  have hp := Real.pi_pos
  have h1 := Complex.neg_pi_lt_arg z
  have h2 := Complex.arg_le_pi z
  have h3 := Real.arccos_nonneg c
  have h4 := Real.arccos_le_pi c
  unfold r2d
  refine ⟨?_, ?_, ?_, ?_⟩
  · rw [mul_div_assoc', lt_div_iff₀ hp]; nlinarith
  · rw [mul_div_assoc', div_le_iff₀ hp]; nlinarith
  · positivity
  · rw [mul_div_assoc', div_le_iff₀ hp]; nlinarith

/-- Every direction has angles. -/
theorem angles_of (r : Fin 3 → ℝ) (hr : 0 < r 0 * r 0 + r 1 * r 1 + r 2 * r 2) :
    ∃ th tv : ℝ, (-180 < th ∧ th ≤ 180) ∧ (0 ≤ tv ∧ tv ≤ 180) ∧ ∀ i, √(r 0 * r 0 + r 1 * r 1 + r 2 * r 2) * dir th tv i = r i := by
  obtain ⟨a1, a2, a3, a4⟩ := angle_ranges ⟨r 0, r 1⟩ (r 2 / √(r 0 * r 0 + r 1 * r 1 + r 2 * r 2))
  exact ⟨_, _, ⟨a1, a2⟩, ⟨a3, a4⟩, sphere_coords r hr⟩

/-! ## Projection -/

theorem tan_pos {fov : ℝ} (h : 0 < fov ∧ fov < 180) : 0 < tan (rad fov / 2) := by
  have hp := Real.pi_pos
  refine Real.tan_pos_of_pos_of_lt_pi_div_two ?_ ?_
  · unfold rad; have := h.1; positivity
  · unfold rad; nlinarith [h.2]

theorem pixelSize_pos {H : ℤ} (hH : 1 ≤ H) {fov : ℝ} (h : 0 < fov ∧ fov < 180) : 0 < pixelSize H fov := by
  have : (0 : ℝ) < H := by exact_mod_cast (by omega : 0 < H)
  unfold pixelSize
  have := tan_pos h
  positivity

theorem xyToHV_spec {W H : ℤ} {fov h v : ℝ} (V : Valid W H fov h v) (x y : ℤ) (hx : 0 ≤ x ∧ x < W) (hy : 0 ≤ y ∧ y < H) :
    ∃ th tv, xyToHV x y W H fov h v = .ok (th, tv) ∧ (-180 < th ∧ th ≤ 180) ∧ (0 ≤ tv ∧ tv ≤ 180) ∧ Appears W H fov h v x y (dir th tv) := by
  unfold xyToHV
  rw [if_neg (by
    have := V.width; have := V.height; have := V.fov; have := V.hori; have := V.verti
    rintro (h | h | h | h | h | h | h | h | h | h | h | h) <;> first | omega | linarith)]
  dsimp only
  set r := (view h v)⁻¹ *ᵥ rayCamera x y W H fov with hr
  have hps := pixelSize_pos V.height V.fov
  have hri : ∀ i, pixelSize H fov * r i = dir h v i + (x - W / 2) * pixelSize H fov * right h i - (y - H / 2) * pixelSize H fov * up h v i := by
    intro i
    rw [hr, inv_mulVec]
    have hH : (0 : ℝ) < H := by exact_mod_cast (by have := V.height; omega : 0 < H)
    have ht := tan_pos V.fov
    have e : pixelSize H fov * (rayCamera x y W H fov 2) = -1 := by
      unfold rayCamera pixelSize
      rw [d2r_rad]
      show 2 * tan (rad fov / 2) / H * (-(H : ℝ) / 2 / tan (rad fov / 2)) = -1
      field_simp
    have e0 : rayCamera x y W H fov 0 = x - W / 2 := rfl
    have e1 : rayCamera x y W H fov 1 = -(y - H / 2) := rfl
    rw [e0, e1]
    linear_combination (-dir h v i) * e
  have hpos : 0 < r 0 * r 0 + r 1 * r 1 + r 2 * r 2 := by
    have hd : pixelSize H fov * dot (dir h v) r = 1 := by
      have h0 := hri 0
      have h1 := hri 1
      have h2 := hri 2
      have a3 := dd h v
      have a5 := rd h v
      have a6 := ud h v
      unfold dot at a3 a5 a6 ⊢
      linear_combination dir h v 0 * h0 + dir h v 1 * h1 + dir h v 2 * h2 + a3 + (x - W / 2) * pixelSize H fov * a5 - (y - H / 2) * pixelSize H fov * a6
    by_contra hn
    have h0 : r 0 = 0 := by nlinarith [mul_self_nonneg (r 0), mul_self_nonneg (r 1), mul_self_nonneg (r 2)]
    have h1 : r 1 = 0 := by nlinarith [mul_self_nonneg (r 0), mul_self_nonneg (r 1), mul_self_nonneg (r 2)]
    have h2 : r 2 = 0 := by nlinarith [mul_self_nonneg (r 0), mul_self_nonneg (r 1), mul_self_nonneg (r 2)]
    unfold dot at hd
    rw [h0, h1, h2] at hd
    norm_num at hd
  obtain ⟨a1, a2, a3, a4⟩ := angle_ranges ⟨r 0, r 1⟩ (r 2 / √(r 0 * r 0 + r 1 * r 1 + r 2 * r 2))
  refine ⟨_, _, rfl, ⟨a1, a2⟩, ⟨a3, a4⟩, pixelSize H fov * √(r 0 * r 0 + r 1 * r 1 + r 2 * r 2), mul_pos hps (Real.sqrt_pos.2 hpos), ?_⟩
  intro i
  rw [mul_assoc, sphere_coords r hpos i, hri i]

/-- What a position in the image says about the components of the direction. -/
theorem appears_iff {W H : ℤ} {fov h v : ℝ} (V : Valid W H fov h v) (p q : ℝ) (d : Fin 3 → ℝ) :
    Appears W H fov h v p q d ↔ 0 < dot (dir h v) d ∧ dot (right h) d = dot (dir h v) d * ((p - W / 2) * pixelSize H fov) ∧
      dot (up h v) d = -(dot (dir h v) d * ((q - H / 2) * pixelSize H fov)) := by
  have a1 := rr h
  have a2 := uu h v
  have a3 := dd h v
  have a4 := ru h v
  have a5 := rd h v
  have a6 := ud h v
  constructor
  · rintro ⟨t, ht, he⟩
    have h0 := he 0
    have h1 := he 1
    have h2 := he 2
    have k1 : t * dot (dir h v) d = 1 := by
      unfold dot at *
      linear_combination dir h v 0 * h0 + dir h v 1 * h1 + dir h v 2 * h2 + a3 + (p - W / 2) * pixelSize H fov * a5 - (q - H / 2) * pixelSize H fov * a6
    have k2 : t * dot (right h) d = (p - W / 2) * pixelSize H fov := by
      unfold dot at *
      linear_combination right h 0 * h0 + right h 1 * h1 + right h 2 * h2 + a5 + (p - W / 2) * pixelSize H fov * a1 - (q - H / 2) * pixelSize H fov * a4
    have k3 : t * dot (up h v) d = -((q - H / 2) * pixelSize H fov) := by
      unfold dot at *
      linear_combination up h v 0 * h0 + up h v 1 * h1 + up h v 2 * h2 + a6 + (p - W / 2) * pixelSize H fov * a4 - (q - H / 2) * pixelSize H fov * a2
    have hpos : 0 < dot (dir h v) d := by
      by_contra hn
      nlinarith
    refine ⟨hpos, ?_, ?_⟩
    · have := mul_left_cancel₀ ht.ne' (show t * dot (right h) d = t * (dot (dir h v) d * ((p - W / 2) * pixelSize H fov)) by
        rw [k2, ← mul_assoc, k1, one_mul])
      exact this
    · have := mul_left_cancel₀ ht.ne' (show t * dot (up h v) d = t * -(dot (dir h v) d * ((q - H / 2) * pixelSize H fov)) by
        rw [k3]; linear_combination ((q - H / 2) * pixelSize H fov) * k1)
      exact this
  · rintro ⟨h1, h2, h3⟩
    refine ⟨1 / dot (dir h v) d, by positivity, fun i => ?_⟩
    have hs := span h v d i
    rw [h2, h3] at hs
    rw [one_div_mul_eq_div, div_eq_iff h1.ne', hs]
    ring

theorem behind_iff (k : ℝ) : 90 < r2d (arccos k) ↔ k < 0 := by
  have hp := Real.pi_pos
  have : 90 < r2d (arccos k) ↔ ¬ arccos k ≤ π / 2 := by
    unfold r2d
    rw [mul_div_assoc', lt_div_iff₀ hp, not_le]
    constructor <;> intro h <;> linarith
  rw [this, Real.arccos_le_pi_div_two, not_le]

/-- The guards of `hvToXY`. -/
theorem hvToXY_eq {W H : ℤ} {fov h v : ℝ} (V : Valid W H fov h v) (th tv : ℝ) (hth : -180 < th ∧ th ≤ 180) (htv : 0 ≤ tv ∧ tv ≤ 180) :
    hvToXY th tv W H fov h v =
      if dot (dir h v) (dir th tv) < 0 then .ok (false, intMax, intMax)
      else if dot (dir h v) (dir th tv) = 0 then .ub
      else (toInt (W / 2 + dot (right h) (dir th tv) / dot (dir h v) (dir th tv) / pixelSize H fov + 1 / 2)).bind fun x =>
        (toInt (H / 2 - dot (up h v) (dir th tv) / dot (dir h v) (dir th tv) / pixelSize H fov + 1 / 2)).bind fun y => .ok (true, x, y) := by
  unfold hvToXY
  rw [if_neg (by
    have := V.width; have := V.height; have := V.fov; have := V.hori; have := V.verti
    rintro (h | h | h | h | h | h | h | h | h | h | h | h) <;> first | omega | linarith)]
  dsimp only
  have hcomm : dot (onSphere th tv) (onSphere h v) = dot (dir h v) (dir th tv) := by
    rw [onSphere_dir, onSphere_dir]; unfold dot; ring
  have hden : dot (onSphere th tv) (onSphere th tv) * dot (onSphere h v) (onSphere h v) = 1 := by
    rw [onSphere_dir, onSphere_dir, dd, dd, one_mul]
  rw [hden, div_one, hcomm, if_congr (behind_iff _) rfl rfl]
  by_cases h1 : dot (dir h v) (dir th tv) < 0
  · rw [if_pos h1, if_pos h1]
  · rw [if_neg h1, if_neg h1, view_mulVec, onSphere_dir]
    have e2 : (![dot (right h) (dir th tv), dot (up h v) (dir th tv), -dot (dir h v) (dir th tv)] : Fin 3 → ℝ) 2 = -dot (dir h v) (dir th tv) := rfl
    have e1 : (![dot (right h) (dir th tv), dot (up h v) (dir th tv), -dot (dir h v) (dir th tv)] : Fin 3 → ℝ) 1 = dot (up h v) (dir th tv) := rfl
    have e0 : (![dot (right h) (dir th tv), dot (up h v) (dir th tv), -dot (dir h v) (dir th tv)] : Fin 3 → ℝ) 0 = dot (right h) (dir th tv) := rfl
    rw [e0, e1, e2, if_congr neg_eq_zero rfl rfl, neg_neg]
    by_cases h2 : dot (dir h v) (dir th tv) = 0
    · rw [if_pos h2, if_pos h2]
    · rw [if_neg h2, if_neg h2]
      have hW : (0 : ℝ) < W := by exact_mod_cast (by have := V.width; omega : 0 < W)
      have hH : (0 : ℝ) < H := by exact_mod_cast (by have := V.height; omega : 0 < H)
      have ht := tan_pos V.fov
      have f1 : (dot (right h) (dir th tv) / dot (dir h v) (dir th tv) / ((W : ℝ) / H * 2 * tan (d2r fov / 2)) + 1 / 2) * W + 1 / 2 =
          W / 2 + dot (right h) (dir th tv) / dot (dir h v) (dir th tv) / pixelSize H fov + 1 / 2 := by
        rw [d2r_rad]; unfold pixelSize; field_simp; ring
      have f2 : (1 / 2 - dot (up h v) (dir th tv) / dot (dir h v) (dir th tv) / (2 * tan (d2r fov / 2))) * H + 1 / 2 =
          H / 2 - dot (up h v) (dir th tv) / dot (dir h v) (dir th tv) / pixelSize H fov + 1 / 2 := by
        rw [d2r_rad]; unfold pixelSize; field_simp
      rw [f1, f2]

/-- The direction is at the position `(p, q)`. -/
theorem hvToXY_appears {W H : ℤ} {fov h v : ℝ} (V : Valid W H fov h v) (th tv : ℝ) (hth : -180 < th ∧ th ≤ 180) (htv : 0 ≤ tv ∧ tv ≤ 180) (p q : ℝ)
    (ha : Appears W H fov h v p q (dir th tv)) :
    hvToXY th tv W H fov h v = (toInt (p + 1 / 2)).bind fun x => (toInt (q + 1 / 2)).bind fun y => .ok (true, x, y) := by
  obtain ⟨h1, h2, h3⟩ := (appears_iff V p q _).1 ha
  have hps := pixelSize_pos V.height V.fov
  rw [hvToXY_eq V th tv hth htv, if_neg (by linarith), if_neg h1.ne', h2, h3]
  have e1 : (W : ℝ) / 2 + dot (dir h v) (dir th tv) * ((p - W / 2) * pixelSize H fov) / dot (dir h v) (dir th tv) / pixelSize H fov + 1 / 2 = p + 1 / 2 := by
    field_simp; ring
  have e2 : (H : ℝ) / 2 - -(dot (dir h v) (dir th tv) * ((q - H / 2) * pixelSize H fov)) / dot (dir h v) (dir th tv) / pixelSize H fov + 1 / 2 = q + 1 / 2 := by
    field_simp; ring
  rw [e1, e2]

theorem toInt_nonneg (r : ℝ) (h0 : 0 ≤ r) (h1 : r < 2 ^ 31) : toInt r = .ok ⌊r⌋ := by
  unfold toInt
  rw [if_pos h0, if_pos]
  refine ⟨?_, ?_⟩
  · have : 0 ≤ ⌊r⌋ := Int.floor_nonneg.2 h0
    omega
  · exact Int.floor_lt.2 (by exact_mod_cast h1)

end Litiv.Vptz
