import Verif.Model.Vptz

/-!
# Specification vocabulary for the virtual camera

A pinhole camera in the centre of a sphere. Angles are in degrees: a direction has a horizontal angle around the vertical axis and a vertical
angle from that axis.
-/

namespace Litiv.Vptz.Spec
open Real

/-- Radians. -/
noncomputable def rad (d : ℝ) : ℝ := d * (π / 180)

/-- The direction with horizontal angle `h` and vertical angle `v`, in spherical coordinates. -/
noncomputable def dir (h v : ℝ) : Fin 3 → ℝ := ![sin (rad v) * cos (rad h), sin (rad v) * sin (rad h), cos (rad v)]

/-- To the right of someone who looks along `h`. -/
noncomputable def right (h : ℝ) : Fin 3 → ℝ := ![sin (rad h), -cos (rad h), 0]

/-- Up in the image of a camera that looks along `h`, `v`. -/
noncomputable def up (h v : ℝ) : Fin 3 → ℝ := ![-cos (rad v) * cos (rad h), -cos (rad v) * sin (rad h), sin (rad v)]

/-- A camera of a size and field of view with a direction. -/
structure Valid (W H : ℤ) (fov h v : ℝ) : Prop where
  width : 1 ≤ W
  height : 1 ≤ H
  fov : 0 < fov ∧ fov < 180
  hori : -180 < h ∧ h ≤ 180
  verti : 0 ≤ v ∧ v ≤ 180

/-- Size of a pixel on a plane at distance one, such that the rows cover the vertical field of view. -/
noncomputable def pixelSize (H : ℤ) (fov : ℝ) : ℝ := 2 * tan (rad fov / 2) / H

/-- The direction `d` appears at the image position `(p, q)` (column, row; the centre of the image is at half its size). -/
def Appears (W H : ℤ) (fov h v : ℝ) (p q : ℝ) (d : Fin 3 → ℝ) : Prop :=
  ∃ t : ℝ, 0 < t ∧ ∀ i, t * d i = dir h v i + (p - W / 2) * pixelSize H fov * right h i - (q - H / 2) * pixelSize H fov * up h v i

/-- The cosine of the angle between two directions. -/
noncomputable def cosBetween (h v h' v' : ℝ) : ℝ := dir h v 0 * dir h' v' 0 + dir h v 1 * dir h' v' 1 + dir h v 2 * dir h' v' 2

end Litiv.Vptz.Spec
