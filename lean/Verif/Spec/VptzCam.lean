import Verif.Model.VptzCam
import Verif.Spec.Vptz

/-!
# Specification vocabulary for the settings of the virtual camera
-/

namespace Litiv.VptzCam
open Litiv.Vptz Litiv.Vptz.Spec

/-- The angles which the normalisation gets wrong: half a turn plus one or more whole turns. -/
def Bad (value : ℝ) : Prop := ∃ k : ℕ, 1 ≤ k ∧ value = 180 + 360 * k

/-- A camera whose settings are valid. -/
structure Good (c : Cam) : Prop where
  view : Valid c.W c.H c.fov c.h c.v
  speeds : 0 < c.hs ∧ 0 < c.vs
  delays : 0 ≤ c.ratio ∧ 0 ≤ c.comm
  pos : 0 ≤ c.pos

/-- Calls that do not set one of the horizontal angles above. -/
def Op.Fine : Op → Prop
  | .set .horiAngle value => ¬Bad value
  | _ => True

/-- The smallest rotation from one horizontal angle to another. -/
def Rotation (h h' r : ℝ) : Prop := (∃ k : ℤ, r = |h' - h + 360 * k|) ∧ ∀ k : ℤ, r ≤ |h' - h + 360 * k|

end Litiv.VptzCam
