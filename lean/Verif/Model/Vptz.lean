import Mathlib.Data.Matrix.Mul
import Mathlib.LinearAlgebra.Matrix.Notation
import Mathlib.LinearAlgebra.Matrix.NonsingularInverse
import Mathlib.Analysis.SpecialFunctions.Trigonometric.Inverse
import Mathlib.Analysis.SpecialFunctions.Complex.Arg

/-!
# Virtual pan-tilt-zoom camera: coordinate conversions

Models `PTZPointXYtoHV` and `PTZPointHVtoXY` of `modules/vptz/src/virtualptz.cpp:782-928` and the translation of ground truth
(`GTTranslator`, lines 298-389). `double` is modelled by the real numbers, so rounding is not modelled; `sin`, `cos`, `tan`, `acos`, `sqrt` are
the real functions and `atan2(y,x)` the argument of `x + iy`. `cv::Mat::inv` is the inverse of a matrix.
-/

namespace Litiv.Vptz
open Real Matrix

/-- Outcome of a call: a result, an exception (`lvError`), or undefined behaviour. -/
inductive Out (α : Type) where
  | ok (a : α)
  | error
  | ub
deriving DecidableEq

/-- Sequencing of calls. -/
def Out.bind {α β : Type} (o : Out α) (f : α → Out β) : Out β :=
  match o with
  | .ok a => f a
  | .error => .error
  | .ub => .ub

/-- `D2R`, `modules/utils/include/litiv/utils/defines.hpp.in:44`. -/
noncomputable def d2r (d : ℝ) : ℝ := d * (π / 180)

/-- `R2D`, `defines.hpp.in:47`. -/
noncomputable def r2d (r : ℝ) : ℝ := r * (180 / π)

/-- Conversion of a `double` to `int`: truncation toward zero, undefined if the result is not an `int`. -/
noncomputable def toInt (r : ℝ) : Out ℤ :=
  if -2 ^ 31 ≤ (if 0 ≤ r then ⌊r⌋ else ⌈r⌉) ∧ (if 0 ≤ r then ⌊r⌋ else ⌈r⌉) < 2 ^ 31 then .ok (if 0 ≤ r then ⌊r⌋ else ⌈r⌉) else .ub

/-- `INT_MAX`. -/
def intMax : ℤ := 2 ^ 31 - 1

/-- `rotateX`, lines 804-808 (and 881-885). -/
noncomputable def rotX (a : ℝ) : Matrix (Fin 3) (Fin 3) ℝ := !![1, 0, 0; 0, cos a, -sin a; 0, sin a, cos a]

/-- `rotateZ`, lines 810-815 (and 887-892). -/
noncomputable def rotZ (a : ℝ) : Matrix (Fin 3) (Fin 3) ℝ := !![cos a, -sin a, 0; sin a, cos a, 0; 0, 0, 1]

/-- `viewMatrix`, lines 803-817 (and 880-894). -/
noncomputable def view (h v : ℝ) : Matrix (Fin 3) (Fin 3) ℝ := rotX (d2r (v - 180)) * rotZ (d2r (90 - h))

/-- `ray_camera`, lines 820-823. -/
noncomputable def rayCamera (x y W H : ℤ) (fov : ℝ) : Fin 3 → ℝ :=
  ![(x : ℝ) - W / 2, -((y : ℝ) - H / 2), -(H : ℝ) / 2 / tan (d2r fov / 2)]

/-- `PTZPointXYtoHV`, lines 782-835. The division of line 834 by zero cannot happen since the ray has a third coordinate. -/
noncomputable def xyToHV (x y W H : ℤ) (fov h v : ℝ) : Out (ℝ × ℝ) :=
  if W < 1 ∨ H < 1 ∨ x < 0 ∨ x ≥ W ∨ y < 0 ∨ y ≥ H ∨ fov ≤ 0 ∨ fov ≥ 180 ∨ h ≤ -180 ∨ h > 180 ∨ v < 0 ∨ v > 180 then .error
  else
    let r := (view h v)⁻¹ *ᵥ rayCamera x y W H fov
    .ok (r2d (Complex.arg ⟨r 0, r 1⟩), r2d (arccos (r 2 / √(r 0 * r 0 + r 1 * r 1 + r 2 * r 2))))

/-- A point on the unit sphere, lines 863-866, 867-870, 898-902. -/
noncomputable def onSphere (h v : ℝ) : Fin 3 → ℝ := ![sin (d2r v) * cos (d2r h), sin (d2r v) * sin (d2r h), cos (d2r v)]

/-- Inner product, `ddot`. -/
def dot (a b : Fin 3 → ℝ) : ℝ := a 0 * b 0 + a 1 * b 1 + a 2 * b 2

/-- `PTZPointHVtoXY`, lines 843-922. The result is the returned flag and the two coordinates. A division by zero makes the coordinates
infinite (or not a number), whose conversion to `int` is undefined. -/
noncomputable def hvToXY (th tv : ℝ) (W H : ℤ) (fov h v : ℝ) : Out (Bool × ℤ × ℤ) :=
  if W < 1 ∨ H < 1 ∨ th ≤ -180 ∨ th > 180 ∨ tv < 0 ∨ tv > 180 ∨ fov ≤ 0 ∨ fov ≥ 180 ∨ h ≤ -180 ∨ h > 180 ∨ v < 0 ∨ v > 180 then .error
  else
    let t := onSphere th tv
    let c := onSphere h v
    if 90 < r2d (arccos (dot t c / (dot t t * dot c c))) then .ok (false, intMax, intMax)
    else
      let r := view h v *ᵥ onSphere th tv
      if r 2 = 0 then .ub
      else
        let ratio := (W : ℝ) / H
        let xn := r 0 / (-r 2) / (ratio * 2 * tan (d2r fov / 2))
        let yn := r 1 / (-r 2) / (2 * tan (d2r fov / 2))
        (toInt ((xn + 1 / 2) * W + 1 / 2)).bind fun x => (toInt ((1 / 2 - yn) * H + 1 / 2)).bind fun y => .ok (true, x, y)

/-! ## Translation of ground truth -/

/-- A `GTTranslator`: size, field of view and direction of the current camera; size and field of view of the ground truth (lines 298-330). -/
structure Translator where
  W : ℤ
  H : ℤ
  fov : ℝ
  h : ℝ
  v : ℝ
  bW : ℤ
  bH : ℤ
  bfov : ℝ

/-- `UpdateViewAngle`, lines 332-338, for a translator with no camera. The check is of the old angles, as in the code. -/
noncomputable def updateView (t : Translator) (h v : ℝ) : Out Translator :=
  if t.h ≤ -180 ∨ t.h > 180 ∨ t.v < 0 ∨ t.v > 180 then .error
  else .ok { t with h := h, v := v }

/-- `GetGTTargetPoint`, lines 340-353. -/
noncomputable def gtPoint (t : Translator) (bh bv : ℝ) : Out (Bool × ℤ × ℤ) :=
  if bh ≤ -180 ∨ bh > 180 ∨ bv < 0 ∨ bv > 180 then .error
  else hvToXY bh bv t.W t.H t.fov t.h t.v

/-- A rectangle: left, top, width, height. -/
structure Rect where
  x : ℤ
  y : ℤ
  w : ℤ
  h : ℤ
deriving DecidableEq

/-- `cv::Rect(pt1, pt2)`: the rectangle between two points, in any order. -/
def Rect.of (x0 y0 x1 y1 : ℤ) : Rect := ⟨min x0 x1, min y0 y1, max x0 x1 - min x0 x1, max y0 y1 - min y0 y1⟩

/-- `GetGTBoundingBox`, lines 355-389; `old` is what the output argument holds. Divisions of integers truncate toward zero. -/
noncomputable def gtBox (t : Translator) (bh bv : ℝ) (bw bht : ℤ) (old : Rect) : Out (Bool × Rect) :=
  if bh ≤ -180 ∨ bh > 180 ∨ bv < 0 ∨ bv > 180 ∨ bw < 0 ∨ bw > t.bW ∨ bht < 0 ∨ bht > t.bH then .error
  else
    let l := (t.bW - bw).tdiv 2
    let r := (t.bW + bw).tdiv 2
    let top := (t.bH - bht).tdiv 2
    let bot := (t.bH + bht).tdiv 2
    (xyToHV l top t.bW t.bH t.bfov bh bv).bind fun plt => (xyToHV l bot t.bW t.bH t.bfov bh bv).bind fun plb =>
    (xyToHV r top t.bW t.bH t.bfov bh bv).bind fun prt => (xyToHV r bot t.bW t.bH t.bfov bh bv).bind fun prb =>
    (hvToXY plt.1 plt.2 t.W t.H t.fov t.h t.v).bind fun lt => if lt.1 = false then .ok (false, old) else
    (hvToXY plb.1 plb.2 t.W t.H t.fov t.h t.v).bind fun lb => if lb.1 = false then .ok (false, old) else
    (hvToXY prt.1 prt.2 t.W t.H t.fov t.h t.v).bind fun rt => if rt.1 = false then .ok (false, old) else
    (hvToXY prb.1 prb.2 t.W t.H t.fov t.h t.v).bind fun rb => if rb.1 = false then .ok (false, old) else
    .ok (true, Rect.of ((lt.2.1 + lb.2.1).tdiv 2) ((lt.2.2 + rt.2.2).tdiv 2) ((rb.2.1 + rt.2.1).tdiv 2) ((rb.2.2 + lb.2.2).tdiv 2))

end Litiv.Vptz
