import Verif.Model.Vptz

/-!
# Virtual pan-tilt-zoom camera: settings and playback

Models `vptz::Camera` of `modules/vptz/src/virtualptz.cpp:78-173,213-296`. Not modelled: the decoding of the video, the rendering with OpenGL,
sleeping. `double` is modelled by the real numbers, clock readings are inputs (in seconds: `getTickCount()/getTickFrequency()`).
-/

namespace Litiv.VptzCam
open Litiv.Vptz

/-- The fields of `vptz::Camera` that its settings and its playback use (`modules/vptz/include/litiv/vptz/virtualptz.hpp:95-140`). -/
structure Cam where
  /-- `outputWidth`, `outputHeight`. -/
  W : ℤ
  H : ℤ
  /-- `vertiFOV`. -/
  fov : ℝ
  /-- `horiAngle`, `vertiAngle`. -/
  h : ℝ
  v : ℝ
  /-- `horiSpeed`, `vertiSpeed` (degrees per second). -/
  hs : ℝ
  vs : ℝ
  /-- `executionDelayRatio`, `communicationDelay`. -/
  ratio : ℝ
  comm : ℝ
  /-- `horiAngleChange`, `vertiAngleChange`. -/
  dh : ℝ
  dv : ℝ
  /-- `motionDelay`, `executionDelay`, `getFrameOverhead`. -/
  motion : ℝ
  exec : ℝ
  overhead : ℝ
  /-- `currentTime`, `firstTick` (in seconds), `executionBeginTime`. -/
  time : ℝ
  firstTick : ℝ
  execBegin : ℝ
  /-- `m_dFrameRate`, `m_nScenarioFrameCount`, `m_nCurrFrameIdx`. -/
  rate : ℝ
  count : ℤ
  pos : ℤ

/-- `fmod`: the remainder has the sign of the dividend. -/
noncomputable def fmod (a b : ℝ) : ℝ := a - b * (if 0 ≤ a / b then ⌊a / b⌋ else ⌈a / b⌉ : ℤ)

/-- The angle that `Set(PTZ_CAM_HORI_ANGLE,value)` stores, lines 254-255. -/
noncomputable def normHori (value : ℝ) : ℝ :=
  if value ≤ -180 ∨ value > 180 then fmod (value + 180 - (if value < 0 then 360 else 0)) 360 - 180 + (if value < 0 then 360 else 0)
  else value

/-- `horiAngleChange`, lines 132-136 and 258-262. -/
noncomputable def wrapChange (d : ℝ) : ℝ := if d > 180 then 360 - d else if d ≤ -180 then d + 360 else d

/-- The properties of `Set`, lines 234-287. -/
inductive Flag where
  | frameRate | framePos | vertiFov | horiAngle | vertiAngle | horiSpeed | vertiSpeed | execRatio | commDelay | other
deriving DecidableEq

/-- `Camera::Set`, lines 234-296 (the projection matrix is not modelled). The conversion of line 245 is of a value in the range of `int`. -/
noncomputable def set (c : Cam) (f : Flag) (value : ℝ) : Out Cam :=
  match f with
  | .frameRate => .ok { c with rate := value }
  | .framePos => if value > c.count - 1 ∨ value < 0 then .error else (toInt value).bind fun p => .ok { c with pos := p }
  | .vertiFov => if value ≥ 180 ∨ value ≤ 0 then .error else .ok { c with fov := value }
  | .horiAngle => .ok { c with h := normHori value, dh := wrapChange (normHori value - c.h) }
  | .vertiAngle => if value < 0 ∨ value > 180 then .error else .ok { c with v := value, dv := value - c.v }
  | .horiSpeed => if value ≤ 0 then .error else .ok { c with hs := value }
  | .vertiSpeed => if value ≤ 0 then .error else .ok { c with vs := value }
  | .execRatio => if value < 0 then .error else .ok { c with ratio := value }
  | .commDelay => if value < 0 then .error else .ok { c with comm := value }
  | .other => .error

/-- `Camera::GoToPosition`, lines 127-139. -/
noncomputable def goTo (c : Cam) (x y : ℤ) : Out Cam :=
  (xyToHV x y c.W c.H c.fov c.h c.v).bind fun a => .ok { c with h := a.1, v := a.2, dh := wrapChange (a.1 - c.h), dv := a.2 - c.v }

/-- `Camera::BeginPlaying`, lines 146-151; `now` is the clock. -/
noncomputable def beginPlaying (c : Cam) (idx : ℤ) (now : ℝ) : Out Cam :=
  (set c .framePos idx).bind fun c => .ok { c with time := idx / c.rate, firstTick := now }

/-- `Camera::WaitDelay`, lines 153-173; `t1`, `t2` are the clock readings of lines 158 and 171 (the sleep is in between). -/
noncomputable def wait (c : Cam) (t1 t2 : ℝ) : Out (Bool × Cam) :=
  if c.pos ≥ c.count then .ok (false, c)
  else
    let exec := (t1 - c.firstTick - c.execBegin) - c.overhead
    let motion := |c.dh| / c.hs + |c.dv| / c.vs
    let time := c.time + (c.ratio * exec + motion + c.comm)
    (toInt (time * c.rate + 1 / 2)).bind fun p =>
      .ok (decide (max p (c.pos + 1) < c.count), { c with exec := exec, motion := motion, time := time, pos := max p (c.pos + 1), execBegin := t2 - c.firstTick })

/-- `Camera::GetFrame`, lines 175-199, as far as the state goes: it measures its own duration. -/
def getFrame (c : Cam) (duration : ℝ) : Cam := { c with overhead := duration }

/-- A call to a camera. -/
inductive Op where
  | set (f : Flag) (value : ℝ)
  | goTo (x y : ℤ)
  | play (idx : ℤ) (now : ℝ)
  | wait (t1 t2 : ℝ)
  | frame (duration : ℝ)

/-- The camera after a call. A call that throws leaves it unchanged (the errors are thrown before the first assignment). -/
noncomputable def step (c : Cam) : Op → Option Cam
  | .set f value => match set c f value with | .ok c' => some c' | .error => some c | .ub => none
  | .goTo x y => match goTo c x y with | .ok c' => some c' | .error => some c | .ub => none
  | .play idx now => match beginPlaying c idx now with | .ok c' => some c' | .error => some c | .ub => none
  | .wait t1 t2 => match wait c t1 t2 with | .ok r => some r.2 | .error => some c | .ub => none
  | .frame d => some (getFrame c d)

/-- A history of calls; `none` if one of them is undefined. -/
noncomputable def run : Cam → List Op → Option Cam
  | c, [] => some c
  | c, o :: os => (step c o).bind fun c' => run c' os

/-- The waits of a playback, with the clock readings of each: what the last one returns (`true` before the first). -/
noncomputable def waits : Cam → List (ℝ × ℝ) → Out (Bool × Cam)
  | c, [] => .ok (true, c)
  | c, t :: ts => (wait c t.1 t.2).bind fun r => match ts with | [] => .ok r | _ => waits r.2 ts

end Litiv.VptzCam
