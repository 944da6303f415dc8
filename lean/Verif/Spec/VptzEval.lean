import Verif.Model.VptzEval
import Mathlib.Order.Interval.Finset.Basic
import Mathlib.Data.Int.Interval
import Mathlib.Data.Finset.Prod

/-!
# Specification vocabulary for the evaluation of trackers
-/

namespace Litiv.VptzEval.Spec
open Litiv.Vptz

/-- The pixels of a rectangle. -/
noncomputable def pixels (r : Rect) : Finset (ℤ × ℤ) := Finset.Ico r.x (r.x + r.w) ×ˢ Finset.Ico r.y (r.y + r.h)

/-- The target is in the image. -/
def InImage (g : Seen) : Prop := (0 ≤ g.x ∧ g.x < g.W) ∧ 0 ≤ g.y ∧ g.y < g.H

/-- The frames whose target was counted as out of view. -/
def outs (l : List Result) : List Result := l.filter fun r => outOfView r.seen r.box

/-- The frames whose target was counted as in view. -/
def ins (l : List Result) : List Result := l.filter fun r => !outOfView r.seen r.box

end Litiv.VptzEval.Spec
