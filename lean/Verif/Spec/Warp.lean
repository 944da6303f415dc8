import Verif.Model.Warp
import Mathlib.Algebra.BigOperators.Group.Finset.Basic

/-!
# Moving least squares with similarity and rigid transforms, and bilinear sampling of an image
-/

namespace Litiv.Warp.Spec

/-- The transform `z ↦ A z + b` of the plane, where `A` is the matrix with rows `(ax, -ay)` and `(ay, ax)`: a rotation with a uniform scale. -/
structure Sim where
  /-- linear part -/
  ax : ℝ
  /-- linear part -/
  ay : ℝ
  /-- translation -/
  bx : ℝ
  /-- translation -/
  by' : ℝ

/-- Image of a point. -/
def Sim.app (T : Sim) (z : Pt) : Pt := ⟨T.ax * z.x - T.ay * z.y + T.bx, T.ay * z.x + T.ax * z.y + T.by'⟩

/-- Squared distance between two points. -/
def dist2 (a b : Pt) : ℝ := (a.x - b.x) ^ 2 + (a.y - b.y) ^ 2

/-- The error of a transform seen from `v`: the points (destination, source) count with the inverse of the squared distance between `v` and the destination. -/
noncomputable def cost (pts : List (Pt × Pt)) (v : Pt) (T : Sim) : ℝ := (pts.map fun e => dist2 (T.app e.1) e.2 / dist2 v e.1).sum

/-- The transforms of a mode: all, or those that keep lengths. -/
def Admissible (mode : Mode) (T : Sim) : Prop := mode = .rigid → T.ax ^ 2 + T.ay ^ 2 = 1

/-- `T` has the smallest error, and it is the only transform of the mode with this error. -/
def UniqueBest (mode : Mode) (pts : List (Pt × Pt)) (v : Pt) (T : Sim) : Prop :=
  Admissible mode T ∧ ∀ T', Admissible mode T' → T' ≠ T → cost pts v T < cost pts v T'

/-- The tent function of bilinear interpolation. -/
noncomputable def tent (t : ℝ) : ℝ := max 0 (1 - |t|)

/-- Bilinear interpolation of the pixels of an image with `sh` rows and `sw` columns at a position. -/
noncomputable def bilinear (sw sh : Nat) (f : Nat → Nat → Nat) (p : Pt) : ℝ :=
  ∑ r ∈ Finset.range sh, ∑ c ∈ Finset.range sw, tent (p.y - r) * tent (p.x - c) * f r c

/-- The nearest position in the image. -/
noncomputable def clamp (sw sh : Nat) (p : Pt) : Pt := ⟨max 0 (min p.x ((sw : ℝ) - 1)), max 0 (min p.y ((sh : ℝ) - 1))⟩

/-- The point at a fraction of the way from one point to another. -/
noncomputable def along (a b : Pt) (t : ℝ) : Pt := ⟨(1 - t) * a.x + t * b.x, (1 - t) * a.y + t * b.y⟩

end Litiv.Warp.Spec
