import Mathlib.Analysis.SpecialFunctions.Complex.Arg
import Mathlib.Analysis.SpecialFunctions.Pow.Real

/-!
# Specification of shape contexts

Independent of the model: rings with logarithmic spacing, sectors of a turn, and the contour points a bin counts.
-/

namespace Litiv.SC.Spec

/-- Upper bound of ring `r` of `R`: the outer radius for a single ring, else logarithmic spacing from the inner to the outer radius. -/
noncomputable def bound (R : Nat) (inner outer : ℝ) (r : Nat) : ℝ :=
  if R = 1 then outer else inner * (outer / inner) ^ ((r : ℝ) / ((R : ℝ) - 1))

/-- A distance falls in ring `r`: the first ring starts at zero. -/
def InRing (R : Nat) (inner outer : ℝ) (r : Nat) (d : ℝ) : Prop :=
  r < R ∧ (0 < r → bound R inner outer (r - 1) ≤ d) ∧ d < bound R inner outer r

/-- An angle falls in sector `a` of `A` equal sectors, up to whole turns. -/
def InSector (A a : Nat) (θ : ℝ) : Prop :=
  a < A ∧ ∃ n : ℤ, a * (2 * Real.pi / A) ≤ θ + n * (2 * Real.pi) ∧ θ + n * (2 * Real.pi) < (a + 1) * (2 * Real.pi / A)

/-- Direction of the point `p` seen from `k`, counter-clockwise on a screen whose rows go down. -/
noncomputable def direction (k p : ℂ) : ℝ := Complex.arg ⟨p.re - k.re, k.im - p.im⟩

/-- Two points too close to be distinguished. -/
def Coincident (k p : ℂ) : Prop := |k.re - p.re| < 1 / 100 ∧ |k.im - p.im| < 1 / 100

/-- Centre of mass. -/
noncomputable def centroid (l : List ℂ) : ℂ := l.sum / l.length

/-- The contour point `p` is counted in bin `b` of the descriptor of `k`: `b` numbers its ring and its sector; `unit` is the unit of distances, `ref` the
reference direction; all directions are turned by `2^-23`. -/
def Counted (A R : Nat) (inner outer unit : ℝ) (ref : ℝ) (k p : ℂ) (b : Nat) : Prop :=
  ¬ Coincident k p ∧ ∃ r a : Nat, b = a + r * A ∧ InRing R inner outer r (‖p - k‖ / unit) ∧ InSector A a (direction k p - ref + 1 / 2 ^ 23)

/-- Mean of the distances between two lists of points. -/
noncomputable def meanDistance (keys contour : List ℂ) : ℝ :=
  ((keys.map fun k => (contour.map fun p => ‖p - k‖).sum).sum) / (keys.length * contour.length)

end Litiv.SC.Spec

namespace Litiv.SC.Spec

/-- What bins hold before any point is counted. -/
noncomputable def start (D : Nat) (nonzero : Bool) : ℝ := if nonzero then max (10 / (D : ℝ)) (1 / 2) else 0

/-- Number of the elements of a list that satisfy a condition. -/
noncomputable def number (P : ℂ → Prop) (l : List ℂ) : ℝ := by classical exact ((l.filter fun p => decide (P p)).length : ℝ)

/-- Euclidean norm of a descriptor of `D` bins. -/
noncomputable def norm (D : Nat) (d : Nat → ℝ) : ℝ := Real.sqrt (∑ b ∈ Finset.range D, d b ^ 2)

end Litiv.SC.Spec
