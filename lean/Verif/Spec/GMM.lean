import Verif.Spec.Gauss

/-!
# Specification of Gaussian mixtures: sample statistics
-/

namespace Litiv.GMM.Spec

/-- The samples given to component `c`. -/
def comp (samples : List (Nat × (Nat → ℝ))) (c : Nat) : List (Nat → ℝ) := (samples.filter fun s => s.1 = c).map fun s => s.2

/-- Sample mean of coordinate `d`. -/
noncomputable def mean (l : List (Nat → ℝ)) (d : Nat) : ℝ := (l.map fun x => x d).sum / l.length

/-- Sample covariance matrix. -/
noncomputable def cov (D : Nat) (l : List (Nat → ℝ)) : Matrix (Fin D) (Fin D) ℝ := fun i j =>
  (l.map fun x => (x i - mean l i) * (x j - mean l j)).sum / l.length

end Litiv.GMM.Spec
