import Mathlib.Analysis.SpecialFunctions.Pow.Real
import Mathlib.Analysis.SpecialFunctions.Sqrt
import Mathlib.Algebra.BigOperators.Group.Finset.Basic
import Mathlib.Algebra.Order.BigOperators.Group.Finset

/-!
# Specification of dense adaptive self-correlation

Written without the model: impulse responses, weighted moments, the recursive edge-aware filter of Gastal and Oliveira, ridge regression.
-/

namespace Litiv.DASC.Spec

/-- The pixels of an image. -/
def pixels (rows cols : Nat) : Finset (Nat × Nat) := Finset.range rows ×ˢ Finset.range cols

/-- The image that is one at a pixel and zero elsewhere. -/
def impulse (s : Nat × Nat) : Nat → Nat → ℝ := fun r q => if (r, q) = s then 1 else 0

/-- What a filter gives at the pixel `p` for an impulse at `s`: how much `p` takes from `s`. -/
def response (filter : (Nat → Nat → ℝ) → Nat → Nat → ℝ) (p s : Nat × Nat) : ℝ := filter (impulse s) p.1 p.2

/-- The filter gives weighted means of all the pixels of its input. -/
structure Averages (rows cols : Nat) (filter : (Nat → Nat → ℝ) → Nat → Nat → ℝ) : Prop where
  pos : ∀ p ∈ pixels rows cols, ∀ s ∈ pixels rows cols, 0 < response filter p s
  one : ∀ p ∈ pixels rows cols, ∑ s ∈ pixels rows cols, response filter p s = 1
  sum : ∀ x, ∀ p ∈ pixels rows cols, filter x p.1 p.2 = ∑ s ∈ pixels rows cols, response filter p s * x s.1 s.2

/-- The filter takes images with the pixels `S` to weighted means at the pixels `T`. -/
def WeightedMeans (S T : Finset (Nat × Nat)) (filter : (Nat → Nat → ℝ) → Nat → Nat → ℝ) (w : Nat × Nat → Nat × Nat → ℝ) : Prop :=
  (∀ t ∈ T, ∀ s ∈ S, 0 ≤ w t s) ∧ (∀ t ∈ T, ∑ s ∈ S, w t s = 1) ∧ ∀ x, ∀ t ∈ T, filter x t.1 t.2 = ∑ s ∈ S, w t s * x s.1 s.2

/-- Weighted mean. -/
noncomputable def mean {α : Type} (S : Finset α) (w x : α → ℝ) : ℝ := ∑ s ∈ S, w s * x s

/-- Weighted covariance. -/
noncomputable def cov {α : Type} (S : Finset α) (w x y : α → ℝ) : ℝ := ∑ s ∈ S, w s * ((x s - mean S w x) * (y s - mean S w y))

/-- Weighted correlation. -/
noncomputable def corr {α : Type} (S : Finset α) (w x y : α → ℝ) : ℝ := cov S w x y / Real.sqrt (cov S w x x * cov S w y y)

/-- The value of an image at a pixel that may be outside of it, where it is zero. -/
noncomputable def sample (rows cols : Nat) (img : Nat → Nat → ℝ) (r q : Int) : ℝ :=
  if 0 ≤ r ∧ r < rows ∧ 0 ≤ q ∧ q < cols then img r.toNat q.toNat else 0

/-- The causal pass of the recursive filter over a line of `n` samples with feedback `v`. -/
def Forward (n : Nat) (v x y : Nat → ℝ) : Prop := y 0 = x 0 ∧ ∀ i, i + 1 < n → y (i + 1) = (1 - v (i + 1)) * x (i + 1) + v (i + 1) * y i

/-- The anticausal pass. -/
def Backward (n : Nat) (v x y : Nat → ℝ) : Prop := y (n - 1) = x (n - 1) ∧ ∀ i, i + 1 < n → y i = (1 - v (i + 1)) * x i + v (i + 1) * y (i + 1)

/-- The standard deviation of the filter at an iteration. -/
noncomputable def sigma (sigmaS : ℝ) (iters i : Nat) : ℝ := sigmaS * Real.sqrt 3 * 2 ^ (iters - (i + 1)) / Real.sqrt (4 ^ iters - 1)

/-- The feedback between two neighbours whose values differ by `d`. -/
noncomputable def feedback (sigmaS sigmaR : ℝ) (iters i : Nat) (d : ℝ) : ℝ :=
  Real.exp (-(Real.sqrt 2 / sigma sigmaS iters i) * (1 + sigmaS / sigmaR * |d|))

/-- The cost of the line `a*i+b` as an approximation of `p` in a weighted window, with a penalty on the slope. -/
noncomputable def ridge {α : Type} (S : Finset α) (w i p : α → ℝ) (epsilon a b : ℝ) : ℝ := ∑ s ∈ S, w s * (a * i s + b - p s) ^ 2 + epsilon * a ^ 2

/-- A pixel of an image. -/
def Inside (rows cols : Nat) (r q : Int) : Prop := 0 ≤ r ∧ r < rows ∧ 0 ≤ q ∧ q < cols

/-- Euclidean length of a descriptor of 128 values. -/
noncomputable def length (d : Nat → ℝ) : ℝ := Real.sqrt (∑ k ∈ Finset.range 128, d k ^ 2)

end Litiv.DASC.Spec
