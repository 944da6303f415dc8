import Mathlib.Data.Rat.Cast.Order
import Mathlib.Analysis.SpecialFunctions.Log.Base
import Mathlib.Algebra.BigOperators.Group.Finset.Basic

/-!
# Specification of histograms and mutual information

Independent of the model: frequencies of levels among the elements `0 … n-1`, and the textbook formulas.
-/

namespace Litiv.MI.Spec

/-- The part of the elements `0 … n-1` for which `P` holds. -/
def freq (n : Nat) (P : Nat → Prop) [DecidablePred P] : ℚ := (((Finset.range n).filter P).card : ℚ) / n

/-- The quantized level of value `v` when levels are `q` wide and start at `lo`. -/
def level (q : Nat) (lo v : Int) : Int := (v - lo) / (q : Int)

/-- Mutual information (in bits) of two variables observed at the elements `0 … n-1`. -/
noncomputable def mutualInfo (n : Nat) (x y : Nat → Int) : ℝ :=
  ∑ i ∈ (Finset.range n).image x, ∑ j ∈ (Finset.range n).image y,
    (freq n (fun k => x k = i ∧ y k = j) : ℝ) *
      Real.logb 2 ((freq n (fun k => x k = i ∧ y k = j) : ℝ) / ((freq n (fun k => x k = i) : ℝ) * (freq n (fun k => y k = j) : ℝ)))

/-- Entropy (in bits). -/
noncomputable def entropy (n : Nat) (x : Nat → Int) : ℝ :=
  - ∑ i ∈ (Finset.range n).image x, (freq n (fun k => x k = i) : ℝ) * Real.logb 2 (freq n (fun k => x k = i) : ℝ)

end Litiv.MI.Spec
