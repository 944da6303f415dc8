import Mathlib.Algebra.Order.Field.Basic
import Mathlib.Algebra.Order.Group.Unbundled.Abs

/-!
# Specification notions for the numeric sequence helpers

Nothing here refers to the model.
-/

namespace Litiv.MathSeq.Spec

/-- `i` is the smallest index at which the values `ds` are minimal. -/
def FirstMin {δ : Type} [LE δ] [LT δ] (ds : List δ) (i : Nat) : Prop :=
  ∃ m, ds[i]? = some m ∧ (∀ (j : Nat) x, ds[j]? = some x → m ≤ x) ∧ ∀ (j : Nat) x, j < i → ds[j]? = some x → m < x

/-- The guarantee of `std::nth_element(l, k)`: `v` is a reordering of `l` in which nothing before position `k` is larger
than the element at `k`, and nothing after it is smaller. -/
def NthElement {K : Type} [LE K] (l : List K) (k : Nat) (v : List K) : Prop :=
  v.Perm l ∧ ∀ m, v[k]? = some m → (∀ x ∈ v.take k, x ≤ m) ∧ ∀ x ∈ v.drop k, m ≤ x

/-- The knots are strictly increasing in their abscissa. -/
def Increasing {K : Type} [LT K] (knots : List (K × K)) : Prop := knots.Pairwise fun p q => p.1 < q.1

/-- The straight line through two points. -/
def line {K : Type} [Field K] (p q : K × K) (x : K) : K := p.2 + (q.2 - p.2) / (q.1 - p.1) * (x - p.1)

end Litiv.MathSeq.Spec
