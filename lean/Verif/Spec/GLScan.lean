import Mathlib.Algebra.BigOperators.Group.Finset.Basic
import Mathlib.Order.Interval.Finset.Nat

/-!
# Specification of prefix sums and of the schedules of a work group
-/

namespace Litiv.GLScan

/-- The exclusive prefix sum: the sum of the elements before position `i`. -/
def exclusive {α : Type} [AddCommMonoid α] (input : Nat → α) (i : Nat) : α := ∑ j ∈ Finset.range i, input j

/-- The inclusive prefix sum. -/
def inclusive {α : Type} [AddCommMonoid α] (input : Nat → α) (i : Nat) : α := ∑ j ∈ Finset.range (i + 1), input j

/-- A schedule of a work group of `k` invocations: between two barriers the invocations run in any interleaving (one entry
per memory operation), and each of them reaches the next barrier, for which no section needs more than five operations. -/
def Fair (k : Nat) (sched : Nat → List Nat) : Prop :=
  ∀ p, (∀ t ∈ sched p, t < k) ∧ ∀ t < k, 5 ≤ (sched p).count t

end Litiv.GLScan
