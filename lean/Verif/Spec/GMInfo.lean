import Verif.Model.GMInfo

namespace Litiv.GMInfo.Spec

open Litiv.GMInfo

/-- The printed text tells the truth about the labels. -/
def Truthful (labels : List Nat) : LabelText → Prop
  | .each n => ∀ l ∈ labels, l = n
  | .range lo hi => (lo ∈ labels ∧ hi ∈ labels) ∧ lo < hi ∧ ∀ l ∈ labels, lo ≤ l ∧ l ≤ hi

/-- The printed bins: increasing orders, one line for each order that occurs, with the number of its factors. -/
def Bins (orders : List Nat) (bins : List (Nat × Nat)) : Prop :=
  (bins.map fun b => b.1).Pairwise (· < ·) ∧
  ∀ k c, (k, c) ∈ bins ↔ (k ∈ orders ∧ c = orders.count k)

end Litiv.GMInfo.Spec
