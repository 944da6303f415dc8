import Verif.Model.BsdsScore

/-!
# Specification for the scores of the edge map evaluation
-/

namespace Litiv.BsdsScore.Spec
open Bsds (Counts)

/-- `f` is the F-measure of recall `r` and precision `p`: their harmonic mean, 0 when both are 0. -/
def IsF (r p f : ℚ) : Prop := f * (r + p) = 2 * r * p ∧ (r + p = 0 → f = 0)

/-- A score with consistent fields. -/
def Valid (s : Score) : Prop := 0 ≤ s.recall ∧ 0 ≤ s.prec ∧ IsF s.recall s.prec s.f

/-- The point at `n` percent of the way from `a` to `b`. -/
def At (a b : ℚ) (n : Nat) : ℚ := a + (b - a) * ((n : ℚ) / 100)

/-- `a` and `b` are consecutive in `l`. -/
def Consecutive (l : List Score) (a b : Score) : Prop := ∃ i : Nat, l[i]? = some a ∧ l[i + 1]? = some b

/-- `s` is the first score, or has its threshold, recall and precision on the line between two consecutive scores. -/
def OnCurve (l : List Score) (s : Score) : Prop :=
  l.head? = some s ∨ ∃ a b n, Consecutive l a b ∧ n ≤ 100 ∧ s.thr = At a.thr b.thr n ∧ s.recall = At a.recall b.recall n ∧
    s.prec = At a.prec b.prec n

/-- `r` is the quotient of two counts, 0 when there is nothing to count. -/
def IsRatio (a b : Nat) (r : ℚ) : Prop := r * b = a ∧ b ≠ 0 ∨ b = 0 ∧ r = 0

/-- `s` is the score of counters `tp` out of `tpfn` (recall) and `tp'` out of `tpfp` (precision) at threshold `t`. -/
def ScoreOf (t tp tpfn tp' tpfp : Nat) (s : Score) : Prop :=
  s.thr * 255 = t ∧ IsRatio tp tpfn s.recall ∧ IsRatio tp' tpfp s.prec ∧ IsF s.recall s.prec s.f

/-- The order in which the sort of the recalls may leave the indices of the thresholds. -/
def Sorted (thr : List Score) (idx : List Nat) : Prop :=
  idx.Perm (List.range thr.length) ∧ ∀ (i j : Nat) (a b : Nat) (s t : Score), i < j → idx[i]? = some a → idx[j]? = some b →
    thr[a]? = some s → thr[b]? = some t → s.recall ≤ t.recall

end Litiv.BsdsScore.Spec
