import Verif.Model.Groups

/-! # Specification vocabulary for batch groups (C33, C37, C64, C66) -/

namespace Litiv.Groups

open Litiv.Metrics

variable {L : Type}

mutual
/-- The work batches below a handler, from left to right. -/
def Batch.leaves : Batch L → List L
  | .leaf l => [l]
  | .group _ bs => leavesOf bs
/-- The work batches below a list of handlers. -/
def leavesOf : List (Batch L) → List L
  | [] => []
  | b :: bs => b.leaves ++ leavesOf bs
end

mutual
/-- Bare groups hold at most one child, a work batch. -/
def Batch.WF : Batch L → Prop
  | .leaf _ => True
  | .group true bs => bs = [] ∨ ∃ l, bs = [.leaf l]
  | .group false bs => wfList bs
/-- All handlers of a list are well-formed. -/
def wfList : List (Batch L) → Prop
  | [] => True
  | b :: bs => b.WF ∧ wfList bs
end

/-- The work batches with at least one processed packet. -/
def processed (ls : List LeafData) : List LeafData := ls.filter fun l => decide (0 < l.outputs)

/-- The arithmetic mean. -/
noncomputable def mean (v : List ℝ) : ℝ := v.sum / v.length

/-- The work batches among printed lines. -/
def batchLines : List (Line L) → List L
  | [] => []
  | .header :: t => batchLines t
  | .batch l :: t => l :: batchLines t

end Litiv.Groups
