import Verif.Model.EvalRun
import Verif.Spec.Metrics

/-!
# Specification vocabulary for evaluation sessions (C198-C200)
-/

namespace Litiv.EvalRun

open Litiv.Packets (Res)
open Litiv.Metrics

variable {O : Type}

/-- The outputs pushed with success since the last call that cleared the batch, in order, read off the log of calls. -/
def evaluated (log : List (Call O × Res)) : List (O × Nat) :=
  log.foldl (fun l e => match e with
    | (_, .cleared) => []
    | (.push o i, .ok) => l ++ [(o, i)]
    | _ => l) []

/-- All outputs pushed with success, over the whole log. -/
def accepted (log : List (Call O × Res)) : List (O × Nat) :=
  log.filterMap fun e => match e with
    | (.push o i, .ok) => some (o, i)
    | _ => none

/-- No push in the log failed. -/
def NoFailure (log : List (Call O × Res)) : Prop := ∀ o i r, (Call.push o i, r) ∈ log → r = .ok

/-- The number of evaluated pixels whose output `x` and ground truth `y` satisfy `P`; none without ground truth. -/
noncomputable def pixels (c g r : Mat8) (P : UInt8 → UInt8 → Prop) : Nat :=
  open Classical in
  if Absent g then 0 else numPx c.area fun k => Evaluated g r k ∧ P (px c k) (px g k)

/-- The number of pixels which are not evaluated; all of them without ground truth. -/
noncomputable def skipped (c g r : Mat8) : Nat :=
  open Classical in
  if Absent g then c.area else numPx c.area fun k => ¬ Evaluated g r k

/-- `m` holds the pixel counts of a list of comparisons (output, ground truth, region of interest), up to the wrap-around
of 64-bit counters. -/
def Holds (m : BinClassif) (l : List (Mat8 × Mat8 × Mat8)) : Prop :=
  m.tp.toNat = (l.map fun e => pixels e.1 e.2.1 e.2.2 fun x g => x = 255 ∧ g = 255).sum % 2^64 ∧
  m.tn.toNat = (l.map fun e => pixels e.1 e.2.1 e.2.2 fun x g => x ≠ 255 ∧ g ≠ 255).sum % 2^64 ∧
  m.fp.toNat = (l.map fun e => pixels e.1 e.2.1 e.2.2 fun x g => x = 255 ∧ g ≠ 255).sum % 2^64 ∧
  m.fn.toNat = (l.map fun e => pixels e.1 e.2.1 e.2.2 fun x g => x ≠ 255 ∧ g = 255).sum % 2^64 ∧
  m.se.toNat = (l.map fun e => pixels e.1 e.2.1 e.2.2 fun x g => x = 255 ∧ g = 50).sum % 2^64 ∧
  m.dc.toNat = (l.map fun e => skipped e.1 e.2.1 e.2.2).sum % 2^64

/-- The region of interest of stream `k`; absent when the batch has none. -/
def roiOf (roi : List Mat8) (k : Nat) : Mat8 := if roi = [] then ⟨0, 0, []⟩ else roi.getD k ⟨0, 0, []⟩

/-- The pushed array `o` of packet `i` is fit for evaluation: one image per stream, each with an admissible ground truth
and region of interest. -/
structure Fit (b : ArrBatch) (o : List Mat8) (i : Nat) : Prop where
  size : o.length = b.streams
  gt_size : (b.gt i).length = b.streams
  roi_size : b.roi i = [] ∨ (b.roi i).length = b.streams
  ok : ∀ k < b.streams, Admissible (o.getD k ⟨0, 0, []⟩) ((b.gt i).getD k ⟨0, 0, []⟩) (roiOf (b.roi i) k)

end Litiv.EvalRun
