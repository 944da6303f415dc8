import Mathlib.Data.Rat.Cast.Defs
import Mathlib.Data.Rat.Floor
import Mathlib.Data.Real.Sqrt
import Mathlib.Analysis.SpecialFunctions.Log.Base

/-!
# Model of joint histograms and mutual information

`modules/features2d/include/litiv/features2d.hpp:48-200` (`JointHistData`, `calcJointProbHist`, `calcMutualInfo`).

Probabilities are exact rational numbers, scores exact real numbers (the code uses `float` and `double`). Matrices are lists of their
elements in order. A sparse matrix is iterated in the order in which its elements were created (the order of `cv::SparseMat` is that of
its hash table; all the sums are exact here and do not depend on it).
-/

namespace Litiv.MI

/-! ## Sparse and dense matrices -/

/-- `bUseSparseMats`, `features2d.hpp:49,60-61`. -/
inductive Kind
  | sparse
  | dense
deriving DecidableEq

/-- A matrix, `features2d.hpp:60-61`: the positions met by an iterator, and the values. -/
structure Hist (κ α : Type) where
  keys : List κ
  val : κ → α

/-- Access by `lv::getElem` followed by a change of the element, `opencv.hpp:789-799`: an element that does not exist is created with value
zero by a sparse matrix, and is outside of the buffer of a dense one. -/
def Hist.modify {κ α : Type} [DecidableEq κ] (kind : Kind) (h : Hist κ α) (k : κ) (f : α → α) : Option (Hist κ α) :=
  if k ∈ h.keys then some ⟨h.keys, fun k' => if k' = k then f (h.val k) else h.val k'⟩
  else
    match kind with
    | .sparse => some ⟨h.keys ++ [k], fun k' => if k' = k then f (h.val k) else h.val k'⟩
    | .dense => none

/-- All the positions of a matrix of the given sizes, in the order of an iterator, `opencv.hpp:780-787`. -/
def positions : List Nat → List (List Int)
  | [] => [[]]
  | n :: rest => (List.range n).flatMap fun (i : Nat) => (positions rest).map fun (p : List Int) => (i : Int) :: p

/-- `create` and `lv::zeroMat` (`opencv.hpp:736-746`) of a marginal histogram, `features2d.hpp:98-104`. -/
def newMarg {α : Type} [Zero α] (kind : Kind) (n : Nat) : Hist Int α :=
  ⟨match kind with | .sparse => [] | .dense => (List.range n).map fun (i : Nat) => (i : Int), fun _ => 0⟩

/-- `create` and `lv::zeroMat` of a joint histogram, `features2d.hpp:106-111`. -/
def newJoint {α : Type} [Zero α] (kind : Kind) (ns : List Nat) : Hist (List Int) α :=
  ⟨match kind with | .sparse => [] | .dense => positions ns, fun _ => 0⟩

/-! ## Histograms -/

/-- An input matrix, `features2d.hpp:78`: limits of its element type, whether the type is `int`, and the elements. -/
structure In where
  lo : Int
  hi : Int
  isInt : Bool
  vals : List Int

/-- `aMinVals`, `aMaxVals`, `features2d.hpp:84-95`. -/
def range (skip : Bool) (i : In) : Int × Int :=
  if skip && !i.isInt then (i.lo, i.hi)
  else (i.vals.foldl min (i.vals.headD 0), i.vals.foldl max (i.vals.headD 0))

/-- `nMaxStates`, `features2d.hpp:96-97`: the difference is computed as `int`, where a greater one is undefined behaviour; then the assertion. -/
def maxStates (q : Nat) (r : Int × Int) : Option Nat :=
  if 2 ^ 31 ≤ r.2 - r.1 then none
  else if (r.2 - r.1).toNat / q + 1 < 2 ^ 31 - 1 then some ((r.2 - r.1).toNat / q + 1) else none

/-- `JointHistData`, `features2d.hpp:48-69`, without the extreme values. -/
structure Data where
  margCounts : List (Hist Int Nat)
  margHists : List (Hist Int ℚ)
  states : List Nat
  jointCount : Hist (List Int) Nat
  jointHist : Hist (List Int) ℚ
  jointStates : Nat

/-- The position of element `k` in each histogram, `features2d.hpp:119-121`. -/
def bins (q : Nat) (mins : List Int) (ins : List In) (k : Nat) : List Int :=
  List.zipWith (fun (m : Int) (i : In) => (i.vals.getD k 0 - m) / (q : Int)) mins ins

/-- Adding to each marginal and to the joint histogram, `features2d.hpp:115-131`. -/
def addElem {α : Type} (kind : Kind) (incr : α → α) (s : List (Hist Int α) × Hist (List Int) α) (b : List Int) :
    Option (List (Hist Int α) × Hist (List Int) α) :=
  match (s.1.zip b).mapM (fun (p : Hist Int α × Int) => p.1.modify kind p.2 incr), s.2.modify kind b incr with
  | some ms, some j => some (ms, j)
  | _, _ => none

/-- Probabilities from counts, `features2d.hpp:132-141`. -/
def scale {κ : Type} [DecidableEq κ] (kind : Kind) (incr : ℚ) (c : Hist κ Nat) (h : Hist κ ℚ) : Option (Hist κ ℚ) :=
  c.keys.foldlM (fun (h : Hist κ ℚ) (k : κ) => h.modify kind k fun _ => (c.val k : ℚ) * incr) h

/-- `calcJointProbHist`, `features2d.hpp:76-152`. `old` is the content of the output object before the call. -/
def calcJointProbHist (q : Nat) (kind : Kind) (fast skip : Bool) (ins : List In) (old : Data) : Option Data :=
  match ins with
  | [] => none
  | i0 :: _ =>
    if ins.all (fun (i : In) => i.vals.length ≠ 0 ∧ i.vals.length = i0.vals.length) then
      match ins.mapM (fun (i : In) => maxStates q (range skip i)) with
      | none => none
      | some ns =>
        let n := i0.vals.length
        let incr : ℚ := 1 / n
        let bs := (List.range n).map (bins q (ins.map fun (i : In) => (range skip i).1) ins)
        if fast then
          match bs.foldlM (addElem kind fun (v : ℚ) => v + incr) (ns.map (newMarg kind), newJoint kind ns) with
          | none => none
          | some (mh, jh) => some ⟨old.margCounts, mh, (match kind with | .sparse => mh.map fun (h : Hist Int ℚ) => h.keys.length | .dense => ns), old.jointCount, jh,
              match kind with | .sparse => jh.keys.length | .dense => ns.prod⟩
        else
          match bs.foldlM (addElem kind fun (v : Nat) => v + 1) (ns.map (newMarg kind), newJoint kind ns) with
          | none => none
          | some (mc, jc) =>
            match (mc.zip (ns.map (newMarg kind))).mapM (fun (p : Hist Int Nat × Hist Int ℚ) => scale kind incr p.1 p.2), scale kind incr jc (newJoint kind ns) with
            | some mh, some jh => some ⟨mc, mh, (match kind with | .sparse => mh.map fun (h : Hist Int ℚ) => h.keys.length | .dense => ns), jc, jh,
                match kind with | .sparse => jh.keys.length | .dense => ns.prod⟩
            | _, _ => none
    else none

/-! ## Mutual information -/

/-- A read through `lv::getElem` (see `Hist.modify`; a created element has value zero). -/
def Hist.get {κ : Type} [DecidableEq κ] (kind : Kind) (h : Hist κ ℚ) (k : κ) : Option ℚ :=
  if k ∈ h.keys then some (h.val k)
  else
    match kind with
    | .sparse => some 0
    | .dense => none

/-- One position of the joint counts, `features2d.hpp:175-184`. -/
noncomputable def miTerm (kind : Kind) (d : Data) (m1 m2 : Hist Int ℚ) (acc : ℝ) (pos : List Int) : Option ℝ :=
  match d.jointHist.get kind pos with
  | none => none
  | some p =>
    if 0 < p then
      match m1.get kind (pos.getD 0 0), m2.get kind (pos.getD 1 0) with
      | some p1, some p2 =>
        if 0 < p1 ∧ 0 < p2 then some (acc + (p : ℝ) * Real.logb 2 ((p : ℝ) / (p1 : ℝ) / (p2 : ℝ))) else some acc
      | _, _ => none
    else some acc

/-- Entropy of a marginal histogram, `features2d.hpp:186-194`. -/
noncomputable def entropy (h : Hist Int ℚ) : ℝ :=
  h.keys.foldl (fun (acc : ℝ) (k : Int) => if 0 < h.val k then acc + -(h.val k : ℝ) * Real.logb 2 (h.val k : ℝ) else acc) 0

/-- `calcMutualInfo`, `features2d.hpp:162-200`. -/
noncomputable def calcMutualInfo (q : Nat) (kind : Kind) (normalize fast skip : Bool) (a b : In) (old : Data) : Option ℝ :=
  match calcJointProbHist q kind fast skip [a, b] old with
  | none => none
  | some d =>
    match d.margHists with
    | [m1, m2] =>
      match d.jointCount.keys.foldlM (miTerm kind d m1 m2) 0 with
      | none => none
      | some s =>
        if normalize then
          (if 0 < entropy m1 ∧ 0 < entropy m2 then some (s / Real.sqrt (entropy m1 * entropy m2)) else some s)
        else some s
    | _ => none

end Litiv.MI
