import Verif.Model.Bsds
import Verif.Model.MathSeq
import Verif.Model.Seq
import Mathlib.Algebra.Order.Field.Rat

/-!
# Model of the scores of the BSDS500 evaluation, modules/datasets/src/impl/BSDS500.cpp:495-596

Scores are exact rationals (the code uses doubles).
-/

namespace Litiv.BsdsScore
open Bsds (Counts)

/-- `BSDS500Score`, `BSDS500.hpp:191-196`. -/
structure Score where
  thr : ℚ
  recall : ℚ
  prec : ℚ
  f : ℚ
deriving DecidableEq

/-- `CalcRecall(nTP,nTPFN)` and `CalcPrecision(nTP,nTPFP)`, `metrics.hpp:220-231`. -/
def ratio (a b : Nat) : ℚ := if b > 0 then (a : ℚ) / b else 0

/-- `CalcFMeasure(dRecall,dPrecision)`, `metrics.hpp:213-215`. -/
def fMeasure (r p : ℚ) : ℚ := if r + p > 0 then 2 * (r * p) / (r + p) else 0

/-- The score of one threshold `t` from its counters, `BSDS500.cpp:543-546` and `564-567`. -/
def scoreOf (t : Nat) (c : Counts) : Score :=
  { thr := (t : ℚ) / 255, recall := ratio c.indivTP c.indivTPFN, prec := ratio c.totalTP c.totalTPFP,
    f := fMeasure (ratio c.indivTP c.indivTPFN) (ratio c.totalTP c.totalTPFP) }

/-- One step of the inner loop of `FindMaxFMeasure(voScores)`, `BSDS500.cpp:501-512`. -/
def tryInterp (a b res : Score) (n : Nat) : Score :=
  let wl : ℚ := ((100 - n : Nat) : ℚ) / 100
  let wc : ℚ := (n : ℚ) / 100
  let r := wl * a.recall + wc * b.recall
  let p := wl * a.prec + wc * b.prec
  if fMeasure r p > res.f then { thr := wl * a.thr + wc * b.thr, recall := r, prec := p, f := fMeasure r p } else res

/-- The loop over the scores, `BSDS500.cpp:498-513`: `a` is the previous score. -/
def scan : Score → List Score → Score → Score
  | _, [], res => res
  | a, b :: l, res => scan b l ((List.range 101).foldl (tryInterp a b) res)

/-- `FindMaxFMeasure(voScores)`, `BSDS500.cpp:495-515` (the overload of lines 468-493 is not called). -/
def findMax : List Score → Option Score
  | [] => none
  | s :: l => some (scan s l s)

/-- `std::max_element` on the F-measure, `BSDS500.cpp:553-555`: index of the first largest one. -/
def maxLoop : List Score → Nat → Nat → ℚ → Nat
  | [], _, best, _ => best
  | s :: l, i, best, f => if f < s.f then maxLoop l (i + 1) i s.f else maxLoop l (i + 1) best f

def maxIdx : List Score → Nat
  | [] => 0
  | s :: l => maxLoop l 1 0 s.f

def addCounts (a b : Counts) : Counts :=
  ⟨a.indivTP + b.indivTP, a.indivTPFN + b.indivTPFN, a.totalTP + b.totalTP, a.totalTPFP + b.totalTPFP⟩

/-- The fields set by `updateScores`, except `dAreaPR`. -/
structure Scores where
  bestImage : List Score
  threshold : List Score
  best : Score
  maxRec : ℚ
  maxPrec : ℚ
  maxF : ℚ

/-- `oMaxBinClassifMetricsAccumulator`, `BSDS500.cpp:556-559`. `none`: an index out of bounds. -/
def sumMax (ths : List Nat) : List (List Counts) → Counts → Option Counts
  | [], acc => some acc
  | img :: imgs, acc => (img[maxIdx (List.zipWith scoreOf ths img)]?).bind fun c => sumMax ths imgs (addCounts acc c)

/-- `updateScores()`, `BSDS500.cpp:527-573`, for the images' counters `imgs`, each with one entry per threshold of `ths`
(checked by debug assertions, lines 533-540). The cumulated counters start at zero. -/
def scores (ths : List Nat) (imgs : List (List Counts)) : Option Scores :=
  let thr := List.zipWith scoreOf ths (imgs.foldl (List.zipWith addCounts) (List.replicate ths.length ⟨0, 0, 0, 0⟩))
  (imgs.mapM fun img => findMax (List.zipWith scoreOf ths img)).bind fun bi =>
  (sumMax ths imgs ⟨0, 0, 0, 0⟩).bind fun m =>
  (findMax thr).map fun b =>
  { bestImage := bi, threshold := thr, best := b, maxRec := ratio m.indivTP m.indivTPFN, maxPrec := ratio m.totalTP m.totalTPFP,
    maxF := fMeasure (ratio m.indivTP m.indivTPFN) (ratio m.totalTP m.totalTPFP) }

/-- What computing `dAreaPR` leads to. -/
inductive Area
  | value (a : ℚ)
  | domainError
  | outOfBounds
deriving DecidableEq

/-- `dAreaPR += vdInterpVals[n]*0.01` for the indices `0..n-1` of the loop, `BSDS500.cpp:592-594`. -/
def sumArea (vals : List ℚ) : Nat → Area
  | 0 => .value 0
  | n + 1 =>
    match sumArea vals n, vals[n]? with
    | .value a, some v => .value (a + v * (1 / 100))
    | .value _, none => .outOfBounds
    | o, _ => o

/-- The computation of `dAreaPR`, `BSDS500.cpp:574-595`, from the index order `idx` produced by the sort inside
`lv::unique_indices` (`cxx.hpp:358-366`). -/
def area (thr : List Score) (idx : List Nat) : Area :=
  let recAt (i : Nat) : ℚ := ((thr[i]?).map (·.recall)).getD 0
  let precAt (i : Nat) : ℚ := ((thr[i]?).map (·.prec)).getD 0
  let uniq := Seq.stdUnique (fun a b => recAt a == recAt b) idx
  if uniq.length > 1 then
    match (List.range 101).mapM fun n : Nat => MathSeq.interp1 (uniq.map fun i => (recAt i, precAt i)) ((n : ℚ) / 100) with
    | none => .domainError
    | some vals => sumArea vals (vals.length + 1)
  else .value 0

end Litiv.BsdsScore
