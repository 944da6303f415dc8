import Mathlib.Analysis.Real.Sqrt
import Mathlib.Algebra.BigOperators.Group.List.Basic

/-!
# Model of the evaluation metrics

Models `modules/datasets/include/litiv/datasets/metrics.hpp` and `modules/datasets/src/metrics.cpp`.

Counters are `uint64_t` and wrap around, as in C++.  Floating-point numbers are replaced by exact reals; every
division goes through `divc`, which reports a division by zero as `none`, so that the absence of NaN/Inf is a theorem.
A violated `lvAssert_` and an out-of-bounds read are also `none`.
-/

namespace Litiv.Metrics

/-- A continuous single-channel 8-bit `cv::Mat` (`data` is row-major, `step == cols`). -/
structure Mat8 where
  rows : Nat
  cols : Nat
  data : List UInt8

/-- `cv::Mat::empty()`: no element. -/
def Mat8.empty (m : Mat8) : Bool := m.rows * m.cols == 0

/-- `cv::Mat::size()==cv::Mat::size()`. -/
def Mat8.sameSize (a b : Mat8) : Bool := a.rows == b.rows && a.cols == b.cols

/-- `BinClassif`, metrics.hpp:32-38, default constructor metrics.hpp:66. -/
structure BinClassif where
  tp : UInt64 := 0
  tn : UInt64 := 0
  fp : UInt64 := 0
  fn : UInt64 := 0
  se : UInt64 := 0
  dc : UInt64 := 0
deriving DecidableEq

/-- `BinClassif::total`, metrics.hpp:50-52. -/
def BinClassif.total (c : BinClassif) (withDC : Bool) : UInt64 :=
  c.tp + c.tn + c.fp + c.fn + (if withDC then c.dc else 0)

/-- `BinClassif::isEqual`, metrics.hpp:54-56. -/
def BinClassif.isEqual (a c : BinClassif) : Bool :=
  a.tp == c.tp && a.tn == c.tn && a.fp == c.fp && a.fn == c.fn && a.se == c.se && a.dc == c.dc

/-- `BinClassif::accumulate(const BinClassif&)`, metrics.hpp:58-60. -/
def BinClassif.acc (a c : BinClassif) : BinClassif :=
  { tp := a.tp + c.tp, tn := a.tn + c.tn, fp := a.fp + c.fp, fn := a.fn + c.fn, se := a.se + c.se, dc := a.dc + c.dc }

/-- The counter updates for one evaluated pixel, metrics.cpp:40-55 (`x` is the classifier output, `g` the ground truth). -/
def countEvaluated (s : BinClassif) (x g : UInt8) : BinClassif :=
  let s := if x = 255 then
      (if g = 255 then { s with tp := s.tp + 1 } else { s with fp := s.fp + 1 })
    else
      (if g = 255 then { s with fn := s.fn + 1 } else { s with tn := s.tn + 1 })
  if g = 50 then (if x = 255 then { s with se := s.se + 1 } else s) else s

/-- The body of the inner loop, metrics.cpp:37-58; `r` is the region-of-interest value, `none` when `oROI.empty()`. -/
def countPixel (s : BinClassif) (x g : UInt8) (r : Option UInt8) : BinClassif :=
  if g ≠ 85 ∧ g ≠ 170 ∧ (r = none ∨ r ≠ some 0) then countEvaluated s x g
  else { s with dc := s.dc + 1 }

/-- Reads the region-of-interest value at an offset; `some none` when there is no region of interest. -/
def roiAt (roi : Mat8) (k : Nat) : Option (Option UInt8) :=
  if roi.empty then some none else (roi.data[k]?).map some

/-- The argument checks shared by `accumulate` and `getColoredMask`, metrics.cpp:22-25 and 64-67.  Type and continuity
checks are implied by the type `Mat8` (metrics.cpp:24 checks the continuity of the ground truth where that of the
region of interest is meant). -/
def checkArgs (classif gt roi : Mat8) : Bool :=
  !classif.empty && (gt.empty || classif.sameSize gt) && (roi.empty || classif.sameSize roi)

/-- `BinClassif::accumulate(oClassif,oGT,oROI)`, metrics.cpp:21-61. -/
def BinClassif.accImage (s : BinClassif) (classif gt roi : Mat8) : Option BinClassif :=
  if !checkArgs classif gt roi then none
  else if gt.empty then some { s with dc := s.dc + UInt64.ofNat (classif.rows * classif.cols) }
  else
    (List.range classif.rows).foldlM (fun s i =>
      (List.range classif.cols).foldlM (fun s j => do
        let x ← classif.data[classif.cols * i + j]?
        let g ← gt.data[classif.cols * i + j]?
        let r ← roiAt roi (classif.cols * i + j)
        return countPixel s x g r) s) s

/-- A BGR colour. -/
abbrev Color := UInt8 × UInt8 × UInt8

/-- Colour of one pixel in `BinClassif::getColoredMask`, metrics.cpp:82-113 (the result starts black, line 73). -/
def colorPixel (x g : UInt8) (r : Option UInt8) : Color :=
  if g ≠ 85 ∧ g ≠ 170 ∧ (r = none ∨ r ≠ some 0) then
    if x = 255 then
      if g = 255 then (0, 255, 0)
      else if g = 0 then (0, 0, 255)
      else if g = 50 then (0, 127, 255)
      else (85, 85, 85)
    else if g = 255 then (127, 0, 255)
    else (0, 0, 0)
  else if r = some 0 then (127, 127, 127)
  else (x, x, x)

/-- `BinClassif::getColoredMask`, metrics.cpp:63-117, as the row-major list of its pixels.  Without ground truth the
grey classifier output is converted to BGR (lines 68-72). -/
def coloredMask (classif gt roi : Mat8) : Option (List Color) :=
  if !checkArgs classif gt roi then none
  else if gt.empty then some (classif.data.map fun x => (x, x, x))
  else
    ((List.range classif.rows).mapM fun i =>
      (List.range classif.cols).mapM fun j => do
        let x ← classif.data[classif.cols * i + j]?
        let g ← gt.data[classif.cols * i + j]?
        let r ← roiAt roi (classif.cols * i + j)
        return colorPixel x g r).map List.flatten

/-! ### Array accumulators -/

/-- `IMetricsAccumulator_<BinaryClassifierArray>`, metrics.hpp:152-167, constructor metrics.cpp:281-282. -/
structure ArrAcc where
  counters : List BinClassif
  names : List String

/-- `IMetricsAccumulator_(size_t nArraySize=0)`, metrics.cpp:281-282. -/
def ArrAcc.create (n : Nat) : ArrAcc := ⟨List.replicate n {}, List.replicate n ""⟩

/-- `accumulate` of array accumulators, metrics.cpp:255-272. -/
def ArrAcc.acc (a b : ArrAcc) : Option ArrAcc :=
  let cs := if a.counters.isEmpty then some (List.replicate b.counters.length ({} : BinClassif))
    else if a.counters.length = b.counters.length then some a.counters else none
  let ns := if a.names.isEmpty then some b.names
    else if a.names.length = b.names.length then some a.names else none
  match cs, ns with
  | some cs, some ns =>
    if cs.length = ns.length then
      some ⟨List.zipWith BinClassif.acc cs b.counters, List.zipWith (fun n m => if n = "" then m else n) ns b.names⟩
    else none
  | _, _ => none

/-- `reduce()` of array accumulators, metrics.cpp:274-279. -/
def ArrAcc.reduce (a : ArrAcc) : BinClassif := a.counters.foldl BinClassif.acc {}

/-! ### Stereo disparity errors -/

/-- `StereoDispErrors`, metrics.hpp:70-72; floats are exact reals. -/
structure StereoErrs where
  errors : List ℝ := []
  dc : UInt64 := 0

/-- `StereoDispErrors::accumulate(const StereoDispErrors&)`, metrics.hpp:82-84. -/
def StereoErrs.acc (a c : StereoErrs) : StereoErrs := ⟨a.errors ++ c.errors, a.dc + c.dc⟩

/-- Element types accepted for the ground truth, metrics.cpp:124. -/
inductive DispType | u8 | s8 | u16 | s16 | s32 | f32
deriving DecidableEq

/-- `std::numeric_limits<T>::max()` (with 8-bit signed `char`). -/
noncomputable def DispType.max : DispType → ℝ
  | .u8 => 255 | .s8 => 127 | .u16 => 65535 | .s16 => 32767 | .s32 => 2147483647
  | .f32 => (2 - (1/2)^23) * 2^127

/-- The ground-truth validity mask, metrics.cpp:140-154. -/
def dispValid (t : DispType) (g : ℝ) : Prop :=
  match t with
  | .u8 | .u16 => g ≠ t.max
  | .s8 | .s16 | .s32 | .f32 => g ≠ t.max ∧ g ≥ 0

open Classical in
/-- The loop of `StereoDispErrors::accumulate`, metrics.cpp:156-167, over the row-major list of
(estimate, ground truth, region-of-interest value or `none` when there is none).  Integer maps are converted to float
exactly (a simplification: 32-bit integers above 2^24 are rounded by the code). -/
noncomputable def StereoErrs.accImage (s : StereoErrs) (t : DispType) (px : List (ℝ × ℝ × Option UInt8)) : StereoErrs :=
  px.foldl (fun s p => if dispValid t p.2.1 ∧ (p.2.2 = none ∨ p.2.2 ≠ some 0)
    then { s with errors := s.errors ++ [|p.1 - p.2.1|] } else { s with dc := s.dc + 1 }) s

/-! ### Metric formulas -/

open Classical in
/-- A real division which reports a zero divisor. -/
noncomputable def divc (a b : ℝ) : Option ℝ := if b = 0 then none else some (a / b)

/-- Conversion of a counter to `double` (exact here). -/
noncomputable def toR (n : UInt64) : ℝ := (n.toNat : ℝ)

/-- `CalcRecall(m)`, metrics.hpp:225-227. -/
noncomputable def calcRecall (m : BinClassif) : Option ℝ :=
  if m.tp + m.fn > 0 then divc (toR m.tp) (toR (m.tp + m.fn)) else some 0

/-- `CalcPrecision(m)`, metrics.hpp:233-235. -/
noncomputable def calcPrecision (m : BinClassif) : Option ℝ :=
  if m.tp + m.fp > 0 then divc (toR m.tp) (toR (m.tp + m.fp)) else some 0

/-- `CalcSpecificity(m)`, metrics.hpp:237-239. -/
noncomputable def calcSpecificity (m : BinClassif) : Option ℝ :=
  if m.tn + m.fp > 0 then divc (toR m.tn) (toR (m.tn + m.fp)) else some 0

/-- `CalcFalsePositiveRate(m)`, metrics.hpp:241-243. -/
noncomputable def calcFPR (m : BinClassif) : Option ℝ :=
  if m.fp + m.tn > 0 then divc (toR m.fp) (toR (m.fp + m.tn)) else some 0

/-- `CalcFalseNegativeRate(m)`, metrics.hpp:245-247. -/
noncomputable def calcFNR (m : BinClassif) : Option ℝ :=
  if m.tp + m.fn > 0 then divc (toR m.fn) (toR (m.tp + m.fn)) else some 0

/-- `CalcPercentBadClassifs(m)`, metrics.hpp:249-251. -/
noncomputable def calcPBC (m : BinClassif) : Option ℝ :=
  if m.total false > 0 then divc (100 * toR (m.fn + m.fp)) (toR (m.total false)) else some 0

open Classical in
/-- `CalcFMeasure(dRecall,dPrecision)`, metrics.hpp:213-215. -/
noncomputable def calcFMeasureRP (r p : ℝ) : Option ℝ :=
  if r + p > 0 then divc (2 * (r * p)) (r + p) else some 0

/-- `CalcFMeasure(m)`, metrics.hpp:217-219. -/
noncomputable def calcFMeasure (m : BinClassif) : Option ℝ := do
  let r ← calcRecall m
  let p ← calcPrecision m
  calcFMeasureRP r p

/-- `CalcMatthewsCorrCoeff(m)`, metrics.hpp:253-255.  `nFP*nFN` is a `uint64_t` product and wraps. -/
noncomputable def calcMCC (m : BinClassif) : Option ℝ :=
  if m.tp + m.fp > 0 ∧ m.tp + m.fn > 0 ∧ m.tn + m.fp > 0 ∧ m.tn + m.fn > 0 then
    divc (toR m.tp * toR m.tn - toR (m.fp * m.fn))
      (Real.sqrt ((toR m.tp + toR m.fp) * toR (m.tp + m.fn) * toR (m.tn + m.fp) * toR (m.tn + m.fn)))
  else some 0

/-- `BinClassifMetrics`, metrics.hpp:203-211. -/
structure BinMetrics where
  recall : ℝ
  specificity : ℝ
  fpr : ℝ
  fnr : ℝ
  pbc : ℝ
  precision : ℝ
  fmeasure : ℝ
  mcc : ℝ

/-- `BinClassifMetrics(const BinClassif&)`, metrics.hpp:257. -/
noncomputable def calcMetrics (m : BinClassif) : Option BinMetrics := do
  let recall ← calcRecall m
  let specificity ← calcSpecificity m
  let fpr ← calcFPR m
  let fnr ← calcFNR m
  let pbc ← calcPBC m
  let precision ← calcPrecision m
  let fmeasure ← calcFMeasure m
  let mcc ← calcMCC m
  return { recall, specificity, fpr, fnr, pbc, precision, fmeasure, mcc }

open Classical in
/-- `StereoDispErrorMetrics::CalcPercentBad`, metrics.hpp:269-277. -/
noncomputable def percentBad (v : List ℝ) (margin : ℝ) : Option ℝ :=
  if v.isEmpty then some 0
  else (divc ((v.foldl (fun n e => if e > margin then n + 1 else n) 0 : Nat) : ℝ) v.length).map (· * 100)

/-- `StereoDispErrorMetrics::CalcAverage`, metrics.hpp:279-283. -/
noncomputable def average (v : List ℝ) : Option ℝ :=
  if v.isEmpty then some 0 else divc (v.foldl (· + ·) 0) v.length

/-- `StereoDispErrorMetrics::CalcRMS`, metrics.hpp:285-291. -/
noncomputable def rms (v : List ℝ) : Option ℝ :=
  if v.isEmpty then some 0
  else (divc (v.foldl (fun s e => s + e * e) 0) v.length).map Real.sqrt

/-- `StereoDispErrorMetrics`, metrics.hpp:261-267. -/
structure StereoMetrics where
  bad05 : ℝ
  bad1 : ℝ
  bad2 : ℝ
  bad4 : ℝ
  avg : ℝ
  rms : ℝ

/-- `StereoDispErrorMetrics(const StereoDispErrors&)`, metrics.hpp:293. -/
noncomputable def calcStereo (e : StereoErrs) : Option StereoMetrics := do
  let bad05 ← percentBad e.errors (1/2)
  let bad1 ← percentBad e.errors 1
  let bad2 ← percentBad e.errors 2
  let bad4 ← percentBad e.errors 4
  let avg ← average e.errors
  let rms ← rms e.errors
  return { bad05, bad1, bad2, bad4, avg, rms }

/-! ### Averaging calculators -/

/-- `IMetricsCalculator_<BinaryClassifier>`: the metrics and `nWeight` (1 initially, metrics.hpp:314). -/
structure Calc where
  metrics : BinMetrics
  weight : Nat := 1

/-- The weighted mean used for every metric, e.g. metrics.cpp:332. -/
noncomputable def wmean (x2 : ℝ) (w2 : Nat) (x : ℝ) (w : Nat) : Option ℝ := divc (x2 * w2 + x * w) (w + w2 : Nat)

/-- The weighted mean of two metric sets, metrics.cpp:332-339 and 360-367. -/
noncomputable def wmeanMetrics (m2 : BinMetrics) (w2 : Nat) (m : BinMetrics) (w : Nat) : Option BinMetrics := do
  let recall ← wmean m2.recall w2 m.recall w
  let specificity ← wmean m2.specificity w2 m.specificity w
  let fpr ← wmean m2.fpr w2 m.fpr w
  let fnr ← wmean m2.fnr w2 m.fnr w
  let pbc ← wmean m2.pbc w2 m.pbc w
  let precision ← wmean m2.precision w2 m.precision w
  let fmeasure ← wmean m2.fmeasure w2 m.fmeasure w
  let mcc ← wmean m2.mcc w2 m.mcc w
  return { recall, specificity, fpr, fnr, pbc, precision, fmeasure, mcc }

/-- `IMetricsCalculator_<BinaryClassifier>::accumulate`, metrics.cpp:329-342 (weights do not wrap: they count batches). -/
noncomputable def Calc.acc (a m2 : Calc) : Option Calc := do
  let metrics ← wmeanMetrics m2.metrics m2.weight a.metrics a.weight
  return { metrics, weight := a.weight + m2.weight }

/-- `IMetricsCalculator_<BinaryClassifierArray>`, one metric set per stream (stream names are not modelled here). -/
structure ArrCalc where
  metrics : List BinMetrics
  weight : Nat := 1

/-- `IMetricsCalculator_<BinaryClassifierArray>::accumulate`, metrics.cpp:355-371. -/
noncomputable def ArrCalc.acc (a m2 : ArrCalc) : Option ArrCalc :=
  if a.metrics.length = m2.metrics.length then do
    let metrics ← (List.zip m2.metrics a.metrics).mapM fun p => wmeanMetrics p.1 m2.weight p.2 a.weight
    return { metrics, weight := a.weight + m2.weight }
  else none

/-- Componentwise sum of metric sets, metrics.cpp:377-384. -/
noncomputable def BinMetrics.add (m n : BinMetrics) : BinMetrics :=
  { recall := m.recall + n.recall, specificity := m.specificity + n.specificity, fpr := m.fpr + n.fpr
    fnr := m.fnr + n.fnr, pbc := m.pbc + n.pbc, precision := m.precision + n.precision
    fmeasure := m.fmeasure + n.fmeasure, mcc := m.mcc + n.mcc }

/-- Componentwise quotient of a metric set, metrics.cpp:386-393. -/
noncomputable def BinMetrics.quot (m : BinMetrics) (k : ℝ) : Option BinMetrics := do
  let recall ← divc m.recall k
  let specificity ← divc m.specificity k
  let fpr ← divc m.fpr k
  let fnr ← divc m.fnr k
  let pbc ← divc m.pbc k
  let precision ← divc m.precision k
  let fmeasure ← divc m.fmeasure k
  let mcc ← divc m.mcc k
  return { recall, specificity, fpr, fnr, pbc, precision, fmeasure, mcc }

/-- `IMetricsCalculator_<BinaryClassifierArray>::reduce`, metrics.cpp:373-395. -/
noncomputable def ArrCalc.reduce (a : ArrCalc) : Option BinMetrics :=
  match a.metrics with
  | [] => none
  | m :: ms => (ms.foldl BinMetrics.add m).quot (ms.length + 1 : Nat)

end Litiv.Metrics
