import Verif.Model.SubSense
import Verif.Model.Pawcs

/-!
# Adaptation, modes and background image of PAWCS

Models the per-pixel feedback, the frame-level analysis and `getBackgroundImage` of
`modules/video/src/BackgroundSubtractorPAWCS.cpp`. The word dictionaries are in `Verif/Model/Pawcs.lean`; there the update
rates and the arguments of `refreshModel` are arbitrary, here the words are arbitrary. `float` operations are rounded by `rd`.
-/

namespace Litiv.PawcsFeed
open SubSense (consts mean meanRaw finalMean stepDist)

/-! ## Feedback -/

/-- Parameters: `m_nSamplesForMovingAvgs`, and the largest colour and descriptor distances (lines 81-84: 255 and 16, or 765 and 48). -/
structure Par where
  N : Nat
  maxCol : Nat
  maxDesc : Nat

/-- The adaptive values of a pixel: update rate, distance factor, variation factor, averages, unstable flag (lines 470-491). -/
structure Fb where
  T : ℚ
  R : ℚ
  v : ℚ
  dLT : ℚ
  dST : ℚ
  rawLT : ℚ
  rawST : ℚ
  finLT : ℚ
  finST : ℚ
  unstable : Bool
deriving DecidableEq

/-- Values at initialization, lines 470-493. -/
def Fb.init : Fb := ⟨1, 2, 10, 0, 0, 0, 0, 0, 0, false⟩

/-- What a frame gives at a pixel: the smallest colour and descriptor distances of the matching words, the sum of their weights and
the needed weight (lines 640, 692-703), whether it is at the border of the region, the label given by the global words when the
needed weight is not reached (lines 777-802), the last final label, whether the region is flat, the blink map, the new final
label, and whether the frame ends with a reset (line 1509). -/
structure Obs where
  col : Nat
  desc : Nat
  sum : ℚ
  thr : ℚ
  border : Bool
  glabel : Bool
  lastFG : Bool
  flat : Bool
  blink : Bool
  final : BitVec 8
  reset : Bool

/-- The decision of lines 734 and 1070. -/
def isBG (o : Obs) : Bool := decide (o.thr ≤ o.sum) || o.border

/-- `fNormalizedMinDist`, lines 737 and 772 (and 1073, 1110). -/
def normDist (rd : ℚ → ℚ) (P : Par) (o : Obs) : ℚ :=
  if isBG o then max (rd ((o.col : ℚ) / P.maxCol)) (rd ((o.desc : ℚ) / P.maxDesc))
  else max (max (rd ((o.col : ℚ) / P.maxCol)) (rd ((o.desc : ℚ) / P.maxDesc))) (rd (rd (o.thr - o.sum) / o.thr))

/-- Number of samples of the long-term averages, line 569. -/
def samplesLT (N t : Nat) : Nat := if t ≤ 500 then N / 2 else N

/-- `1.0f/std::min(...)`, lines 571-572. `none`: division by zero. -/
def factor (rd : ℚ → ℚ) (n : Nat) : Option ℚ := if n = 0 then none else some (rd (1 / n))

/-- The averages of a pixel, lines 737-742 and 772-777 (and 1073-1078, 1110-1115). -/
def averages (rd : ℚ → ℚ) (P : Par) (fLT fST : ℚ) (o : Obs) (b : Fb) : Fb :=
  { b with
    dLT := mean rd fLT b.dLT (normDist rd P o)
    dST := mean rd fST b.dST (normDist rd P o)
    rawLT := meanRaw rd fLT b.rawLT (!isBG o)
    rawST := meanRaw rd fST b.rawST (!isBG o) }

/-- Line 892 (and 1255): unstable regions. -/
def unstableNow (rd : ℚ → ℚ) (b : Fb) : Bool :=
  decide (3 < b.R ∨ (consts rd).ratioMin < rd (b.rawLT - b.finLT) ∨ (consts rd).ratioMin < rd (b.rawST - b.finST))

/-- The raw label of the pixel. -/
def label (o : Obs) : Bool := !isBG o && o.glabel

/-- Lines 894-897 (and 1257-1260): the update rate. A division by zero gives an infinity, which the clamp replaces. -/
def stepRate (rd : ℚ → ℚ) (o : Obs) (b : Fb) : ℚ :=
  if o.lastFG || (decide (min b.dLT b.dST < (consts rd).ratioMin) && label o) then
    if rd (max b.dLT b.dST * b.v) = 0 then 256 else min (rd (b.T + rd (1 / 2 / rd (max b.dLT b.dST * b.v)))) 256
  else if max b.dLT b.dST = 0 then 1
  else max (rd (b.T - rd (rd (1 / 4 * b.v) / max b.dLT b.dST))) 1

/-- Lines 898-901 (and 1261-1264): the variation factor. -/
def stepVar (rd : ℚ → ℚ) (boot : Bool) (o : Obs) (b : Fb) : ℚ :=
  if (consts rd).ratioMin < max b.dLT b.dST ∧ o.blink = true then rd (b.v + (if boot then 2 else 1))
  else max (rd (b.v - rd ((consts rd).vDecr * (if boot || o.flat then 2 else if o.lastFG then 1 / 2 else 1)))) (consts rd).vDecr

/-- The feedback, lines 892-905 (and 1255-1268); lines 902-905 are the same as in SuBSENSE. -/
def feedback (rd : ℚ → ℚ) (boot : Bool) (o : Obs) (b : Fb) : Fb :=
  { b with
    unstable := unstableNow rd b
    T := stepRate rd o b
    v := stepVar rd boot o b
    R := stepDist rd (min b.dLT b.dST) (stepVar rd boot o b) b.R }

/-- `nCurrDescDistThreshold`, line 664 (and 994, before the factor of three). `none`: the shift count is not less than 64. -/
def descThr (rd : ℚ → ℚ) (descOff : Nat) (b : Fb) : Option Nat :=
  if 64 ≤ ⌊rd (b.R + 1 / 2)⌋ then none
  else some (2 ^ ⌊rd (b.R + 1 / 2)⌋.toNat + descOff + (if b.unstable then descOff else 0))

/-- One pixel in frame `t` (counted from one), from the thresholds to the final averages (lines 1460-1461) and the reset. -/
def step (rd : ℚ → ℚ) (P : Par) (t : Nat) (b : Fb) (o : Obs) : Option Fb :=
  match descThr rd 0 b, factor rd (min t (samplesLT P.N t)), factor rd (min t (samplesLT P.N t / 4)) with
  | some _, some fLT, some fST =>
    let b := feedback rd (decide (t ≤ 500)) o (averages rd P fLT fST o b)
    some { b with
      finLT := finalMean rd fLT b.finLT o.final
      finST := finalMean rd fST b.finST o.final
      T := if o.reset then 1 else b.T }
  | _, _, _ => none

/-- A history of a pixel: the frames `t`, `t + 1`, ... -/
def feedFrom (rd : ℚ → ℚ) (P : Par) (t : Nat) (b : Fb) : List Obs → Option Fb
  | [] => some b
  | o :: os =>
    match step rd P t b o with
    | none => none
    | some b => feedFrom rd P (t + 1) b os

/-- A history of a pixel from initialization. -/
def feed (rd : ℚ → ℚ) (P : Par) (os : List Obs) : Option Fb := feedFrom rd P 1 Fb.init os

/-- `learningRateOverride`: none (not positive), a positive number, or infinite. -/
inductive Over | none | val (q : ℚ) | inf

/-- `nCurrLocalWordUpdateRate`, line 659 (and 989). -/
def updRate (o : Over) (flat : Bool) (b : Fb) : Nat :=
  match o with
  | .inf => 2 ^ 64 - 1
  | .val q => ⌈q⌉.toNat
  | .none => if flat then ⌈b.T + 1⌉.toNat / 2 else ⌈b.T⌉.toNat

/-- The modulus of line 685 (and 1019): `ill` is the illumination update flag of the pixel. -/
def illRate (ill : Bool) (rate : Nat) : Nat := if ill then rate / 2 + 1 else rate

/-! ## Frame level -/

/-- The frame-level state: frame number, moving camera mode, weight offset, automatic resets, frames since the last reset, cooldown
(lines 443, 467; `BackgroundSubtractionUtils.cpp:63-68, 110-112`). -/
structure Mode where
  t : Nat
  moving : Bool
  off : Nat
  auto : Bool
  since : Nat
  cool : Nat
deriving DecidableEq, Repr

/-- After `initialize`; the setting of automatic resets is kept (it is on in a new object). -/
def Mode.init (auto : Bool) : Mode := ⟨0, false, 1000, auto, 0, 0⟩

/-- The ratios of a frame: mean change (line 1478), model difference and colour difference (lines 1487-1488). -/
structure Ratios where
  change : ℚ
  model : ℚ
  colour : ℚ

/-- A call of `refreshModel` made by the frame-level analysis: base count, fraction, and whether it is a reset. -/
structure Call where
  base : Nat
  frac : ℚ
  reset : Bool
deriving DecidableEq

/-- Lines 1482-1501: the mode switch. 45 and 4 are `FRAMELEVEL_MIN_L1DIST_THRES` and `FRAMELEVEL_MIN_CDIST_THRES`, whose quarters are
the integers 11 and 1. -/
def switchMode (r : Ratios) (m : Mode) : Mode × List Call :=
  if m.t % 500 = 0 then
    if m.moving = true ∧ r.model < 11 ∧ r.colour < 1 then ({ m with off := 1000, moving := false }, [⟨1, 1, false⟩])
    else if m.t ≤ 500 ∧ m.moving = false ∧ (45 ≤ r.model ∨ 4 ≤ r.colour) then ({ m with off := 5, moving := true }, [⟨1, 1, false⟩])
    else (m, [])
  else (m, [])

/-- Lines 1502-1512: the reset. -/
def resetStep (N : Nat) (r : Ratios) (m : Mode) : Mode × List Call :=
  if 1000 < m.since then ({ m with auto := false }, [])
  else if 45 ≤ r.change ∧ m.cool = 0 then ({ m with since := 0, cool := samplesLT N m.t / 4 }, [⟨m.off / 8, 0, true⟩])
  else if 500 < m.t then ({ m with since := m.since + 1 }, [])
  else (m, [])

/-- The frame-level analysis at the end of a frame, lines 568-570 and 1479-1515. -/
def frameLevel (N : Nat) (r : Ratios) (m : Mode) : Mode × List Call :=
  let m := { m with t := m.t + 1 }
  let m := if m.auto = false ∧ 90 ≤ r.change then { m with auto := true } else m
  let a := if m.auto = true ∨ m.moving = true then
      let a := switchMode r m
      let b := resetStep N r a.1
      (b.1, a.2 ++ b.2)
    else (m, [])
  ({ a.1 with cool := a.1.cool - 1 }, a.2)

/-- Calls: a frame, or `setAutomaticModelReset` (`BackgroundSubtractionUtils.cpp:24-26`). -/
inductive Ev
  | frame (r : Ratios)
  | setAuto (b : Bool)

/-- One call; the refreshes are logged with the frame number. -/
def evStep (N : Nat) (st : Mode × List (Nat × Call)) : Ev → Mode × List (Nat × Call)
  | .frame r => ((frameLevel N r st.1).1, st.2 ++ (frameLevel N r st.1).2.map fun c => (st.1.t + 1, c))
  | .setAuto b => ({ st.1 with auto := b }, st.2)

/-- A history after `initialize`. -/
def modes (N : Nat) (auto : Bool) (evs : List Ev) : Mode × List (Nat × Call) := evs.foldl (evStep N) (Mode.init auto, [])

/-! ## Background image -/

variable {F : Type}

/-- One channel of a pixel of the background image, lines 1534-1542 (and 1545-1554): weighted sum of the values `val` of its words and
sum of the weights. `none`: a missing word. -/
def bgSums (rd : ℚ → ℚ) (t off : Nat) (val : F → Nat) (words : Nat → Option (Pawcs.Word F)) : Nat → Option (ℚ × ℚ)
  | 0 => some (0, 0)
  | i + 1 =>
    match bgSums rd t off val words i, words i with
    | some (c, w), some wd =>
      some (rd (c + rd ((val wd.feat : ℚ) * Pawcs.weight rd t off wd)), rd (w + Pawcs.weight rd t off wd))
    | _, _ => none

/-- The value of the pixel before the conversion to 8 (or 16) bits. `none`: zero divided by zero. -/
def bgValue (rd : ℚ → ℚ) (t off n : Nat) (val : F → Nat) (words : Nat → Option (Pawcs.Word F)) : Option ℚ :=
  match bgSums rd t off val words n with
  | some (c, w) => if w = 0 then none else some (rd (c / w))
  | none => none

end Litiv.PawcsFeed
