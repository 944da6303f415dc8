import Verif.Model.Consensus
import Verif.Model.IEEE

/-!
# Model of the adaptive feedback of PBAS

`modules/video/src/BackgroundSubtractorPBAS.cpp:56-222` (one channel) and `270-450` (three channels), with the default
compile-time settings of `BackgroundSubtractorPBAS.hpp:41-87` (self diffusion on; R2 acceleration, morphological operations
and single-channel validation off).

What is stored for one pixel in one sample is a value of a type `V` (colour with its gradient magnitude); the blurring and
Scharr filters that give the gradient are outside: a frame gives, for each pixel, its colour and its gradient. The sample
handling is that of `Verif/Model/Consensus.lean`. Values of type `float` are rationals; every `float` operation is followed by
a rounding function `rd` (`IEEE.Rounds`; unbounded exponent, so no overflow, no subnormal numbers). A learning rate override
is a positive rational whose ceiling fits in `size_t`. The mask is the one before the median filter
(`BackgroundSubtractorPBAS.cpp:266,494`), which is not fed back. The single-channel code is modelled for inputs whose row stride
is their width (`Consensus.pbasIndex` covers the others).
-/

namespace Litiv.Pbas
open Consensus

/-- The distances of one variant: colour and gradient distance of the input to a sample, addition to the frame's total of
gradient distances, and conversion of that total to `float`. -/
structure Kind (V : Type) where
  col : V → V → ℚ
  grd : V → V → ℚ
  acc : ℚ → ℚ → ℚ
  fin : ℚ → ℚ

/-- One channel, `BackgroundSubtractorPBAS.cpp:138,150-151,159,222`: `L1dist` of gray levels and of gradients, a `size_t`
total (no wrap-around: 64 bits), converted to `float` at the end. -/
def kind1 (rd : ℚ → ℚ) : Kind (BitVec 8 × BitVec 8) where
  col := fun a b => (Bits.l1distU a.1 b.1).toNat
  grd := fun a b => (Bits.l1distU a.2 b.2).toNat
  acc := fun t g => t + g
  fin := rd

/-- Three channels, `BackgroundSubtractorPBAS.cpp:362,374-379,387,450`: `L2dist` of colours and of gradients, with the squares
summed in 16 bits (`math.hpp:390-397`), and a `float` total. `sq n` is `(float)sqrt(n)`. -/
def kind3 (rd : ℚ → ℚ) (sq : Nat → ℚ) : Kind (Col × Col) where
  col := fun a b => sq (Bits.l2sqrdistArr8 16 a.1.toList b.1.toList).toNat
  grd := fun a b => sq (Bits.l2sqrdistArr8 16 a.2.toList b.2.toList).toNat
  acc := fun t g => rd (t + g)
  fin := fun t => t

/-- The three adaptive values of one pixel: `m_oDistThresholdFrame`, `m_oUpdateRateFrame` and `m_oMeanMinDistFrame`. -/
structure Adapt where
  R : ℚ
  T : ℚ
  D : ℚ
deriving DecidableEq

/-- Parameters fixed at construction and initialization: those of `Consensus.Cfg`, `m_nDefaultColorDistThreshold` and
`m_fDefaultUpdateRate`. -/
structure Par where
  c : Cfg
  thr : Nat
  rate0 : ℚ

/-- The asserts of the constructor and of `initialize`, `BackgroundSubtractorPBAS.cpp:31-32,62`; the position helpers are
called with no border; the rate is a `float`. -/
structure Par.Valid (rd : ℚ → ℚ) (P : Par) : Prop where
  b0 : P.c.b = 0
  h0 : 0 < P.c.h
  w0 : 0 < P.c.w
  n0 : 0 < P.c.n
  nle : P.c.n ≤ 2 ^ 24
  req : P.c.req ≤ P.c.n
  rpos : 0 < P.rate0
  rle : P.rate0 ≤ 255
  rrep : rd P.rate0 = P.rate0

/-- `fSumDist`, `BackgroundSubtractorPBAS.cpp:152` and `380`; `mean` is `m_fFormerMeanGradDist`. -/
def sumDist {V : Type} (rd : ℚ → ℚ) (K : Kind V) (mean : ℚ) (a b : V) : ℚ :=
  min (rd (rd (rd (10 / mean) * K.grd a b) + K.col a b)) 255

/-- `fCurrDistThreshold`, `BackgroundSubtractorPBAS.cpp:147` and `371` (the threshold is converted to `float`). -/
def curThr (rd : ℚ → ℚ) (P : Par) (a : Adapt) : ℚ := rd (a.R * rd P.thr)

/-- The matching loop, `BackgroundSubtractorPBAS.cpp:148-163` and `372-391`: `rem` samples are left, the next one is `idx`;
`d` and `g` are the distance and the gradient distance of the samples. The result is the number of matches, the smallest
matching distance, and the updated frame totals. -/
def scan (acc : ℚ → ℚ → ℚ) (d g : Nat → ℚ) (thr : ℚ) (req : Nat) : (rem idx cnt : Nat) → (md tot : ℚ) → (bad : Nat) → Nat × ℚ × ℚ × Nat
  | 0, _, cnt, md, tot, bad => (cnt, md, tot, bad)
  | rem + 1, idx, cnt, md, tot, bad =>
    if cnt < req then
      if d idx ≤ thr then scan acc d g thr req rem (idx + 1) (cnt + 1) (if d idx < md then d idx else md) tot bad
      else scan acc d g thr req rem (idx + 1) cnt md (acc tot (g idx)) (bad + 1)
    else (cnt, md, tot, bad)

/-- The running mean of minimal distances, `BackgroundSubtractorPBAS.cpp:165` and `393`. -/
def stepMean (rd : ℚ → ℚ) (n : Nat) (D md : ℚ) : ℚ :=
  rd (rd (rd (D * rd ((n - 1 : Nat) : ℚ)) + rd (md / 255)) / rd n)

/-- The learning rate of a foreground pixel, `BackgroundSubtractorPBAS.cpp:169-171` and `397-399`. -/
def rateUp (rd : ℚ → ℚ) (T D : ℚ) : ℚ :=
  let t := rd (T + rd (1 / rd (rd (D * 255) + 1)))
  if t > 200 then 200 else t

/-- The learning rate of a background pixel, `BackgroundSubtractorPBAS.cpp:192-194` and `420-422`. -/
def rateDown (rd : ℚ → ℚ) (T D : ℚ) : ℚ :=
  let t := rd (T - rd (rd (1 / 20) / rd (rd (D * 255) + 1)))
  if t < 2 then 2 else t

/-- The distance threshold factor, `BackgroundSubtractorPBAS.cpp:213-218` and `441-446`. -/
def stepThr (rd : ℚ → ℚ) (R D : ℚ) : ℚ :=
  if R < rd (rd (rd (3 / 5) + rd (D * 5)) + 0) then
    if R < 99 then rd (R * rd (21 / 20)) else R
  else if R > rd (3 / 5) then rd (R * rd (19 / 20)) else R

/-- `nLearningRate`, `BackgroundSubtractorPBAS.cpp:174` and `402`. -/
def learnRate (over : Option ℚ) (T : ℚ) : Nat :=
  match over with
  | some r => ⌈r⌉.toNat
  | none => ⌈T⌉.toNat

/-- One input frame: colour and gradient of each pixel, and the `learningRateOverride` when it is positive. -/
structure Input (V : Type) where
  img : Nat → Nat → V
  over : Option ℚ

/-- State of the pixel loop: samples, mask and random numbers; adaptive values; frame totals. -/
structure St (V : Type) where
  core : Consensus.St V
  ad : Nat → Nat → Adapt
  tot : ℚ
  bad : Nat

/-- One pixel, `BackgroundSubtractorPBAS.cpp:143-219` and `367-447`. -/
def step {V : Type} (rd : ℚ → ℚ) (K : Kind V) (P : Par) (rnd : Nat → Nat) (mean : ℚ) (f : Input V) (st : St V) (p : Nat × Nat) :
    Option (St V) :=
  let a := st.ad p.1 p.2
  let v := f.img p.1 p.2
  let r := scan K.acc (fun s => sumDist rd K mean v (st.core.model s p.1 p.2)) (fun s => K.grd v (st.core.model s p.1 p.2))
    (curThr rd P a) P.c.req P.c.n 0 0 255 st.tot st.bad
  let D := stepMean rd P.c.n a.D r.2.1
  let put := fun a' : Adapt => fun y x => if y = p.1 ∧ x = p.2 then a' else st.ad y x
  if r.1 < P.c.req then
    some ⟨{ st.core with mask := fun y x => if y = p.1 ∧ x = p.2 then 255 else st.core.mask y x },
      put ⟨stepThr rd a.R D, rateUp rd a.T D, D⟩, r.2.2.1, r.2.2.2⟩
  else
    let rate := learnRate f.over a.T
    if rate = 0 then none
    else
      let fr : Frame V := pbas f.img (fun _ _ _ => true) (fun _ _ => rate)
      match updateOwn P.c rnd fr st.core p.1 p.2 with
      | none => none
      | some c1 =>
        match updateNeighbour P.c rnd fr c1 p.1 p.2 with
        | none => none
        | some c2 => some ⟨c2, put ⟨stepThr rd a.R D, rateDown rd a.T D, D⟩, r.2.2.1, r.2.2.2⟩

/-- What persists between frames: samples, random numbers used, adaptive values, `m_fFormerMeanGradDist`; and the masks
produced so far. -/
structure Hist (V : Type) where
  model : Model V
  k : Nat
  ad : Nat → Nat → Adapt
  mean : ℚ
  masks : List (Nat → Nat → BitVec 8)

/-- The pixel loop over the listed pixels, from a cleared mask and the initial totals, `BackgroundSubtractorPBAS.cpp:115,138-142` and `340,362-366`. -/
def pixels {V : Type} (rd : ℚ → ℚ) (K : Kind V) (P : Par) (rnd : Nat → Nat) (s : Hist V) (f : Input V) (px : List (Nat × Nat)) :
    Option (St V) :=
  px.foldlM (step rd K P rnd s.mean f) ⟨⟨s.model, fun _ _ => 0, s.k⟩, s.ad, 0, 1⟩

/-- `apply`, `BackgroundSubtractorPBAS.cpp:109-222` and `328-450`; the last line gives the mean gradient distance used in the
next frame. -/
def apply {V : Type} (rd : ℚ → ℚ) (K : Kind V) (P : Par) (rnd : Nat → Nat) (s : Hist V) (f : Input V) : Option (Hist V) :=
  match pixels rd K P rnd s f (raster P.c.h P.c.w) with
  | none => none
  | some st => some ⟨st.core.model, st.core.k, st.ad, max (rd (K.fin st.tot / rd st.bad)) 20, s.masks ++ [st.core.mask]⟩

/-- `initialize`, `BackgroundSubtractorPBAS.cpp:61-107` and `275-326`. `mean` is the value of `m_fFormerMeanGradDist` at that time:
20 for a new object (line 29); it is not reset by `initialize`. -/
def init {V : Type} (P : Par) (zero : V) (rnd : Nat → Nat) (mean : ℚ) (img : Nat → Nat → V) : Option (Hist V) :=
  match initModel P.c zero rnd img with
  | none => none
  | some (m, k) => some ⟨m, k, fun _ _ => ⟨1, P.rate0, 0⟩, mean, []⟩

/-- Initialization, then frames in order. -/
def session {V : Type} (rd : ℚ → ℚ) (K : Kind V) (P : Par) (zero : V) (rnd : Nat → Nat) (mean : ℚ) (img : Nat → Nat → V)
    (fs : List (Input V)) : Option (Hist V) :=
  match init P zero rnd mean img with
  | none => none
  | some s => fs.foldlM (apply rd K P rnd) s

end Litiv.Pbas
