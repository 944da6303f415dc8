import Verif.Model.Lobster
import Verif.Model.IEEE

/-!
# Model of `BackgroundSubtractorSuBSENSE`, `modules/video/src/BackgroundSubtractorSuBSENSE.cpp`

Built on `Verif/Model/Consensus.lean` (samples, positions, `refreshModel`) and `Verif/Model/Lobster.lean` (what is stored for
one channel of a pixel, neighbours). `float` values are rationals; every `float` operation goes through a rounding function
`rd` (`Verif/Model/IEEE.lean`), infinities produced by divisions by zero are explicit, and `NaN` cannot arise in the
modelled cases. No extended intermediate precision and no fused operations. `rand()` is an arbitrary stream. The
post-processing of the mask (closing, hole filling, erosion, median filter; lines 540-547) is an arbitrary function `post`,
and the downscaled input (`cv::resize`, line 568) an arbitrary list of pixels per frame. Not modelled: the debug display,
`getBackgroundImage` and `getBackgroundDescriptorsImage`.
-/

namespace Litiv.SubSense
open Consensus BgUtils

/-- Ways in which a call is undefined or stops with an error. `distShift`: `1 << floor(R+0.5)` with 64 or more (lines 223, 356);
`capShift`: `>>` by 32 or more (lines 602-603); `avg`: division by zero in a moving-average factor or an empty downscaled
frame; `access`: access outside of an image or of the samples; `rate`: modulo by zero; `convert`: conversion of a negative
`float` to `size_t`. -/
inductive Fail | distShift | capShift | avg | access | rate | convert
deriving DecidableEq, Repr

/-- `FEEDBACK_V_DECR` etc. (lines 25-43) that are not exactly representable are rounded. -/
structure Consts where
  vDecr : ℚ
  rVar : ℚ
  ratioMin : ℚ
  ghostD : ℚ
  ghostS : ℚ
  descLow : ℚ

/-- The constants, `BackgroundSubtractorSuBSENSE.cpp:25-43`. -/
def consts (rd : ℚ → ℚ) : Consts :=
  ⟨rd (1 / 10), rd (1 / 100), rd (1 / 10), rd (1 / 100), rd (995 / 1000), rd (1 / 10)⟩

/-- The adaptive values of one pixel: update rate `T`, distance factor `R`, variation factor `v`, the moving averages, and the
unstable flag (lines 129-155). -/
structure Fb where
  T : ℚ
  R : ℚ
  v : ℚ
  dLast : ℚ
  dLT : ℚ
  dST : ℚ
  rawLT : ℚ
  rawST : ℚ
  finLT : ℚ
  finST : ℚ
  unstable : Bool
deriving DecidableEq

/-- Values at initialization, lines 129-155. -/
def Fb.init (lower : ℚ) : Fb := ⟨lower, 1, 10, 0, 0, 0, 0, 0, 0, 0, false⟩

/-- `m*(1-f) + d*f`, lines 255, 259-260, 273-274. -/
def mean (rd : ℚ → ℚ) (f m d : ℚ) : ℚ := rd (rd (m * rd (1 - f)) + rd (d * f))

/-- The raw segmentation average, lines 261-262 (foreground) and 275-276 (background). -/
def meanRaw (rd : ℚ → ℚ) (f m : ℚ) (fg : Bool) : ℚ := if fg then rd (rd (m * rd (1 - f)) + f) else rd (m * rd (1 - f))

/-- A `float` that may be infinite. -/
inductive Ext | fin (x : ℚ) | pinf | ninf

/-- The clamp of lines 308-311. -/
def clampRate (lower upper : ℚ) : Ext → ℚ
  | .ninf => lower
  | .pinf => upper
  | .fin t => if t < lower then lower else if upper < t then upper else t

/-- The update of the learning rate before the clamp, lines 302-307; `up` is the condition of line 302. -/
def stepRate (rd : ℚ → ℚ) (lower upper : ℚ) (up : Bool) (mx v T : ℚ) : Ext :=
  if up then
    if T < upper then if rd (mx * v) = 0 then .pinf else .fin (rd (T + rd (1 / 2 / rd (mx * v)))) else .fin T
  else if lower < T then if mx = 0 then .ninf else .fin (rd (T - rd (rd (1 / 4 * v) / mx)))
  else .fin T

/-- The update of the variation factor, lines 312-318. -/
def stepVar (rd : ℚ → ℚ) (mx v : ℚ) (blink lastFG unstable : Bool) : ℚ :=
  if (consts rd).ratioMin < mx ∧ blink = true then rd (v + 1)
  else if (consts rd).vDecr < v then
    if rd (v - (if lastFG then rd ((consts rd).vDecr / 4) else if unstable then rd ((consts rd).vDecr / 2) else (consts rd).vDecr)) < (consts rd).vDecr
    then (consts rd).vDecr
    else rd (v - (if lastFG then rd ((consts rd).vDecr / 4) else if unstable then rd ((consts rd).vDecr / 2) else (consts rd).vDecr))
  else v

/-- The update of the distance factor, lines 319-325. `std::pow(float,int)` is computed in `double`, exactly here. -/
def stepDist (rd : ℚ → ℚ) (mn v R : ℚ) : ℚ :=
  if R < (rd (1 + rd (mn * 2))) ^ 2 then rd (R + rd ((consts rd).rVar * rd (v - (consts rd).vDecr)))
  else if rd (R - rd ((consts rd).rVar / v)) < 1 then 1
  else rd (R - rd ((consts rd).rVar / v))

/-- The feedback of one pixel, lines 302-325 and 451-474: `lastFG` and `fg` are the last final and the current raw label, `blink` the blink
map; the averages in `b` are already updated. -/
def feedback (rd : ℚ → ℚ) (lower upper : ℚ) (lastFG fg blink : Bool) (b : Fb) : Fb :=
  { b with
    T := clampRate lower upper (stepRate rd lower upper (lastFG || (decide (min b.dLT b.dST < (consts rd).ratioMin) && fg)) (max b.dLT b.dST) b.v b.T)
    v := stepVar rd (max b.dLT b.dST) b.v blink lastFG b.unstable
    R := stepDist rd (min b.dLT b.dST) (stepVar rd (max b.dLT b.dST) b.v blink lastFG b.unstable) b.R }

/-- The unstable flag, lines 227 and 365. -/
def unstableNow (rd : ℚ → ℚ) (b : Fb) : Bool :=
  decide (3 < b.R ∨ (consts rd).ratioMin < rd (b.rawLT - b.finLT) ∨ (consts rd).ratioMin < rd (b.rawST - b.finST))

/-! ## Thresholds and matching -/

/-- The colour threshold, lines 222 and 355, before the division by two of the single-channel version. -/
def colThr (rd : ℚ → ℚ) (minCol : Nat) (b : Fb) : Except Fail Nat :=
  if rd (rd (b.R * rd minCol) - rd (if b.unstable then 0 else (minCol / 5 : Nat))) ≤ -1 then .error .convert
  else .ok ⌊rd (rd (b.R * rd minCol) - rd (if b.unstable then 0 else (minCol / 5 : Nat)))⌋.toNat

/-- The descriptor threshold, lines 223 and 356. -/
def descThr (rd : ℚ → ℚ) (descOff : Nat) (b : Fb) : Except Fail Nat :=
  if 64 ≤ ⌊rd (b.R + 1 / 2)⌋ then .error .distShift
  else .ok (2 ^ ⌊rd (b.R + 1 / 2)⌋.toNat + descOff + (if b.unstable then descOff else 0))

/-- What depends on the number of channels: `I` is an input image, `V` what is stored for a pixel. -/
structure Kind (I V : Type) where
  /-- colour and descriptor seen at a pixel, for a threshold table -/
  obs : (BitVec 8 → BitVec 8) → I → Nat → Nat → V
  /-- comparison with a sample: descriptor and combined distance when it matches -/
  test : (BitVec 8 → BitVec 8) → I → Nat → Nat → (col desc : Nat) → V → Option (Nat × Nat)
  /-- colour and descriptor distance of what was last seen and is seen now -/
  lastDist : V → V → Nat × Nat
  maxDesc : Nat
  maxSum : Nat
  /-- whether the descriptor counts as non-zero -/
  textured : V → Bool

/-- Mean of the intra- and inter-descriptor distances of one channel, lines 236-239 and 376-379. -/
def descDist (impl : LBSP.Impl) (lut : BitVec 8 → BitVec 8) (img : Gray) (y x : Nat) (v : Lobster.Px) : Nat :=
  ((Bits.hdist 64 (n := 2) (Lobster.obs impl lut img y x).2 v.2).toNat +
    (Bits.hdist 64 (n := 2) (LBSP.threshold impl (Lobster.nb img y x) v.1 (lut v.1)) v.2).toNat) / 2

/-- Colour distance of one channel, lines 232 and 373. -/
def colDist (img : Gray) (y x : Nat) (v : Lobster.Px) : Nat := (Bits.l1distU (img y x) v.1).toNat

/-- Combined distance: `min((nDescDist/d)*(255/16)+nColorDist, 255)`, lines 242 and 380. -/
def sumDist (d desc col : Nat) : Nat := min (desc / d * (255 / 16) + col) 255

/-- Single-channel images: lines 200-331. -/
def kind1 (impl : LBSP.Impl) : Kind Gray Lobster.Px where
  obs := Lobster.obs impl
  test := fun lut img y x col desc v =>
    if colDist img y x v > col / 2 then none
    else if descDist impl lut img y x v > desc then none
    else if sumDist 4 (descDist impl lut img y x v) (colDist img y x v) > col / 2 then none
    else some (descDist impl lut img y x v, sumDist 4 (descDist impl lut img y x v) (colDist img y x v))
  lastDist := fun a b => ((Bits.l1distU a.1 b.1).toNat, (Bits.hdist 8 (n := 2) a.2 b.2).toNat)
  maxDesc := 16
  maxSum := 255
  textured := fun v => decide (2 ≤ (Bits.popcount 8 (n := 2) v.2).toNat)

/-- The channel loop of the three-channel matching, lines 372-385, over the remaining channels: sums of the descriptor and
combined distances. -/
def chans (sc : Nat) (d : Fin 3 → Nat × Nat) : List (Fin 3) → Nat × Nat → Option (Nat × Nat)
  | [], acc => some acc
  | ch :: l, acc =>
    if (d ch).2 > sc then none
    else if sumDist 2 (d ch).1 (d ch).2 > sc then none
    else chans sc d l (acc.1 + (d ch).1, acc.2 + sumDist 2 (d ch).1 (d ch).2)

/-- Three-channel images: lines 332-482. `lv::L1dist<3>` on `uchar` arrays accumulates in a `uchar` (`math.hpp:226-233`). -/
def kind3 (impl : LBSP.Impl) : Kind (Fin 3 → Gray) (Fin 3 → Lobster.Px) where
  obs := fun lut img y x ch => Lobster.obs impl lut (img ch) y x
  test := fun lut img y x col desc v =>
    match chans (col * 3 / 2) (fun ch => (descDist impl lut (img ch) y x (v ch), colDist (img ch) y x (v ch))) [0, 1, 2] (0, 0) with
    | none => none
    | some t => if t.1 > desc * 3 ∨ t.2 > col * 3 then none else some t
  lastDist := fun a b =>
    ((Bits.l1distArr 8 [(a 0).1, (a 1).1, (a 2).1] [(b 0).1, (b 1).1, (b 2).1]).toNat,
     (Bits.hdistArr 8 (n := 2) [(a 0).2, (a 1).2, (a 2).2] [(b 0).2, (b 1).2, (b 2).2]).toNat)
  maxDesc := 48
  maxSum := 765
  textured := fun v => decide (4 ≤ (Bits.popcountArr 8 (n := 2) [(v 0).2, (v 1).2, (v 2).2]).toNat)

/-- The matching loop, lines 228-253 and 366-395: `rem` samples are left, the next one is `idx`; the count and the smallest
distances so far. -/
def matchLoop (t : Nat → Option (Nat × Nat)) (req : Nat) : (rem idx cnt md ms : Nat) → Nat × Nat × Nat
  | 0, _, cnt, md, ms => (cnt, md, ms)
  | rem + 1, idx, cnt, md, ms =>
    if cnt < req then
      match t idx with
      | none => matchLoop t req rem (idx + 1) cnt md ms
      | some d => matchLoop t req rem (idx + 1) (cnt + 1) (if md > d.1 then d.1 else md) (if ms > d.2 then d.2 else ms)
    else (cnt, md, ms)

/-- `((float)a/maxA + (float)b/maxB)/2`, lines 254, 258, 272. -/
def norm2 (rd : ℚ → ℚ) (a maxA b maxB : Nat) : ℚ := rd (rd (rd (a / maxA) + rd (b / maxB)) / 2)

/-! ## One frame -/

/-- Parameters: sizes and sample counts (`Consensus.Cfg`), `m_nMinColorDistThreshold`, `m_nDescDistThresholdOffset`,
`m_nSamplesForMovingAvgs`, `m_bUse3x3Spread`, `m_bLearningRateScalingEnabled`, the number of samples replaced by
`refreshModel(0.1f)`, and the bounds of the LBSP threshold table (lines 558 and 563). -/
structure Par where
  c : Cfg
  minCol : Nat
  descOff : Nat
  N : Nat
  use3 : Bool
  scaling : Bool
  tenth : Nat
  lutLo : BitVec 8 → BitVec 8
  lutHi : BitVec 8

/-- State between calls. -/
structure St (V : Type) where
  model : Model V
  k : Nat
  last : Nat → Nat → V
  fg : Gray
  fb : Nat → Nat → Fb
  blinks : Gray
  lastRaw : Gray
  lastBlink : Gray
  dilInv : Gray
  lut : BitVec 8 → BitVec 8
  lastRatio : ℚ
  frameIdx : Nat
  lower : ℚ
  upper : ℚ
  cooldown : Nat
  sinceReset : Nat
  autoReset : Bool
  dsLT : List (List ℚ)
  dsST : List (List ℚ)

/-- State of the pixel loop. -/
structure Loop (V : Type) where
  model : Model V
  k : Nat
  mask : Gray
  fb : Nat → Nat → Fb
  last : Nat → Nat → V
  nz : Nat

/-- One input: the image, its downscaled version (pixels, each a list of channel values) and the overridden learning rate
(`some n`: `SIZE_MAX` for an infinite override, the rounded-up override if it is positive; `none`: not overridden), line 277. -/
structure Input (I : Type) where
  img : I
  down : List (List ℚ)
  over : Option Nat

/-- Set one pixel of a map. -/
def setPx {A : Type} (f : Nat → Nat → A) (y x : Nat) (a : A) : Nat → Nat → A := fun y' x' => if y' = y ∧ x' = x then a else f y' x'

/-- Foreground: update of the samples during the cooldown, lines 264-268 and 406-412. -/
def fgUpdate {V : Type} (P : Par) (rnd : Nat → Nat) (cooldown : Nat) (m : Model V) (k y x : Nat) (v : V) : Except Fail (Model V × Nat) :=
  if cooldown ≠ 0 then
    if rnd k % 2 = 0 then
      match m.write P.c (rnd (k + 1) % P.c.n) y x v with
      | none => .error .access
      | some m => .ok (m, k + 2)
    else .ok (m, k + 1)
  else .ok (m, k)

/-- Background: random replacement of a sample of the pixel, lines 278-282 and 422-428. -/
def ownUpdate {V : Type} (P : Par) (rnd : Nat → Nat) (L : Nat) (m : Model V) (k y x : Nat) (v : V) : Except Fail (Model V × Nat) :=
  if L = 0 then .error .rate
  else if rnd k % L = 0 then
    match m.write P.c (rnd (k + 1) % P.c.n) y x v with
    | none => .error .access
    | some m => .ok (m, k + 2)
  else .ok (m, k + 1)

/-- Background: random replacement of a sample of a neighbour, lines 283-300 and 429-449. `fb` gives the averages at the
neighbour (ghost detection); `use3` is `bCurrUsing3x3Spread`; `cap` is `(size_t)m_fCurrLearningRateLowerCap`. -/
def spreadUpdate {V : Type} (rd : ℚ → ℚ) (P : Par) (rnd : Nat → Nat) (fb : Nat → Nat → Fb) (use3 : Bool) (L cap : Nat) (m : Model V)
    (k y x : Nat) (v : V) : Except Fail (Model V × Nat) :=
  match (if use3 then Sampling.neighborPosition3 (rnd k) (x, y) P.c.b P.c.w P.c.h
      else Sampling.neighborPosition5 (rnd k) (x, y) P.c.b P.c.w P.c.h) with
  | none => .error .access
  | some q =>
    match inImage P.c q with
    | none => .error .access
    | some (y', x') =>
      if (if use3 then L else L / 2 + 1) = 0 ∨ cap = 0 then .error .rate
      else if rnd (k + 1) % (if use3 then L else L / 2 + 1) = 0 ∨
          ((consts rd).ghostS < (fb y' x').rawST ∧ (fb y' x').dLast < (consts rd).ghostD ∧ rnd (k + 1) % cap = 0) then
        match m.write P.c (rnd (k + 2) % P.c.n) y' x' v with
        | none => .error .access
        | some m => .ok (m, k + 3)
      else .ok (m, k + 2)

/-- The learning rate used at a pixel, line 277: the override or the pixel's rate rounded up. -/
def learnRate (over : Option Nat) (T : ℚ) : Nat := match over with | some n => n | none => ⌈T⌉.toNat

/-- Normalized distance to the closest matching samples, lines 258/400 (foreground) and 272/416 (background); `cnt` samples
matched. -/
def minDist (rd : ℚ → ℚ) (req cnt md ms maxDesc maxSum : Nat) : ℚ :=
  if cnt < req then min 1 (rd (norm2 rd ms maxSum md maxDesc + rd ((req - cnt : Nat) / req)))
  else norm2 rd ms maxSum md maxDesc

/-- The averages of one pixel after a frame and its unstable flag: lines 227, 254-262 and 272-276 (365, 396-404, 416-420). -/
def averages (rd : ℚ → ℚ) (fLT fST dl d : ℚ) (fg : Bool) (b : Fb) : Fb :=
  { b with unstable := unstableNow rd b, dLast := mean rd fST b.dLast dl, dLT := mean rd fLT b.dLT d, dST := mean rd fST b.dST d, rawLT := meanRaw rd fLT b.rawLT fg, rawST := meanRaw rd fST b.rawST fg }

/-- The matching result at a pixel: number of matching samples (at most the required number) and smallest distances. -/
def matching {I V : Type} (K : Kind I V) (P : Par) (lut : BitVec 8 → BitVec 8) (img : I) (m : Model V) (y x col desc : Nat) : Nat × Nat × Nat :=
  matchLoop (fun s => K.test lut img y x col desc (m s y x)) P.c.req P.c.n 0 0 K.maxDesc K.maxSum

/-- End of the loop body: feedback, last colour and descriptor, count of textured pixels (lines 302-329 and 451-480), with the
label of line 263. -/
def finish {I V : Type} (rd : ℚ → ℚ) (K : Kind I V) (st : St V) (l : Loop V) (y x : Nat) (fg : Bool) (b1 : Fb) (cur : V) (u : Model V × Nat) :
    Loop V :=
  ⟨u.1, u.2, if fg then setPx l.mask y x 255 else l.mask,
    setPx l.fb y x (feedback rd st.lower st.upper (decide (st.fg y x ≠ 0)) fg (decide (st.blinks y x ≠ 0)) b1),
    setPx l.last y x cur, if K.textured cur then l.nz + 1 else l.nz⟩

/-- One pixel with its thresholds, lines 201-330 and 333-481: matching, averages, model updates, feedback, last frame. `fLT`
and `fST` are the moving-average factors. -/
def stepThr {I V : Type} (rd : ℚ → ℚ) (K : Kind I V) (P : Par) (rnd : Nat → Nat) (st : St V) (inp : Input I) (fLT fST : ℚ) (l : Loop V)
    (y x col desc : Nat) : Except Fail (Loop V) :=
  let b := l.fb y x
  let cur := K.obs st.lut inp.img y x
  let r := matching K P st.lut inp.img l.model y x col desc
  let dl := K.lastDist (l.last y x) cur
  let fg := decide (r.1 < P.c.req)
  let b1 := averages rd fLT fST (norm2 rd dl.1 K.maxSum dl.2 K.maxDesc) (minDist rd P.c.req r.1 r.2.1 r.2.2 K.maxDesc K.maxSum) fg b
  if fg then
    match fgUpdate P rnd st.cooldown l.model l.k y x cur with
    | .error e => .error e
    | .ok u => .ok (finish rd K st l y x fg b1 cur u)
  else
    match ownUpdate P rnd (learnRate inp.over b.T) l.model l.k y x cur with
    | .error e => .error e
    | .ok o =>
      match spreadUpdate rd P rnd (setPx l.fb y x b1) (P.use3 && !b1.unstable) (learnRate inp.over b.T) ⌊st.lower⌋.toNat o.1 o.2 y x cur with
      | .error e => .error e
      | .ok u => .ok (finish rd K st l y x fg b1 cur u)

/-- One pixel: the thresholds come from the distance factor and the previous unstable flag. -/
def step {I V : Type} (rd : ℚ → ℚ) (K : Kind I V) (P : Par) (rnd : Nat → Nat) (st : St V) (inp : Input I) (fLT fST : ℚ) (l : Loop V)
    (p : Nat × Nat) : Except Fail (Loop V) :=
  match colThr rd P.minCol (l.fb p.1 p.2), descThr rd P.descOff (l.fb p.1 p.2) with
  | .ok col, .ok desc => stepThr rd K P rnd st inp fLT fST l p.1 p.2 col desc
  | .error e, _ => .error e
  | _, .error e => .error e

/-- `1.0f/std::min(...)`, lines 198-199. -/
def factor (rd : ℚ → ℚ) (n : Nat) : Except Fail ℚ := if n = 0 then .error .avg else .ok (rd (1 / n))

/-- The pixel loop of `apply`. -/
def pixels {I V : Type} (rd : ℚ → ℚ) (K : Kind I V) (P : Par) (rnd : Nat → Nat) (px : List (Nat × Nat)) (st : St V) (inp : Input I)
    (fLT fST : ℚ) : Except Fail (Loop V) :=
  px.foldlM (step rd K P rnd st inp fLT fST) ⟨st.model, st.k, fun _ _ => 0, st.fb, st.last, 0⟩

/-- Bitwise complement of a mask. -/
def inv (g : Gray) : Gray := fun y x => ~~~ g y x

/-- The blink map, lines 536-539 and 548-551: raw label changes of this and the previous frame, away from the dilated final
masks of the previous and of this frame. -/
def blinkMap (st_lastRaw st_lastBlink st_dilInv raw dil : Gray) : Gray := fun y x =>
  ((raw y x ^^^ st_lastRaw y x) ||| st_lastBlink y x) &&& st_dilInv y x &&& inv dil y x

/-- The final segmentation averages (`cv::addWeighted`, lines 553-554, over the whole image), rounded once. -/
def finalMean (rd : ℚ → ℚ) (f m : ℚ) (g : BitVec 8) : ℚ := rd (m * rd (1 - f) + (g.toNat / 255 : ℚ) * f)

/-- The threshold table adaptation, lines 555-566. -/
def adaptLut (rd : ℚ → ℚ) (P : Par) (ratio lastRatio : ℚ) (lut : BitVec 8 → BitVec 8) : BitVec 8 → BitVec 8 := fun t =>
  if ratio < (consts rd).descLow ∧ lastRatio < (consts rd).descLow then if lut t > P.lutLo t then lut t - 1 else lut t
  else if 1 / 2 < ratio ∧ 1 / 2 < lastRatio then if lut t < P.lutHi then lut t + 1 else lut t
  else lut t

/-- Accumulation of the downscaled frames (`cv::accumulateWeighted`, lines 569-570); missing old values are 0 (lines 142-145). -/
def accum (rd : ℚ → ℚ) (f : ℚ) (old new : List (List ℚ)) : List (List ℚ) :=
  new.mapIdx fun i p => p.mapIdx fun c v => rd (rd (v * f) + rd (((old.getD i []).getD c 0) * rd (1 - f)))

/-- Colour difference of one downscaled pixel, lines 576-581: half of it for one channel, the largest for three. -/
def diffPx (rd : ℚ → ℚ) (a b : List ℚ) : Nat :=
  match a, b with
  | [x], [y] => ⌊|rd (x - y)|⌋.toNat / 2
  | [x0, x1, x2], [y0, y1, y2] => max ⌊|rd (x0 - y0)|⌋.toNat (max ⌊|rd (x1 - y1)|⌋.toNat ⌊|rd (x2 - y2)|⌋.toNat)
  | _, _ => 0

/-- The frame-level colour difference ratio, lines 571-584. -/
def diffRatio (rd : ℚ → ℚ) (st lt : List (List ℚ)) : ℚ :=
  rd (rd ((List.zipWith (diffPx rd) st lt).sum : Nat) / rd (st.length : Nat))

/-- The learning-rate caps, lines 601-608. -/
def caps (P : Par) (ratio : ℚ) : Except Fail (ℚ × ℚ) :=
  if ((P.minCol / 2 / 2 : Nat) : ℚ) ≤ ratio then
    if 32 ≤ ⌊ratio / 2⌋ then .error .capShift
    else .ok ((max (2 / 2 ^ ⌊ratio / 2⌋.toNat) 1 : Nat), (max (256 / 2 ^ ⌊ratio / 2⌋.toNat) 1 : Nat))
  else .ok (2, 256)

/-- What the frame-level analysis of lines 585-600 does to the model. -/
inductive Act | nothing | reset
deriving DecidableEq

/-- The automatic reset logic, lines 585-600: new `m_bAutoModelResetEnabled`, `m_nFramesSinceLastReset`, and whether the model
is refreshed. -/
def resetLogic (P : Par) (auto : Bool) (since cooldown : Nat) (ratio : ℚ) : Bool × Nat × Act :=
  if auto then
    if since > 1000 then (false, since, .nothing)
    else if ((P.minCol / 2 : Nat) : ℚ) ≤ ratio ∧ cooldown = 0 then (true, 0, .reset)
    else (true, since + 1, .nothing)
  else if ((P.minCol / 2 * 2 : Nat) : ℚ) ≤ ratio then (true, 0, .nothing)
  else (false, since, .nothing)

/-- The frame-level component, lines 567-611, on the state left by the rest of `apply`. -/
def frameLevel {V : Type} (rd : ℚ → ℚ) (P : Par) (rnd : Nat → Nat) (px : List (Nat × Nat)) (down : List (List ℚ)) (fLT fST : ℚ)
    (st : St V) : Except Fail (St V) :=
  if P.scaling then
    if down = [] then .error .avg
    else
      let lt := accum rd fLT st.dsLT down
      let sh := accum rd fST st.dsST down
      let ratio := diffRatio rd sh lt
      let act := resetLogic P st.autoReset st.sinceReset st.cooldown ratio
      match caps P ratio with
      | .error e => .error e
      | .ok cap =>
        match act.2.2 with
        | .nothing =>
          .ok { st with dsLT := lt, dsST := sh, autoReset := act.1, sinceReset := act.2.1, lower := cap.1, upper := cap.2, cooldown := st.cooldown - 1 }
        | .reset =>
          match refreshModel P.c rnd st.last st.fg px (some P.tenth) false st.model st.k with
          | none => .error .access
          | some r =>
            .ok { st with dsLT := lt, dsST := sh, autoReset := act.1, sinceReset := act.2.1, lower := cap.1, upper := cap.2, model := r.1, k := r.2, cooldown := P.N / 4 - 1, fb := fun y x => { st.fb y x with T := 1 } }
  else .ok st

/-- The state after the pixel loop and the post-processing, lines 536-566; `fgm` is the final mask. -/
def afterLoop {V : Type} (rd : ℚ → ℚ) (P : Par) (total : Nat) (fLT fST : ℚ) (st : St V) (l : Loop V) (fgm : Gray) : St V :=
  { st with
    model := l.model
    k := l.k
    last := l.last
    fg := fgm
    fb := fun y x => { l.fb y x with finLT := finalMean rd fLT (l.fb y x).finLT (fgm y x), finST := finalMean rd fST (l.fb y x).finST (fgm y x) }
    blinks := blinkMap st.lastRaw st.lastBlink st.dilInv l.mask (dilate P.c.h P.c.w 3 fgm)
    lastRaw := l.mask
    lastBlink := fun y x => l.mask y x ^^^ st.lastRaw y x
    dilInv := inv (dilate P.c.h P.c.w 3 fgm)
    lut := adaptLut rd P (rd (rd l.nz / rd total)) st.lastRatio st.lut
    lastRatio := rd (rd l.nz / rd total)
    frameIdx := st.frameIdx + 1 }

/-- `apply`, lines 188-612. `post` gives the final mask from the raw one; `px` lists the relevant pixels. The result is the
state, in which `fg` is the returned mask and `lastRaw` the mask before post-processing. -/
def apply {I V : Type} (rd : ℚ → ℚ) (K : Kind I V) (P : Par) (rnd : Nat → Nat) (px : List (Nat × Nat)) (post : Gray → Gray)
    (st : St V) (inp : Input I) : Except Fail (St V) :=
  match factor rd (min (st.frameIdx + 1) P.N), factor rd (min (st.frameIdx + 1) (P.N / 4)) with
  | .ok fLT, .ok fST =>
    match pixels rd K P rnd px st inp fLT fST with
    | .error e => .error e
    | .ok l => frameLevel rd P rnd px inp.down fLT fST (afterLoop rd P px.length fLT fST st l (post l.mask))
  | .error e, _ => .error e
  | _, .error e => .error e

/-! ## Initialization and histories -/

/-- Calls after initialization. -/
inductive Op (I : Type)
  | frame (i : Input I)
  | refresh (frac : Option Nat) (force : Bool)
  | autoReset (enable : Bool)

/-- One call: `apply`, `refreshModel` (lines 80-105), `setAutomaticModelReset` (`BackgroundSubtractionUtils.cpp:24-26`). -/
def run1 {I V : Type} (rd : ℚ → ℚ) (K : Kind I V) (P : Par) (rnd : Nat → Nat) (px : List (Nat × Nat)) (post : Gray → Gray) (st : St V) :
    Op I → Except Fail (St V)
  | .frame i => apply rd K P rnd px post st i
  | .refresh frac force =>
    match refreshModel P.c rnd st.last st.fg px frac force st.model st.k with
    | none => .error .access
    | some r => .ok { st with model := r.1, k := r.2 }
  | .autoReset enable => .ok { st with autoReset := enable }

/-- `initialize`, lines 107-186, after `initialize_common` gave the pixel list, the last colours with their descriptors and the
threshold table. -/
def start {V : Type} (P : Par) (rnd : Nat → Nat) (px : List (Nat × Nat)) (zero : V) (last : Nat → Nat → V) (lut : BitVec 8 → BitVec 8) :
    Except Fail (St V) :=
  match refreshModel P.c rnd last (fun _ _ => 0) px none false (fun _ _ _ => zero) 0 with
  | none => .error .access
  | some r => .ok {
      model := r.1, k := r.2, last := last, fg := fun _ _ => 0
      fb := fun _ _ => Fb.init (if P.scaling then 2 else 4)
      blinks := fun _ _ => 0, lastRaw := fun _ _ => 0, lastBlink := fun _ _ => 0, dilInv := fun _ _ => 0
      lut := lut, lastRatio := 0, frameIdx := 0
      lower := if P.scaling then 2 else 4, upper := if P.scaling then 256 else 512
      cooldown := 0, sinceReset := 0, autoReset := P.scaling, dsLT := [], dsST := [] }

/-- A history. -/
def session {I V : Type} (rd : ℚ → ℚ) (K : Kind I V) (P : Par) (rnd : Nat → Nat) (px : List (Nat × Nat)) (post : Gray → Gray) (zero : V)
    (last : Nat → Nat → V) (lut : BitVec 8 → BitVec 8) (ops : List (Op I)) : Except Fail (St V) :=
  match start P rnd px zero last lut with
  | .error e => .error e
  | .ok st => ops.foldlM (run1 rd K P rnd px post) st

/-- What `initialize_common` leaves in `m_oLastColorFrame` and `m_oLastDescFrame` for a single-channel image
(`BackgroundSubtractionUtils.cpp:117-131`, `BackgroundSubtractorLBSP.cpp:24-38`): the colour inside the retained ROI and 0
elsewhere; the descriptor of the initialization image only strictly inside the border (`>`), 0 elsewhere. -/
def lastInit (impl : LBSP.Impl) (lut : BitVec 8 → BitVec 8) (rows cols : Nat) (roi img : Gray) : Nat → Nat → Lobster.Px := fun y x =>
  (if roi y x ≠ 0 then img y x else 0,
   if roi y x ≠ 0 ∧ x > 2 ∧ y > 2 ∧ x + 2 < cols ∧ y + 2 < rows then (Lobster.obs impl lut img y x).2 else 0)

end Litiv.SubSense
