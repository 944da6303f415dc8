import Verif.Model.Sampling
import Verif.Model.Bits
import Verif.Model.LBSP

/-!
# Model of the sample-consensus background subtractors

`modules/video/src/BackgroundSubtractorViBe.cpp`, the sample handling of `BackgroundSubtractorPBAS.cpp` and
`BackgroundSubtractorLOBSTER.cpp:406-545` (the non-parallel implementation).

The three algorithms keep, for each pixel, `n` samples of what was seen there. What is stored for one pixel is a value
of an arbitrary type `V`: a gray level, a colour, a colour with its gradient magnitude (PBAS), or a colour with its LBSP
descriptor (LOBSTER). `rand()` is an arbitrary stream `rnd : Nat → Nat`; the state carries the number of calls made.
Coordinates are exact (no `int` overflow). Accesses outside an image, and a division by a zero learning rate, make the
result `none`.

Not modelled here: `getBackgroundImage` (see `Verif/Model/BgImage.lean`), the median filter applied to the masks of PBAS and
LOBSTER (so the mask here is the one before the filter), and the floating-point feedback of PBAS (see `Pbas`), whose decision
thresholds and learning rates are arbitrary parameters of each frame.
-/

namespace Litiv.Consensus

/-- The parameters fixed at construction and initialization: image size, number of samples, number of required matches
(`BackgroundSubtractorViBe.cpp:22-29`, `BackgroundSubtractorPBAS.cpp:22-33`) and the border kept around the image by
the position helpers (0 for ViBe and PBAS, `LBSP::PATCH_SIZE/2` for LOBSTER). -/
structure Cfg where
  h : Nat
  w : Nat
  n : Nat
  req : Nat
  b : Nat
deriving DecidableEq

/-- The samples: `m s y x` is sample `s` of the pixel of row `y` and column `x` (`m_voBGImg[s].at(y,x)`). -/
abbrev Model (V : Type) := Nat → Nat → Nat → V

/-- Writing sample `s` of pixel `(y, x)`. -/
def Model.put {V : Type} (m : Model V) (s y x : Nat) (v : V) : Model V :=
  fun s' y' x' => if s' = s ∧ y' = y ∧ x' = x then v else m s' y' x'

/-- Writing to `m_voBGImg[s]`, a vector of `n` images: `none` for an index outside it (with `n = 0`, the modulo that gives
the index is itself undefined in the code; here `r % 0 = r` is then outside too). -/
def Model.write {V : Type} (c : Cfg) (m : Model V) (s y x : Nat) (v : V) : Option (Model V) :=
  if s < c.n then some (m.put s y x v) else none

/-- Bounds of `cv::Mat::at(y,x)` for a position `(x, y)`: row and column, or `none` outside the image. -/
def inImage (c : Cfg) (p : Int × Int) : Option (Nat × Nat) :=
  if 0 ≤ p.1 ∧ p.1 < c.w ∧ 0 ≤ p.2 ∧ p.2 < c.h then some (p.2.toNat, p.1.toNat) else none

/-- The pixels of a `h × w` image in row-major order, the loops `for(y) for(x)` of `BackgroundSubtractorViBe.cpp:65-66,85-86`. -/
def raster (h w : Nat) : List (Nat × Nat) := (List.range h).flatMap fun y => (List.range w).map fun x => (y, x)

/-! ## ViBe and PBAS: initialization -/

/-- One iteration of the initialization loops, `BackgroundSubtractorViBe.cpp:67-69` (and `130-131`),
`BackgroundSubtractorPBAS.cpp:99-102` (and `318-321`): a random position near the pixel gives the sample. -/
def initStep {V : Type} (c : Cfg) (rnd : Nat → Nat) (img : Nat → Nat → V) (st : Model V × Nat) (i : Nat × Nat × Nat) :
    Option (Model V × Nat) :=
  match inImage c (Sampling.samplePosition7 (rnd st.2) (i.2.2, i.2.1) c.b c.w c.h) with
  | none => none
  | some q => some (st.1.put i.1 i.2.1 i.2.2 (img q.1 q.2), st.2 + 1)

/-- `initialize` of ViBe (`BackgroundSubtractorViBe.cpp:56-74`, `113-136`) and PBAS (`BackgroundSubtractorPBAS.cpp:92-105`,
`311-324`): sample by sample, row by row. `zero` fills the new matrices. The image is non-empty (asserted). -/
def initModel {V : Type} (c : Cfg) (zero : V) (rnd : Nat → Nat) (img : Nat → Nat → V) : Option (Model V × Nat) :=
  if c.h = 0 ∨ c.w = 0 then none
  else ((List.range c.n).flatMap fun s => (raster c.h c.w).map fun p => (s, p)).foldlM (initStep c rnd img) (fun _ _ _ => zero, 0)

/-! ## Processing a frame -/

/-- The matching loop `while(nGoodSamplesCount<m_nRequiredBGSamples && nSampleIdx<m_nBGSamples)`,
`BackgroundSubtractorViBe.cpp:87-92`, `BackgroundSubtractorPBAS.cpp:148-163`, `BackgroundSubtractorLOBSTER.cpp:482-500`:
`rem` samples are left, the next one is `idx`. -/
def goodLoop (good : Nat → Bool) (req : Nat) : (rem idx cnt : Nat) → Nat
  | 0, _, cnt => cnt
  | rem + 1, idx, cnt =>
    if cnt < req then goodLoop good req rem (idx + 1) (if good idx then cnt + 1 else cnt) else cnt

/-- One frame as seen by the pixel loop: what would be stored for each pixel, whether the input at a pixel matches a
stored sample, the learning rate `nLearningRate` at each pixel, and the diffusion rule (`self`: the neighbour receives
its own value, `BGSPBAS_USE_SELF_DIFFUSION`; otherwise the value of the pixel being processed). -/
structure Frame (V : Type) where
  img : Nat → Nat → V
  matched : Nat → Nat → V → Bool
  rate : Nat → Nat → Nat
  self : Bool

/-- State of the pixel loop: samples, foreground mask, number of `rand()` calls so far. -/
structure St (V : Type) where
  model : Model V
  mask : Nat → Nat → BitVec 8
  k : Nat

/-- First update, `BackgroundSubtractorViBe.cpp:96-97`, `BackgroundSubtractorPBAS.cpp:175-179`,
`BackgroundSubtractorLOBSTER.cpp:504-509`: with probability 1/rate a random sample of the pixel is replaced. -/
def updateOwn {V : Type} (c : Cfg) (rnd : Nat → Nat) (f : Frame V) (st : St V) (y x : Nat) : Option (St V) :=
  if rnd st.k % f.rate y x = 0 then
    (st.model.write c (rnd (st.k + 1) % c.n) y x (f.img y x)).map fun m => { st with model := m, k := st.k + 2 }
  else some { st with k := st.k + 1 }

/-- Second update, `BackgroundSubtractorViBe.cpp:98-102`, `BackgroundSubtractorPBAS.cpp:180-191`,
`BackgroundSubtractorLOBSTER.cpp:510-517`: with probability 1/rate a random sample of a random neighbour is replaced. -/
def updateNeighbour {V : Type} (c : Cfg) (rnd : Nat → Nat) (f : Frame V) (st : St V) (y x : Nat) : Option (St V) :=
  if rnd st.k % f.rate y x = 0 then
    match Sampling.neighborPosition3 (rnd (st.k + 1)) (x, y) c.b c.w c.h with
    | none => none
    | some q =>
      match inImage c q with
      | none => none
      | some (y', x') =>
        (st.model.write c (rnd (st.k + 2) % c.n) y' x' (if f.self then f.img y' x' else f.img y x)).map fun m =>
          { st with model := m, k := st.k + 3 }
  else some { st with k := st.k + 1 }

/-- One pixel, `BackgroundSubtractorViBe.cpp:87-103` (and `157-188`), `BackgroundSubtractorPBAS.cpp:148-195` (and
`372-427`), `BackgroundSubtractorLOBSTER.cpp:481-518` (and `537-590`). -/
def step {V : Type} (c : Cfg) (rnd : Nat → Nat) (f : Frame V) (st : St V) (p : Nat × Nat) : Option (St V) :=
  if goodLoop (fun s => f.matched p.1 p.2 (st.model s p.1 p.2)) c.req c.n 0 0 < c.req then
    some { st with mask := fun y x => if y = p.1 ∧ x = p.2 then 255 else st.mask y x }
  else if f.rate p.1 p.2 = 0 then none
  else
    match updateOwn c rnd f st p.1 p.2 with
    | none => none
    | some st1 => updateNeighbour c rnd f st1 p.1 p.2

/-- The pixel loop of `apply` over the listed pixels, from a cleared mask (`BackgroundSubtractorViBe.cpp:83-105`). -/
def apply {V : Type} (c : Cfg) (rnd : Nat → Nat) (f : Frame V) (px : List (Nat × Nat)) (m : Model V) (k : Nat) : Option (St V) :=
  px.foldlM (step c rnd f) ⟨m, fun _ _ => 0, k⟩

/-- A history: initialization with an image, then frames in order, ViBe and PBAS. The result is the samples, the number
of `rand()` calls and the mask of every frame. -/
def session {V : Type} (c : Cfg) (zero : V) (rnd : Nat → Nat) (init : Nat → Nat → V) (fs : List (Frame V)) :
    Option (Model V × Nat × List (Nat → Nat → BitVec 8)) :=
  match initModel c zero rnd init with
  | none => none
  | some (m, k) =>
    fs.foldlM (fun (acc : Model V × Nat × List (Nat → Nat → BitVec 8)) f =>
      (apply c rnd f (raster c.h c.w) acc.1 acc.2.1).map fun st => (st.model, st.k, acc.2.2 ++ [st.mask])) (m, k, [])

/-! ## ViBe: matching -/

/-- A frame of `BackgroundSubtractorViBe_1ch::apply`, `BackgroundSubtractorViBe.cpp:76-106`; `rate` is
`(size_t)ceil(learningRate)`, positive because `learningRate>0` is asserted. -/
def vibe1 (thr rate : Nat) (img : Nat → Nat → BitVec 8) : Frame (BitVec 8) where
  img := img
  matched := fun y x v => decide ((Bits.l1distU (img y x) v).toNat < thr)
  rate := fun _ _ => rate
  self := false

/-- A three-channel value. -/
abbrev Col := BitVec 8 × BitVec 8 × BitVec 8

/-- The channels of a colour. -/
def Col.toList (v : Col) : List (BitVec 8) := [v.1, v.2.1, v.2.2]

/-- The grey value of a single-channel input converted with `COLOR_GRAY2BGR`, `BackgroundSubtractorViBe.cpp:117-121`. -/
def gray (v : BitVec 8) : Col := (v, v, v)

/-- A frame of `BackgroundSubtractorViBe_3ch::apply`, `BackgroundSubtractorViBe.cpp:138-191`, with the default settings
(`BGSVIBE_USE_SC_THRS_VALIDATION` and `BGSVIBE_USE_L1_DISTANCE_CHECK` are 0): `L2dist(in,bg)<m_nColorDistThreshold*3`.
`L2dist` (`math.hpp:384-393`) accumulates the squared differences in 16 bits and takes the square root; the comparison
of the root (at most 256, well within `float` precision) with the integer `3*thr` is the comparison of the squares. -/
def vibe3 (thr rate : Nat) (img : Nat → Nat → Col) : Frame Col where
  img := img
  matched := fun y x v => decide ((Bits.l2sqrdistArr8 16 (img y x).toList v.toList).toNat < (thr * 3) ^ 2)
  rate := fun _ _ => rate
  self := false

/-! ## PBAS -/

/-- A frame of PBAS, `BackgroundSubtractorPBAS.cpp:109-221`: colour with gradient magnitude, arbitrary adaptive decision
and rate (floating-point feedback, modelled in `Pbas`), and the default `BGSPBAS_USE_SELF_DIFFUSION 1`. -/
def pbas {V : Type} (img : Nat → Nat → V) (matched : Nat → Nat → V → Bool) (rate : Nat → Nat → Nat) : Frame V :=
  ⟨img, matched, rate, true⟩

/-- Linear index used by `BackgroundSubtractorPBAS_1ch::apply` into its own model images, `BackgroundSubtractorPBAS.cpp:143`:
the row stride is that of the *input* image; the model images are continuous, with `w*h` bytes. -/
def pbasIndex (step y x : Nat) : Nat := step * y + x

/-! ## LOBSTER -/

/-- A position computed by the 7x7 sampling helper for the pixel `(y, x)`, `BackgroundSubtractorLOBSTER.cpp:418-419`. -/
def samplePx (c : Cfg) (r : Nat) (y x : Nat) : Option (Nat × Nat) :=
  inImage c (Sampling.samplePosition7 r (x, y) c.b c.w c.h)

/-- One iteration of the inner loop of `refreshModel`, `BackgroundSubtractorLOBSTER.cpp:416-434`: sample `idx % n` of pixel
`p` is replaced with what was last seen at a random position (unless that position is foreground). -/
def refreshSample {V : Type} (c : Cfg) (rnd : Nat → Nat) (last : Nat → Nat → V) (fg : Nat → Nat → BitVec 8) (force : Bool)
    (p : Nat × Nat) (st : Model V × Nat) (idx : Nat) : Option (Model V × Nat) :=
  match samplePx c (rnd st.2) p.1 p.2 with
  | none => none
  | some q =>
    if force || fg q.1 q.2 == 0 then
      (st.1.write c (idx % c.n) p.1 p.2 (last q.1 q.2)).map fun m => (m, st.2 + 1)
    else some (st.1, st.2 + 1)

/-- One pixel of `refreshModel`, `BackgroundSubtractorLOBSTER.cpp:413-437`: `cnt` samples from `start`. -/
def refreshPixel {V : Type} (c : Cfg) (rnd : Nat → Nat) (last : Nat → Nat → V) (fg : Nat → Nat → BitVec 8) (force : Bool)
    (start cnt : Nat) (st : Model V × Nat) (p : Nat × Nat) : Option (Model V × Nat) :=
  if force || fg p.1 p.2 == 0 then
    ((List.range cnt).map (start + ·)).foldlM (refreshSample c rnd last fg force p) st
  else some st

/-- `refreshModel`, `BackgroundSubtractorLOBSTER.cpp:406-439`. `frac` is `none` for a full refresh (`1.0f`) and `some cnt`
for `cnt = (size_t)(fSamplesRefreshFrac*m_nBGSamples)` samples (fraction below 1). `last` gives, for every pixel, the
colour in `m_oLastColorFrame` with its descriptor (recomputed from `m_oLastColorFrame` at lines 424-430). -/
def refreshModel {V : Type} (c : Cfg) (rnd : Nat → Nat) (last : Nat → Nat → V) (fg : Nat → Nat → BitVec 8) (px : List (Nat × Nat))
    (frac : Option Nat) (force : Bool) (m : Model V) (k : Nat) : Option (Model V × Nat) :=
  match frac with
  | none => px.foldlM (refreshPixel c rnd last fg force 0 c.n) (m, k)
  | some cnt => px.foldlM (refreshPixel c rnd last fg force (rnd k % c.n) cnt) (m, k + 1)

end Litiv.Consensus
