import Verif.Model.BgUtils

/-!
# Model of `BackgroundSubtractorLOBSTER` (non-parallel), `modules/video/src/BackgroundSubtractorLOBSTER.cpp:406-600`

The sample handling is in `Verif/Model/Consensus.lean`; this file adds what is stored (colour and descriptor), the
matching rules, initialization and histories. The descriptor code is that of `Verif/Model/LBSP.lean`; the sixteen
neighbours are read from the image as a function of row and column (that the byte addressing of the library reads
exactly these is C39). The median filter applied to the mask is an arbitrary function. `lut` is
`m_anLBSPThreshold_8bitLUT`.
-/

namespace Litiv.Lobster
open Consensus

/-- Colour and descriptor of one channel of one pixel. -/
abbrev Px := BitVec 8 × BitVec 16

/-- The sixteen neighbours, `LBSP::computeDescriptor_lookup` (`LBSP.hpp:155-168`). -/
def nb (img : Nat → Nat → BitVec 8) (y x : Nat) : Fin 16 → BitVec 8 := fun n =>
  img ((y : Int) + LBSP.offY n).toNat ((x : Int) + LBSP.offX n).toNat

/-- What is stored for one channel: the colour and the descriptor computed with that colour as reference,
`BackgroundSubtractorLOBSTER.cpp:423-432` and `507-508`. -/
def obs (impl : LBSP.Impl) (lut : BitVec 8 → BitVec 8) (img : Nat → Nat → BitVec 8) (y x : Nat) : Px :=
  (img y x, LBSP.threshold impl (nb img y x) (img y x) (lut (img y x)))

/-- Distances of the input at a pixel to a stored sample, `BackgroundSubtractorLOBSTER.cpp:486-490` (and `546-550`): colours
by `L1dist`; descriptors by `hdist`, the input descriptor being computed with the *stored* colour as reference. -/
def dists (impl : LBSP.Impl) (lut : BitVec 8 → BitVec 8) (img : Nat → Nat → BitVec 8) (y x : Nat) (v : Px) : Nat × Nat :=
  ((Bits.l1distU (img y x) v.1).toNat,
   (Bits.hdist 64 (n := 2) (LBSP.threshold impl (nb img y x) v.1 (lut v.1)) v.2).toNat)

/-- A single-channel frame, `BackgroundSubtractorLOBSTER.cpp:472-520`. -/
def frame1 (impl : LBSP.Impl) (lut : BitVec 8 → BitVec 8) (colThr descThr rate : Nat) (img : Nat → Nat → BitVec 8) : Frame Px where
  img := obs impl lut img
  matched := fun y x v =>
    if (dists impl lut img y x v).1 > colThr / 2 then false
    else if (dists impl lut img y x v).2 > descThr then false else true
  rate := fun _ _ => rate
  self := false

/-- The channel loop of the three-channel matching, `BackgroundSubtractorLOBSTER.cpp:545-555`, over the remaining channels;
`none`: a channel failed its own check. The result is the totals. -/
def chans (scCol scDesc : Nat) (d : Fin 3 → Nat × Nat) : List (Fin 3) → Nat × Nat → Option (Nat × Nat)
  | [], acc => some acc
  | ch :: l, acc =>
    if (d ch).1 > scCol then none
    else if (d ch).2 > scDesc then none
    else chans scCol scDesc d l (acc.1 + (d ch).1, acc.2 + (d ch).2)

/-- A three-channel frame, `BackgroundSubtractorLOBSTER.cpp:522-592`. -/
def frame3 (impl : LBSP.Impl) (lut : BitVec 8 → BitVec 8) (colThr descThr rate : Nat) (img : Fin 3 → Nat → Nat → BitVec 8) :
    Frame (Fin 3 → Px) where
  img := fun y x ch => obs impl lut (img ch) y x
  matched := fun y x v =>
    match chans (colThr * 3 / 2) (descThr * 3 / 2) (fun ch => dists impl lut (img ch) y x (v ch)) [0, 1, 2] (0, 0) with
    | none => false
    | some t => decide (t.2 ≤ descThr * 3 ∧ t.1 ≤ colThr * 3)
  rate := fun _ _ => rate
  self := false

/-- The algorithm's state: samples, `rand()` calls, what was last seen at each pixel (`m_oLastColorFrame` with its
descriptors) and the last (filtered) foreground mask. -/
structure St (V : Type) where
  model : Model V
  k : Nat
  last : Nat → Nat → V
  fg : Nat → Nat → BitVec 8

/-- Calls after initialization: `apply`, and `refreshModel` (`none`: full refresh, `some cnt`: `cnt` samples). -/
inductive Op (V : Type)
  | frame (f : Frame V)
  | refresh (frac : Option Nat) (force : Bool)

/-- One call; `px` lists the relevant pixels (`m_vnPxIdxLUT`) and `blur` is the median filter of lines 594-595. -/
def run1 {V : Type} (c : Cfg) (rnd : Nat → Nat) (px : List (Nat × Nat)) (blur : BgUtils.Gray → BgUtils.Gray) (st : St V) :
    Op V → Option (St V)
  | .frame f => (apply c rnd f px st.model st.k).map fun a => ⟨a.model, a.k, f.img, blur a.mask⟩
  | .refresh frac force =>
    (refreshModel c rnd st.last st.fg px frac force st.model st.k).map fun r => { st with model := r.1, k := r.2 }

/-- `BackgroundSubtractorLOBSTER::initialize`, `BackgroundSubtractorLOBSTER.cpp:441-456`, after `initialize_common` gave the
pixel list and the last colour frame: zero samples, then a full forced refresh. -/
def start {V : Type} (c : Cfg) (rnd : Nat → Nat) (px : List (Nat × Nat)) (zero : V) (last : Nat → Nat → V) : Option (St V) :=
  (refreshModel c rnd last (fun _ _ => 0) px none true (fun _ _ _ => zero) 0).map fun r => ⟨r.1, r.2, last, fun _ _ => 0⟩

/-- A history: initialization, then calls in order. -/
def session {V : Type} (c : Cfg) (rnd : Nat → Nat) (px : List (Nat × Nat)) (blur : BgUtils.Gray → BgUtils.Gray) (zero : V)
    (last : Nat → Nat → V) (ops : List (Op V)) : Option (St V) :=
  match start c rnd px zero last with
  | none => none
  | some st => ops.foldlM (run1 c rnd px blur) st

/-- The pixel list and the last colour frame computed by `initialize_common` (`BackgroundSubtractorLBSP.cpp:20-23`), for a
single-channel image: pixels of the retained ROI in index order; the colour frame holds the initialization image inside
that ROI and 0 elsewhere. -/
def initPixels (cols : Nat) (r : BgUtils.Common (BitVec 8)) : List (Nat × Nat) := r.lut.map (BgUtils.coords cols)

/-- The last colour frame as an image. -/
def initLast (cols : Nat) (r : BgUtils.Common (BitVec 8)) : Nat → Nat → BitVec 8 := fun y x => r.last (y * cols + x)

end Litiv.Lobster
