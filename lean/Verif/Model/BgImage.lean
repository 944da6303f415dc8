import Verif.Model.IEEE
import Verif.Model.Consensus

/-!
# Background images of the sample-based background subtractors

Models `getBackgroundImage` of `modules/video/src/BackgroundSubtractorViBe.cpp:33-49`, `BackgroundSubtractorPBAS.cpp:38-54`,
`BackgroundSubtractorLOBSTER.cpp:583-600` and `BackgroundSubtractorSuBSENSE.cpp:614-631`, and `getBackgroundDescriptorsImage` of
the last two (lines 602-622 and 633-651): the average of the samples of each pixel, accumulated in a `float` image. `float`
operations are rounded by `rd`. An access outside an image is `none`. The images are flat arrays; the size of an element
(`1` byte, or `2` for descriptors) is divided out of the addresses, see `cellAddr`.
-/

namespace Litiv.BgImage

/-- A sample image: number of elements and content. -/
structure Samples where
  size : Nat
  at_ : Nat → Nat

/-- Element offset of channel `c` of pixel `(y, x)`: `step.p[0]*y + step.p[1]*x` with an element offset `c`
(`BackgroundSubtractorLOBSTER.cpp:590-594`; lines 609-613 with all offsets in bytes doubled). `idx*4` (or `idx*2`) as a byte offset in
the `float` image is the same element offset. -/
def cellAddr (step ch y x c : Nat) : Nat := step * y + ch * x + c

/-- One addition, `oAvgBgImgPtr[c] += ((float)oBGImgPtr[c])/m_nBGSamples` (`BackgroundSubtractorLOBSTER.cpp:595`). `none`: outside the sample or
the `float` image, which has `total` elements. -/
def addCell (rd : ℚ → ℚ) (n total : Nat) (smp : Samples) (a : Nat) (acc : Nat → ℚ) : Option (Nat → ℚ) :=
  if a < smp.size ∧ a < total then some (fun b => if b = a then rd (acc a + rd ((smp.at_ a : ℚ) / n)) else acc b)
  else none

/-- The loops over rows, columns and channels for one sample image (`BackgroundSubtractorLOBSTER.cpp:588-597`). -/
def addSample (rd : ℚ → ℚ) (n total h w ch step : Nat) (smp : Samples) (acc : Nat → ℚ) : Option (Nat → ℚ) :=
  (List.range h).foldlM (fun acc y => (List.range w).foldlM (fun acc x =>
    (List.range ch).foldlM (fun acc c => addCell rd n total smp (cellAddr step ch y x c) acc) acc) acc) acc

/-- Round to nearest, ties to even, and clamp: `convertTo` to 8 or 16 bits. -/
def convert (bits : Nat) (q : ℚ) : Nat := (max 0 (min (2 ^ bits - 1) (Lut.roundEven q))).toNat

/-- The whole function: zeros, the loop over the samples, the conversion. -/
def bgImage (rd : ℚ → ℚ) (bits h w ch step : Nat) (smps : List Samples) : Option (Nat → Nat → Nat → Nat) :=
  (smps.foldlM (fun acc s => addSample rd smps.length (h * w * ch) h w ch step s acc) (fun _ => 0)).map
    fun acc y x c => convert bits (acc (cellAddr (w * ch) ch y x c))

/-- The sample images of a model of gray-level samples as ViBe and PBAS keep them: continuous images. -/
def graySamples (c : Consensus.Cfg) (m : Consensus.Model (BitVec 8)) : List Samples :=
  (List.range c.n).map fun s => ⟨c.h * c.w, fun a => (m s (a / c.w) (a % c.w)).toNat⟩

end Litiv.BgImage
