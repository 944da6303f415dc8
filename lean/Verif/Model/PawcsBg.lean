import Verif.Model.PawcsFeed
import Verif.Model.BgImage

/-!
# Background image of PAWCS

`getBackgroundImage` and `getBackgroundDescriptorsImage` of `modules/video/src/BackgroundSubtractorPAWCS.cpp:1524-1594`, one channel at a
time: `val` gives the colour (or descriptor) of a feature in the channel. The weighted mean of a pixel is `bgValue` in
`Verif/Model/PawcsFeed.lean`.
-/

namespace Litiv.PawcsFeed

variable {F : Type}

/-- A pixel of the image: zero outside of the region of interest (line 1526 or 1562), otherwise the mean of the words of the pixel, converted to
`bits` bits (line 1557 or 1593). `none`: zero divided by zero. -/
def bgPixel (rd : ℚ → ℚ) (bits : Nat) (c : Consensus.Cfg) (px : List (Nat × Nat)) (t off : Nat) (val : F → Nat) (m : Pawcs.Mdl F) (y x : Nat) : Option Nat :=
  match px.idxOf? (y, x) with
  | none => some 0
  | some p => (bgValue rd t off c.n val fun i => (m.loc.addr (p * c.n + i)).map m.loc.mem).map (BgImage.convert bits)

end Litiv.PawcsFeed
