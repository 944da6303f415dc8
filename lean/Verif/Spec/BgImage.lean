import Verif.Model.BgImage

/-!
# Specification vocabulary for background images
-/

namespace Litiv.BgImage.Spec

/-- The values of the samples at channel `c` of pixel `(y, x)` in images of width `w` with `ch` channels, as exact numbers. -/
def valuesAt (w ch : Nat) (smps : List Samples) (y x c : Nat) : List ℚ := smps.map fun s => (s.at_ ((y * w + x) * ch + c) : ℚ)

/-- The exact mean of a list. -/
def mean (vs : List ℚ) : ℚ := vs.sum / vs.length

end Litiv.BgImage.Spec
