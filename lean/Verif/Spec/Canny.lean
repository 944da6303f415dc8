import Verif.Model.Canny

/-!
# What edge confidence maps should be
-/

namespace Litiv.Canny

/-- Pixel `p` is an edge of the image for the threshold `t`: the mask computed for this threshold is set there. -/
def EdgeAt (lib : Lib) (d : Detector) (img : Img) (t : Nat) (p : Nat) : Prop :=
  ∃ m, applyThreshold lib d img (t : ℚ) = some m ∧ m[p]? = some 255

/-- Pixel `p` is an edge for exactly `n` of the thresholds 0 to 254. -/
def Strength (lib : Lib) (d : Detector) (img : Img) (p n : Nat) : Prop :=
  ∃ s : List Nat, s.Nodup ∧ s.length = n ∧ ∀ t, t ∈ s ↔ t < 255 ∧ EdgeAt lib d img t p

end Litiv.Canny
