import Verif.Model.GMMSeg

/-!
# Specification of foreground/background training: the pixels of a segment, the contract of `cv::kmeans`
-/

namespace Litiv.GMMSeg.Spec

/-- The pixels of the region of interest that are foreground (`fg = true`) or background (`fg = false`), in order. -/
def segment (mask roi : Nat → Bool) (n : Nat) (fg : Bool) : List Nat := (List.range n).filter fun k => roi k && mask k == fg

/-- Contract of `cv::kmeans`: it throws when there are fewer samples than clusters, and otherwise gives every sample the label of a cluster. -/
structure KmeansOk (km : List (List ℝ) → Nat → Option (Nat → Nat)) : Prop where
  fails : ∀ S K, S.length < K → km S K = none
  labels : ∀ S K, 0 < K → K ≤ S.length → ∃ lab, km S K = some lab ∧ ∀ i, i < S.length → lab i < K

/-- The labelled samples of a segment. -/
def labelled (img : Nat → Nat → ℝ) (P : List Nat) (lab : Nat → Nat) : List (Nat × (Nat → ℝ)) := P.zipIdx.map fun p => (lab p.2, img p.1)

/-- The samples that `learnGaussianMixtureParams` gives to one mixture with `C` components. -/
def valid (C : Nat) (img : Nat → Nat → ℝ) (labels : Nat → Int) (P : List Nat) : List (Nat × (Nat → ℝ)) :=
  (P.filter fun k => 0 ≤ labels k ∧ labels k < C).map fun k => ((labels k).toNat, img k)

end Litiv.GMMSeg.Spec
