import Verif.Model.GLEval
import Verif.Spec.Metrics

/-!
# Specification vocabulary for the GPU evaluation (C152, C153)
-/

namespace Litiv.GLEval

open Litiv.Metrics

/-- The pairs (classification, ground truth) which a sequence of operations is meant to compare: each output with the
ground truth given one frame earlier, the first with the initial one. -/
def compared (gt : Mat8) : List Op → List (Mat8 × Mat8)
  | [] => []
  | .frame out g _ :: ops => (out, gt) :: compared g ops
  | .metrics :: ops => compared gt ops

/-- What a caller must respect: every output and ground truth has the size of the region of interest, the ground truths
are present, and the atomic increments of a dispatch all take place, in any order. -/
def Legal (roi : Mat8) : Op → Prop
  | .frame out g order => out.Valid ∧ g.Valid ∧ SameSize out roi ∧ SameSize g roi ∧ ∀ l, (order l).Perm l
  | .metrics => True

/-- The comparison of a sequence of images on the CPU (`BinClassif::accumulate`, image after image). -/
def onCpu (roi : Mat8) (l : List (Mat8 × Mat8)) : Option BinClassif :=
  l.foldlM (fun (s : BinClassif) p => s.accImage p.1 p.2 roi) {}

/-- The least multiple of `g` which is not below `n`. -/
noncomputable def roundUp (g n : Nat) : Nat := sInf { m | n ≤ m ∧ g ∣ m }

/-- The number of invocations of a dispatch which lie outside of the frame. -/
noncomputable def surplus (m : Mat8) : Nat := roundUp 8 m.rows * roundUp 12 m.cols - m.rows * m.cols

/-- The six numbers which a frame should leave in its row of the counter buffer: true positives, true negatives, false
positives, false negatives, shadow errors, and pixels which are not evaluated. -/
noncomputable def rowSpec (roi : Mat8) (p : Mat8 × Mat8) : Nat → Nat
  | 0 => numPx roi.area fun k => Evaluated p.2 roi k ∧ px p.1 k = 255 ∧ px p.2 k = 255
  | 1 => numPx roi.area fun k => Evaluated p.2 roi k ∧ px p.1 k ≠ 255 ∧ px p.2 k ≠ 255
  | 2 => numPx roi.area fun k => Evaluated p.2 roi k ∧ px p.1 k = 255 ∧ px p.2 k ≠ 255
  | 3 => numPx roi.area fun k => Evaluated p.2 roi k ∧ px p.1 k ≠ 255 ∧ px p.2 k = 255
  | 4 => numPx roi.area fun k => Evaluated p.2 roi k ∧ px p.1 k = 255 ∧ px p.2 k = 50
  | _ => numPx roi.area (fun k => ¬ Evaluated p.2 roi k) + surplus roi

end Litiv.GLEval
