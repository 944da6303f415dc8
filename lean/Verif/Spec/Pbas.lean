import Mathlib.Data.Rat.Defs
import Mathlib.Algebra.Order.Ring.Rat
import Verif.Spec.Consensus

/-!
# Specification vocabulary for the adaptive background subtractor PBAS
-/

namespace Litiv.Pbas.Spec
open Consensus.Spec

/-- The search among `n` samples at distances `d 0, d 1, …` examines the first `j` of them: it stops as soon as `req` of them
are within `thr`, or at the end. The smallest of the distances within `thr` that it meets is `md` (255 if it meets none). -/
structure Searched (n req : Nat) (d : Nat → ℚ) (thr : ℚ) (j : Nat) (md : ℚ) : Prop where
  le : j ≤ n
  before : ∀ i < j, count i (fun s => decide (d s ≤ thr)) < req
  stop : j = n ∨ count j (fun s => decide (d s ≤ thr)) = req
  lower : ∀ s < j, d s ≤ thr → md ≤ d s
  attained : md = 255 ∨ ∃ s < j, d s ≤ thr ∧ md = d s

/-- Gradient distances `g s` of the samples that the search examined and rejected, in order. -/
def rejected (d g : Nat → ℚ) (thr : ℚ) (j : Nat) : List ℚ := ((List.range j).filter fun s => !decide (d s ≤ thr)).map g

end Litiv.Pbas.Spec
