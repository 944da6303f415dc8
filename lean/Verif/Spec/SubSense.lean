import Verif.Model.SubSense
import Verif.Spec.Consensus

/-!
# Specification vocabulary for SuBSENSE
-/

namespace Litiv.SubSense.Spec
open Consensus.Spec

/-- The adaptive values of a pixel are in their ranges; `vmin` is the smallest variation factor (0.1 as a `float`). -/
structure InRange (vmin : ℚ) (b : Fb) : Prop where
  rate : 1 ≤ b.T ∧ b.T ≤ 512
  dist : 1 ≤ b.R
  var : vmin ≤ b.v
  averages : ∀ a ∈ [b.dLast, b.dLT, b.dST, b.rawLT, b.rawST, b.finLT, b.finST], 0 ≤ a ∧ a ≤ 1

/-- The frames of a history. -/
def frames {I : Type} (ops : List (Op I)) : List (Input I) :=
  ops.filterMap fun o => match o with | .frame i => some i | _ => none

/-- What a call needs: a positive rate when the rate is overridden, and a non-empty downscaled image when the frame-level
analysis is on (images of at least 8x8 pixels). -/
def Callable {I : Type} (P : Par) (i : Input I) : Prop := (∀ n, i.over = some n → 0 < n) ∧ (P.scaling = true → i.down ≠ [])

/-- Geometry and parameters: the image is larger than the borders, there are samples, the relevant pixels are distinct and inside
the borders, and the averages are over at least four frames. -/
structure Setup (P : Par) (px : List (Nat × Nat)) : Prop where
  rows : 2 * P.c.b < P.c.h
  cols : 2 * P.c.b < P.c.w
  samples : 0 < P.c.n
  avg : 4 ≤ P.N
  inner : ∀ p ∈ px, Inner P.c.b P.c.h P.c.w p
  nodup : px.Nodup

/-- A threshold table between the initial table and the bounds of the adaptation. -/
def TableOk (P : Par) (lut0 lut : BitVec 8 → BitVec 8) : Prop :=
  ∀ t, min (lut0 t).toNat (P.lutLo t).toNat ≤ (lut t).toNat ∧ (lut t).toNat ≤ max (lut0 t).toNat P.lutHi.toNat

/-- The value was shown at position `q`: initially (`last0`) or by a frame, with its descriptor computed with a table in range. -/
def Shown {I V : Type} (K : Kind I V) (P : Par) (lut0 : BitVec 8 → BitVec 8) (last0 : Nat → Nat → V) (fs : List (Input I)) (q : Nat × Nat)
    (v : V) : Prop :=
  v = last0 q.1 q.2 ∨ ∃ i ∈ fs, ∃ lut, TableOk P lut0 lut ∧ v = K.obs lut i.img q.1 q.2

end Litiv.SubSense.Spec
