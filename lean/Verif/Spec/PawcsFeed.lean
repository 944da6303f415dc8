import Verif.Model.PawcsFeed

/-!
# Specification vocabulary for the adaptation of PAWCS
-/

namespace Litiv.PawcsFeed.Spec

/-- The adaptive values of a pixel are in their ranges; `vmin` is the smallest variation factor (0.1 as a `float`). -/
structure InRange (vmin : ℚ) (b : Fb) : Prop where
  rate : 1 ≤ b.T ∧ b.T ≤ 256
  dist : 1 ≤ b.R
  var : vmin ≤ b.v
  averages : ∀ a ∈ [b.dLT, b.dST, b.rawLT, b.rawST, b.finLT, b.finST], 0 ≤ a ∧ a ≤ 1

/-- An observation as the word dictionaries give it: the smallest distances do not exceed the largest possible ones, and the sum of
the weights is not negative, and the needed weight is a `float`. -/
structure Sane (rd : ℚ → ℚ) (P : Par) (o : Obs) : Prop where
  col : o.col ≤ P.maxCol
  desc : o.desc ≤ P.maxDesc
  sum : 0 ≤ o.sum
  thr : rd o.thr = o.thr

/-- The resets of a log: the frames in which the model was reset. -/
def resets (log : List (Nat × Call)) : List Nat := (log.filter fun e => e.2.reset).map Prod.fst

/-- Number of frames in a history. -/
def frameCount (evs : List Ev) : Nat := evs.countP fun e => match e with | .frame _ => true | .setAuto _ => false

/-- No call in a history switches automatic resets off. -/
def NeverOff (evs : List Ev) : Prop := Ev.setAuto false ∉ evs

end Litiv.PawcsFeed.Spec
