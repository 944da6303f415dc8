import Mathlib.Algebra.Ring.Defs

/-!
# Vocabulary for term reduction
-/

namespace Litiv.Reducer.Spec

variable {R L : Type} [Ring R]

/-- value of a pseudo-Boolean polynomial, given as monomials, at a 0/1 point: the coefficients
of the monomials whose variables are all 1 -/
def value (terms : List (R × List Nat)) (x : Nat → Bool) : R :=
  (terms.map (fun t => if t.2.all x then t.1 else 0)).sum

/-- the labels of a factor's variables after the variables set in `move` switched to `alpha` -/
def moved (order : Nat) (alpha : L) (cur : Nat → L) (var : Nat → Nat) (move : Nat → Bool) : List L :=
  (List.range order).map (fun i => if move (var i) then alpha else cur i)

end Litiv.Reducer.Spec
