import Mathlib.Data.List.Sort
import Mathlib.Algebra.Ring.Defs

/-!
# Higher-order term reduction

Model of `lv::gm::factorReducer` (modules/utils/include/litiv/utils/opengm.hpp 313-378), in the
clique and the OpenGM variation.  Energies are elements of an arbitrary ring instead of floating
point numbers (no rounding).  `size_t` indices are naturals below 2^64; the masks `1<<nVarIdx`
are of type `int`, which limits the order to 31.
-/

namespace Litiv.Reducer

variable {R L : Type} [Ring R]

/-- the bit test `nAssignIdx&(1<<nVarIdx)` (opengm.hpp 321) -/
def bit (a i : Nat) : Bool := a &&& (1 <<< i) != 0

/-- `aCliqueLabels` for one assignment (opengm.hpp 320-321, 351-352); `cur i` stands for
`aLabeling[oClique.m_anLUTNodeIdxs[i]]`, respectively
`aLabeling[pValidLUTNodeIdxs[oGraphFactor.variableIndex(i)]]` -/
def labels (order : Nat) (alpha : L) (cur : Nat → L) (a : Nat) : List L :=
  (List.range order).map (fun i => if bit a i then alpha else cur i)

/-- `!(nAssignIdx&~nAssignSubsetIdx)` on 64-bit words (opengm.hpp 323, 354) -/
def isSub (a s : Nat) : Bool := a &&& (2 ^ 64 - 1 - s) == 0

/-- `nParityBit` (opengm.hpp 324-326, 355-357) -/
def parity (order a s : Nat) : Bool :=
  (List.range order).foldl (fun p i => p ^^ bit (a ^^^ s) i) false

/-- the inner loop over subsets (opengm.hpp 322-331, 353-361): one assignment is added to the
coefficients -/
def addAssign (order : Nat) (e : R) (a : Nat) (c : Nat → R) : Nat → R :=
  (List.range' 1 (2 ^ order - 1)).foldl (fun c s =>
    if isSub a s then
      fun t => if t = s then c s + (if parity order a s then -e else e) else c t
    else c) c

/-- `aCliqueCoeffs` after both loops (opengm.hpp 319-332, 348-363) -/
def coeffs (order : Nat) (energy : List L → R) (alpha : L) (cur : Nat → L) : Nat → R :=
  (List.range (2 ^ order)).foldl (fun c a => addAssign order (energy (labels order alpha cur a)) a c)
    (fun _ => 0)

/-- the sorted variables of a term (opengm.hpp 334-338, 365-369); `std::sort` is insertion sort,
both give the sorted permutation -/
def termVars (order : Nat) (node : Nat → Nat) (s : Nat) : List Nat :=
  (((List.range order).filter (bit s)).map node).insertionSort (· ≤ ·)

/-- the calls to `ReducerType::AddTerm` in order (opengm.hpp 333-340, 364-371):
coefficient and variables; `node i` is `oClique.m_anGraphNodeIdxs[i]`, respectively
`oGraphFactor.variableIndex(i)` -/
def terms (order : Nat) (energy : List L → R) (alpha : L) (cur : Nat → L) (node : Nat → Nat) :
    List (R × List Nat) :=
  (List.range' 1 (2 ^ order - 1)).map (fun s =>
    (coeffs order energy alpha cur s, termVars order node s))

/-- the clique variation (opengm.hpp 313-343): nothing is added for an unused clique -/
def reduceClique (valid : Bool) (order : Nat) (energy : List L → R) (alpha : L)
    (labeling : Nat → L) (lutIdx node : Nat → Nat) : List (R × List Nat) :=
  if valid then terms order energy alpha (fun i => labeling (lutIdx i)) node else []

/-- the OpenGM variation (opengm.hpp 345-373): buffers hold `maxOrder` variables, an access
beyond is `none` -/
def reduceFactor (maxOrder order : Nat) (energy : List L → R) (alpha : L)
    (labeling : Nat → L) (validLut varIdx : Nat → Nat) : Option (List (R × List Nat)) :=
  if order ≤ maxOrder then
    some (terms order energy alpha (fun i => labeling (validLut (varIdx i))) varIdx)
  else none

end Litiv.Reducer
