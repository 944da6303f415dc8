import Mathlib.Algebra.Order.Field.Basic
import Mathlib.Algebra.Order.Group.Unbundled.Abs

/-!
# Model of the sequence-based numeric helpers of modules/utils/include/litiv/utils/math.hpp

Floating point numbers are replaced by the elements of an exact ordered field `K`.
-/

namespace Litiv.MathSeq

/-- Loop of `find_nn_index`, `math.hpp:900-907`: `n` is the next index, `best` the current minimum and its index (`none`
while `nIdx == size_t(-1)`). -/
def findNNLoop {α δ : Type} [LT δ] [DecidableLT δ] (d : α → δ) : List α → Nat → Option (δ × Nat) → Option (δ × Nat)
  | [], _, best => best
  | x :: xs, n, none => findNNLoop d xs (n + 1) (some (d x, n))
  | x :: xs, n, some (m, i) => findNNLoop d xs (n + 1) (if d x < m then some (d x, n) else some (m, i))

/-- `find_nn_index`, `math.hpp:893-909`; `none` stands for the returned `size_t(-1)`. The distance functor is any
function; its result type only needs a `<`. -/
def findNNIndex {α β δ : Type} [LT δ] [DecidableLT δ] (req : β) (refs : List α) (comp : β → α → δ) : Option Nat :=
  (findNNLoop (comp req) refs 0 none).map (·.2)

section Field
variable {K : Type} [Field K] [LinearOrder K]

/-- The slopes computed by `interp1`, `math.hpp:916-929`: one per knot, the last one repeats its predecessor (`prev`, initially
0 for a single knot). -/
def slopes : List (K × K) → K → List K
  | [], _ => []
  | [_], prev => [prev]
  | p :: q :: l, _ => ((q.2 - p.2) / (q.1 - p.1)) :: slopes (q :: l) ((q.2 - p.2) / (q.1 - p.1))

/-- `interp1` for one requested abscissa, `math.hpp:912-945`. The knots are given as pairs `(x, y)` (the two input vectors
cut to their common length; the nearest knot and the domain check are done on the same common part, a simplification when
the vectors have different lengths). `none`: the domain error of line 941. -/
def interp1 (knots : List (K × K)) (x : K) : Option K :=
  match knots.head?, knots.getLast? with
  | some f, some b =>
    if f.1 ≤ x ∧ x ≤ b.1 then
      match findNNIndex x (knots.map (·.1)) (fun a b => |a - b|) with
      | some i =>
        match knots[i]?, (slopes knots 0)[i]? with
        | some p, some s => some (s * x + (p.2 - s * p.1))
        | _, _ => none
      | none => none
    else none
  | _, _ => none

/-- `linspace`, `math.hpp:947-963`, in exact arithmetic. -/
def linspace (a b : K) (n : Nat) (includeInit : Bool) : List K :=
  if n = 0 then []
  else if n = 1 then [b]
  else
    let step := (b - a) / ((n - (if includeInit then 1 else 0) : Nat) : K)
    if includeInit then (List.range n).map fun i : Nat => a + step * (i : K)
    else (List.range n).map fun i : Nat => a + step * ((i + 1 : Nat) : K)

/-- `cumulativeSum` as used by `EMDL1dist`: running sums from `acc` (`cxx.hpp`, `lv::cumulativeSum`). -/
def cumSum (acc : K) : List K → List K
  | [] => []
  | x :: l => (acc + x) :: cumSum (acc + x) l

/-- `EMDL1dist`, `math.hpp:810-822`. The arrays have the same size (asserted at line 818). -/
def emd (a b : List K) : K :=
  (((cumSum 0 a).zip (cumSum 0 b)).map fun p => |p.1 - p.2|).sum

/-- Running sums of the differences, the loop of `std::transform` in `CEMDL1dist`, `math.hpp:831-835` (without the leading 0). -/
def cumDiff (acc : K) : List K → List K → List K
  | x :: a, y :: b => (acc + (x - y)) :: cumDiff (acc + (x - y)) a b
  | _, _ => []

/-- Outcome of `CEMDL1dist`, `math.hpp:824-843`, for a given result `v` of `std::nth_element`: `v` is any reordering of the
running differences in which the element at index `size/2` has the value it has in sorted order. -/
def cemdOf (v : List K) (n : Nat) : Option K :=
  v[n / 2]?.map fun m => (v.map fun d => |d - m|).sum

end Field

end Litiv.MathSeq
