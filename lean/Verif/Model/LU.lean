import Mathlib.Algebra.Order.Field.Basic
import Mathlib.Algebra.Order.Group.Unbundled.Abs

/-!
# Model of LU / determinant / invert of modules/utils/include/litiv/utils/math.hpp

Floating point values are elements of an exact ordered field `K`. A matrix passed with a row step is a function of row and
column; the flat arrays of `determinant` and `invert` are functions of the flat index.
-/

namespace Litiv.LU

variable {K : Type} [Field K] [LinearOrder K]

/-- State of `LU`: the matrices `A` and `B` (both modified in place) and the permutation sign `p`. -/
structure St (K : Type) where
  /-- the matrix `A` -/
  A : Nat → Nat → K
  /-- the right-hand sides `B` -/
  B : Nat → Nat → K
  /-- the permutation sign `p` -/
  p : Int

/-- Pivot search in column `i`, `math.hpp:1009-1012`. -/
def pivotRow (m : Nat) (A : Nat → Nat → K) (i : Nat) : Nat :=
  (List.range' (i + 1) (m - (i + 1))).foldl (fun k j => if |A k i| < |A j i| then j else k) i

/-- Swap of rows `i` and `k` in the columns `lo ≤ c < hi`, `math.hpp:1016-1020` (the loop of `std::swap`s). -/
def swapRows (lo hi : Nat) (A : Nat → Nat → K) (i k : Nat) : Nat → Nat → K := fun r c =>
  if lo ≤ c ∧ c < hi then (if r = i then A k c else if r = k then A i c else A r c) else A r c

/-- Elimination of column `i` below the pivot in `A`, `math.hpp:1024-1027`; row `i` and column `i` are only read, so the
rows are independent. `d` is `-1/A[i][i]`. -/
def elimA (m : Nat) (A : Nat → Nat → K) (i : Nat) (d : K) : Nat → Nat → K := fun r c =>
  if i < r ∧ r < m ∧ i < c ∧ c < m then A r c + (A r i * d) * A i c else A r c

/-- The same elimination applied to `B`, `math.hpp:1028-1030`. -/
def elimB (m n : Nat) (A B : Nat → Nat → K) (i : Nat) (d : K) : Nat → Nat → K := fun r c =>
  if i < r ∧ r < m ∧ c < n then B r c + (A r i * d) * B i c else B r c

/-- `A[i][i] = v`, `math.hpp:1032`. -/
def setDiag (A : Nat → Nat → K) (i : Nat) (v : K) : Nat → Nat → K := fun r c => if r = i ∧ c = i then v else A r c

/-- One iteration of the outer loop, `math.hpp:1008-1033`; `none`: the matrix is degenerate (return 0). -/
def luStep (eps : K) (m n : Nat) (s : St K) (i : Nat) : Option (St K) :=
  let k := pivotRow m s.A i
  if |s.A k i| < eps then none
  else
    let s1 : St K := if k ≠ i then ⟨swapRows i m s.A i k, swapRows 0 n s.B i k, -s.p⟩ else s
    let d := -1 / s1.A i i
    some ⟨setDiag (elimA m s1.A i d) i (-d), elimB m n s1.A s1.B i d, s1.p⟩

/-- One row of the back substitution, `math.hpp:1036-1042`. -/
def backRow (m n : Nat) (A B : Nat → Nat → K) (i : Nat) : Nat → Nat → K := fun r j =>
  if r = i ∧ j < n then
    ((List.range' (i + 1) (m - (i + 1))).foldl (fun s k => s - A i k * B k j) (B i j)) * A i i
  else B r j

/-- The forward loop of `LU`, `math.hpp:1007-1033`. -/
def luForward (eps : K) (m n : Nat) (A B : Nat → Nat → K) : Option (St K) :=
  (List.range m).foldlM (luStep eps m n) ⟨A, B, 1⟩

/-- `LU`, `math.hpp:994-1046`, for floating point element types; `none` is the returned 0 (the contents of `A` and `B` are then
left half-way). -/
def lu (eps : K) (m n : Nat) (A B : Nat → Nat → K) : Option (St K) :=
  (luForward eps m n A B).map fun s => { s with B := (List.range m).reverse.foldl (backRow m n s.A) s.B }

/-- `determinant<N>`, `math.hpp:1048-1073`. -/
def determinant (eps : K) (N : Nat) (a : Nat → K) : K :=
  if N = 1 then a 0
  else if N = 2 then a 0 * a 3 - a 1 * a 2
  else if N = 3 then
    a 0 * (a 4 * a 8 - a 5 * a 7) - a 1 * (a 3 * a 8 - a 5 * a 6) + a 2 * (a 3 * a 7 - a 4 * a 6)
  else
    match lu eps N 0 (fun r c => a (r * N + c)) (fun _ _ => 0) with
    | none => 0
    | some s => 1 / (List.range N).foldl (fun p n => p * s.A n n) ((s.p : Int) : K)

/-- `invert<N>`, `math.hpp:1075-1129`; `none` is the returned `false`. -/
def invert (eps : K) (N : Nat) (a : Nat → K) : Option (Nat → K) :=
  if N = 1 then
    if a 0 = 0 then none else some fun _ => 1 / a 0
  else if N = 2 then
    let det := determinant eps 2 a
    if det = 0 then none
    else
      let di := 1 / det
      some fun k => match k with
        | 0 => a 3 * di
        | 1 => a 1 * -di
        | 2 => a 2 * -di
        | _ => a 0 * di
  else if N = 3 then
    let det := determinant eps 3 a
    if det = 0 then none
    else
      let di := 1 / det
      some fun k => match k with
        | 0 => (a 4 * a 8 - a 5 * a 7) * di
        | 1 => (a 2 * a 7 - a 1 * a 8) * di
        | 2 => (a 1 * a 5 - a 2 * a 4) * di
        | 3 => (a 5 * a 6 - a 3 * a 8) * di
        | 4 => (a 0 * a 8 - a 2 * a 6) * di
        | 5 => (a 2 * a 3 - a 0 * a 5) * di
        | 6 => (a 3 * a 7 - a 4 * a 6) * di
        | 7 => (a 1 * a 6 - a 0 * a 7) * di
        | _ => (a 0 * a 4 - a 1 * a 3) * di
  else
    (lu eps N N (fun r c => a (r * N + c)) (fun r c => if r = c then 1 else 0)).map fun s k => s.B (k / N) (k % N)

end Litiv.LU
