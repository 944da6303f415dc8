import Verif.Model.Bsds
import Mathlib.Data.Finset.Card
import Mathlib.Data.Finset.Prod
import Mathlib.Algebra.BigOperators.Group.List.Basic

/-!
# Specification for the edge map counters
-/

namespace Litiv.Bsds.Spec

/-- Two pixels are at most `d` apart. -/
def Near (d : ℚ) (p q : Nat × Nat) : Prop := ((p.1 : ℚ) - q.1) ^ 2 + ((p.2 : ℚ) - q.2) ^ 2 ≤ d ^ 2

/-- The set pixels of an image. -/
def On (g : Geo) (m : Mask) : Finset (Nat × Nat) :=
  (Finset.range g.rows ×ˢ Finset.range g.cols).filter fun p => m p.1 p.2 = true

/-- A one-to-one matching of detected pixels with groundtruth pixels at most `d` apart. -/
structure IsMatching (g : Geo) (segm gt : Mask) (M : Finset ((Nat × Nat) × (Nat × Nat))) : Prop where
  close : ∀ e ∈ M, e.1 ∈ On g segm ∧ e.2 ∈ On g gt ∧ Near g.d e.1 e.2
  left : ∀ e ∈ M, ∀ f ∈ M, e.1 = f.1 → e = f
  right : ∀ e ∈ M, ∀ f ∈ M, e.2 = f.2 → e = f

/-- `out` is a perfect matching with `n` edges of the bipartite graph `gr`. -/
structure Perfect (n : Nat) (gr out : List Edge) : Prop where
  count : out.length = n
  edges : ∀ e ∈ out, e ∈ gr
  left : (out.map (·.1)).Nodup
  right : (out.map (·.2.1)).Nodup

/-- The graph `gr` is what the assignment solver expects for `2n` nodes: one side numbered `1..n`, the other
`n+1..2n`, and it has a perfect matching. -/
def Solvable (n : Nat) (gr : List Edge) : Prop :=
  (∀ e ∈ gr, 1 ≤ e.1 ∧ e.1 ≤ n ∧ n + 1 ≤ e.2.1 ∧ e.2.1 ≤ 2 * n) ∧ ∃ out, Perfect n gr out

/-- What is assumed of the assignment solver: on a solvable graph it returns a perfect matching. -/
def Solver (solve : Nat → List Edge → List Edge) : Prop := ∀ n gr, Solvable n gr → Perfect n gr (solve n gr)

/-- `NS` numbers the detected pixels with a groundtruth pixel in range, `NG` the groundtruth pixels with a detected pixel
in range. -/
structure Numbering (g : Geo) (segm gt : Mask) (NS NG : List (Nat × Nat)) : Prop where
  nodupS : NS.Nodup
  nodupG : NG.Nodup
  memS : ∀ q, q ∈ NS ↔ q ∈ On g segm ∧ ∃ p ∈ On g gt, Near g.d p q
  memG : ∀ p, p ∈ NG ↔ p ∈ On g gt ∧ ∃ q ∈ On g segm, Near g.d p q

/-- In the graph `gr` handed to the solver, detected pixel number `i` and groundtruth pixel number `j` are linked exactly
when they are in range, with the weight `wt` of their squared distance. -/
def LinksInRange (g : Geo) (wt : Int → Int) (NS NG : List (Nat × Nat)) (gr : List Edge) : Prop :=
  ∀ (i j : Nat) (q p : Nat × Nat) (c : Int), NS[i]? = some q → NG[j]? = some p →
    ((i + 1, j + 1 + (NS.length + NG.length), c) ∈ gr ↔
      Near g.d p q ∧ c = wt (((p.1 : Int) - q.1) ^ 2 + ((p.2 : Int) - q.2) ^ 2))

/-- The solver's answer links detected pixel `q` and groundtruth pixel `p`. -/
def Linked (NS NG : List (Nat × Nat)) (out : List Edge) (q p : Nat × Nat) : Prop :=
  ∃ (i j : Nat) (c : Int), NS[i]? = some q ∧ NG[j]? = some p ∧ (i + 1, j + 1 + (NS.length + NG.length), c) ∈ out

/-- `M` is the matching of detected and groundtruth pixels read from the solver's answer on a graph that links the pixels in
range. -/
def Matched (g : Geo) (wt : Int → Int) (solve : Nat → List Edge → List Edge) (segm gt : Mask)
    (M : Finset ((Nat × Nat) × (Nat × Nat))) : Prop :=
  ∃ NS NG gr, Numbering g segm gt NS NG ∧ Solvable (NS.length + NG.length) gr ∧ LinksInRange g wt NS NG gr ∧
    IsMatching g segm gt M ∧ ∀ q p, (q, p) ∈ M ↔ Linked NS NG (solve (NS.length + NG.length) gr) q p

/-- `d` is the maximal matching distance of the benchmark: 0.0075 times the diagonal of the frame, with an error below
`2^-40`. -/
def IsMaxDist (g : Geo) : Prop :=
  0 < g.d ∧ (g.d - 1 / 2 ^ 40) ^ 2 ≤ (75 / 10000) ^ 2 * ((g.rows : ℚ) ^ 2 + (g.cols : ℚ) ^ 2) ∧
    (75 / 10000) ^ 2 * ((g.rows : ℚ) ^ 2 + (g.cols : ℚ) ^ 2) ≤ (g.d + 1 / 2 ^ 40) ^ 2

/-- The detections at threshold `t`: the pixels of the frame with at least this value. -/
def Detected (g : Geo) (cl : Nat → Nat → Nat) (t : Nat) (m : Mask) : Prop :=
  ∀ y x, m y x = true ↔ y < g.rows ∧ x < g.cols ∧ t ≤ cl y x

end Litiv.Bsds.Spec
