import Verif.Model.SegmDual

/-!
# What the primal-dual moves have to keep
-/

namespace Litiv.SegmDual

/-- Energy of a labeling: unary costs of all nodes and costs of all cliques. -/
def energy (g : Graph) (lab : Nat → Nat) : Int :=
  ((List.range g.size).map (fun n => g.unary n (lab n))).sum + (g.cliques.map (fun c => c.cost (c.nodes.map lab))).sum

/-- All cliques have members, and their members are nodes of the graph. -/
def WellFormed (g : Graph) : Prop := ∀ c ∈ g.cliques, c.nodes ≠ [] ∧ ∀ n ∈ c.nodes, n < g.size

/-- The memberships of a node: clique number and position, for all its occurrences in a list of cliques. -/
def memberships (cs : List Clique) (n : Nat) : List (Nat × Nat) :=
  cs.zipIdx.flatMap (fun ci => (ci.1.nodes.zipIdx.filter (fun mp => mp.1 = n)).map (fun mp => (ci.2, mp.2)))

/-- The duals of every clique at the current labels sum up to its cost. -/
def Tight (g : Graph) (d : Duals) (lab : Nat → Nat) : Prop :=
  ∀ (i : Nat) (c : Clique), g.cliques[i]? = some c →
    (c.nodes.zipIdx.map (fun mp => d.dual i mp.2 (lab mp.1))).sum = c.cost (c.nodes.map lab)

/-- The height of every node and label is its unary cost and its duals in the cliques that it belongs to. -/
def Consistent (g : Graph) (d : Duals) : Prop :=
  ∀ n < g.size, ∀ l, d.height n l = g.unary n l + ((memberships g.cliques n).map (fun ip => d.dual ip.1 ip.2 l)).sum

/-- A table of memberships lists every membership of every node, under the numbers that the solver gives to the cliques. -/
def Registers (g : Graph) (lut : Nat → List (Nat × Nat)) : Prop :=
  ∀ n < g.size, (lut n).Perm (memberships g.cliques n)

/-- A move: the nodes of a set take the label `alpha`. -/
def moved (lab : Nat → Nat) (alpha : Nat) (x : Nat → Bool) : Nat → Nat := fun n => if x n then alpha else lab n

/-- A series of moves with what the minimizer answered to each. -/
def runMoves (g : Graph) : List (Nat × (Nat → Int) × (Nat → Nat → Int)) → (Nat → Nat) × Duals → (Nat → Nat) × Duals
  | [], st => st
  | m :: ms, st => runMoves g ms (solve g m.1 m.2.1 m.2.2 st)

/-- A series of moves where the minimizer meets its contract: what it is asked is answered by nodes that do not make its
objective larger than leaving all as it is (an exact minimizer gives such an answer), whatever its clique values. -/
def Moves (g : Graph) (lut : Nat → List (Nat × Nat)) : List (Nat × (Nat → Int) × (Nat → Nat → Int)) → (Nat → Nat) × Duals → Prop
  | [], _ => True
  | m :: ms, st =>
    objective g st.2 lut st.1 m.1 (fun n => decide (m.2.1 n = 1)) ≤ objective g st.2 lut st.1 m.1 (fun _ => false) ∧
    Moves g lut ms (solve g m.1 m.2.1 m.2.2 st)

end Litiv.SegmDual
