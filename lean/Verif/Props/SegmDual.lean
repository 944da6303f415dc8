import Verif.Lemmas.SegmDualInv
import Mathlib.Tactic.IntervalCases

/-!
# Primal-dual moves of the segmentation matcher: properties
-/

namespace Litiv.SegmDual

/-! ## Examples -/

/-- A clique of two nodes that costs `w` where their labels differ. -/
def exPair (a b : Nat) (w : Int) : Clique := ⟨[a, b], fun l => if l.getD 0 0 ≠ l.getD 1 0 then w else 0⟩

/-- Two cameras with two layers of two pixels: nodes 0, 1 and 4, 5 are the last frame, nodes 2, 3 and 6, 7 the one before. -/
def exResegm : Resegm where
  size := 8
  unary := fun n l => if l = 1 then [0, 0, 2, 0, 1, 4, 0, 1].getD n 0 else 0
  pairw := fun n => if n = 0 then [exPair 0 1 0] else if n = 2 then [exPair 2 3 2] else if n = 4 then [exPair 4 5 4] else if n = 6 then [exPair 6 7 0] else []
  temp := fun n => if n = 2 then some (exPair 0 2 2) else if n = 6 then some (exPair 4 6 0) else none

/-- The same without temporal cliques, as in the first frame. -/
def exFirst : Resegm := { exResegm with temp := fun _ => none }

def exLab : Nat → Nat := fun n => if n = 1 ∨ n = 4 then 1 else 0

/-! ## The duals keep track of the energy -/

/-- The duals can be set up whenever no clique has a negative cost. -/
theorem setup_succeeds (g : Graph) (hw : WellFormed g) (lab : Nat → Nat) (h : ∀ c ∈ g.cliques, 0 ≤ c.cost (c.nodes.map lab)) :
    ∃ d, setup g lab = some (d, g.cliques.length) := by
  have hin : ∀ (cs : List Clique), (∀ c ∈ cs, c ∈ g.cliques) → ∀ st, ∃ st', cs.foldlM (setupClique lab) st = some st' := by
    intro cs
    induction cs with
    | nil => intro _ st; exact ⟨st, rfl⟩
    | cons c cs ih =>
      intro hcs st
      have hc := hcs c (List.mem_cons_self ..)
      rw [List.foldlM_cons]
      have : ∃ s1, setupClique lab st c = some s1 := by
        unfold setupClique
        dsimp only
        rw [if_pos ⟨h c hc, (hw c hc).1⟩]
        exact ⟨_, rfl⟩
      obtain ⟨s1, h1⟩ := this
      rw [h1]
      exact ih (fun c' hc' => hcs c' (List.mem_cons_of_mem _ hc')) s1
  have hout : ∀ k ≤ g.size, ∃ st, (List.range k).foldlM (fun st n =>
    (g.own n).foldlM (setupClique lab)
      (({ st.1 with height := fun n' l => if n' = n then st.1.height n' l + g.unary n l else st.1.height n' l } : Duals), st.2))
    ((⟨fun _ _ _ => 0, fun _ _ => 0⟩, 0) : Duals × Nat) = some st := by
    intro k
    induction k with
    | zero => intro _; exact ⟨_, rfl⟩
    | succ k ih =>
      intro hk
      obtain ⟨st, hst⟩ := ih (by omega)
      rw [List.range_succ, List.foldlM_append, hst]
      simp only [List.foldlM_cons, List.foldlM_nil, Option.bind_eq_bind, Option.bind_some]
      obtain ⟨s2, h2⟩ := hin (g.own k) (fun c hc => by
        unfold Graph.cliques
        exact List.mem_flatMap.mpr ⟨k, List.mem_range.mpr (by omega), hc⟩) ({ st.1 with height := fun n' l => if n' = k then st.1.height n' l + g.unary k l else st.1.height n' l }, st.2)
      exact ⟨s2, by rw [h2]; rfl⟩
  obtain ⟨st, hst⟩ := hout g.size le_rfl
  have hs : setup g lab = some st := hst
  obtain ⟨d, m⟩ := st
  have := setup_ok hs
  exact ⟨d, by rw [hs, this.1]⟩

/-- Whatever the minimizer answers, for any number of moves: the duals of each clique sum up to its cost at the current
labels, the heights are what the duals say, and the heights at the current labels sum up to the energy. -/
theorem heights_track_energy (g : Graph) (hw : WellFormed g) (lab : Nat → Nat) (d : Duals) (m : Nat) (hs : setup g lab = some (d, m))
    (ms : List (Nat × (Nat → Int) × (Nat → Nat → Int))) :
    m = g.cliques.length ∧ Tight g (runMoves g ms (lab, d)).2 (runMoves g ms (lab, d)).1 ∧ Consistent g (runMoves g ms (lab, d)).2 ∧
    ((List.range g.size).map (fun n => (runMoves g ms (lab, d)).2.height n ((runMoves g ms (lab, d)).1 n))).sum = energy g (runMoves g ms (lab, d)).1 := by
  obtain ⟨h1, h2, h3⟩ := setup_ok hs
  have := runMoves_ok hw ms (st := (lab, d)) h2 h3
  exact ⟨h1, this.1, this.2, heights_energy hw this.1 this.2⟩

/-- A move gives the label `alpha` to the nodes that the minimizer labels 1, and to no other. -/
theorem solve_labels (g : Graph) (alpha : Nat) (lbl : Nat → Int) (phi : Nat → Nat → Int) (lab : Nat → Nat) (d : Duals) :
    (solve g alpha lbl phi (lab, d)).1 = moved lab alpha (fun n => decide (lbl n = 1)) := by
  funext n
  simp [solve, moveLabels, moved]

/-- A move changes the duals and the heights of the nodes only at `alpha` and at their new label. -/
theorem solve_locality (g : Graph) (hw : WellFormed g) (alpha : Nat) (lbl : Nat → Int) (phi : Nat → Nat → Int) (lab : Nat → Nat) (d : Duals)
    (n l : Nat) (h1 : l ≠ alpha) (h2 : l ≠ (solve g alpha lbl phi (lab, d)).1 n) :
    (solve g alpha lbl phi (lab, d)).2.height n l = d.height n l := by
  have h2' : moveLabels lab alpha lbl n ≠ l := fun hc => h2 hc.symm
  show (g.cliques.zipIdx.foldl (fun d ci => editClique (moveLabels lab alpha lbl) ci.2 ci.1 d) (addPhi g alpha phi d)).height n l = _
  refine foldl_inv_mem (fun e : Duals => e.height n l = d.height n l) _ _ _ ?_ ?_
  · rw [addPhi_eq]
    refine foldl_inv_mem (fun e : Duals => e.height n l = d.height n l) _ _ _ rfl ?_
    intro e ci _ he
    show e.height n l + (if alpha = l then _ else 0) = _
    rw [if_neg (Ne.symm h1), add_zero, he]
  · intro e ci hci he
    have hmem : ci.1 ∈ g.cliques := List.mem_of_getElem? (List.mem_zipIdx_iff_getElem?.mp hci)
    rw [editClique_eq _ _ _ _ (hw ci.1 hmem).1]
    show e.height n l + (if moveLabels lab alpha lbl n = l then _ else 0) = _
    rw [if_neg h2', add_zero, he]

/-! ## What the minimizer is asked -/

/-- The table of a clique of any size holds, for every set of its members, the cost of the clique when these take `alpha`,
less the duals at these labels. -/
theorem residual_table (d : Duals) (lab : Nat → Nat) (alpha i : Nat) (c : Clique) (s : Nat) (hs : s < 2 ^ c.nodes.length) :
    residual d lab alpha i c s =
      c.cost ((List.range c.nodes.length).map (fun p => if s.testBit p then alpha else lab (c.nodes.getD p 0))) -
      ((List.range c.nodes.length).map (fun p => if s.testBit p then d.dual i p alpha else d.dual i p (lab (c.nodes.getD p 0)))).sum := by
  unfold residual
  dsimp only
  rw [subtractLinear_spec _ _ _ _ hs, fusionTable_spec _ _ _ _ hs]

/-- Nothing is left of a clique when no member moves (what the solver asserts before it calls the minimizer). -/
theorem residual_tight (g : Graph) (d : Duals) (lab : Nat → Nat) (ht : Tight g d lab) (alpha i : Nat) (c : Clique) (hc : g.cliques[i]? = some c) :
    residual d lab alpha i c 0 = 0 := by
  have := residual_spec d lab alpha i c (fun _ => false)
  have h0 : ((List.range c.nodes.length).map (fun p => if (fun _ => false) (c.nodes.getD p 0) = true then 2 ^ p else 0)).sum = 0 := by simp
  have hm : moved lab alpha (fun _ => false) = lab := by funext n; simp [moved]
  rw [h0, hm] at this
  rw [this, ← ht i c hc]
  unfold rowSum
  ring

/-- If the table of memberships is right, the minimizer's objective differs between any two moves by exactly as much as the
energies of their results do. -/
theorem objective_is_energy_change (g : Graph) (hw : WellFormed g) (lut : Nat → List (Nat × Nat)) (hr : Registers g lut) (d : Duals)
    (lab : Nat → Nat) (alpha : Nat) (x y : Nat → Bool) :
    objective g d lut lab alpha x - objective g d lut lab alpha y = energy g (moved lab alpha x) - energy g (moved lab alpha y) := by
  have h1 := objective_energy hw hr d lab alpha x
  have h2 := objective_energy hw hr d lab alpha y
  linarith

/-- With the right table, a minimizer that does as well as doing nothing never lets the energy grow. -/
theorem moves_never_raise (g : Graph) (hw : WellFormed g) (lut : Nat → List (Nat × Nat)) (hr : Registers g lut)
    (ms : List (Nat × (Nat → Int) × (Nat → Nat → Int))) : ∀ st : (Nat → Nat) × Duals, Moves g lut ms st → energy g (runMoves g ms st).1 ≤ energy g st.1 := by
  induction ms with
  | nil => intro st _; exact le_rfl
  | cons m ms ih =>
    intro st h
    have h1 := ih _ h.2
    have h2 := objective_energy hw hr st.2 st.1 m.1 (fun n => decide (m.2.1 n = 1))
    have h3 := solve_labels g m.1 m.2.1 m.2.2 st.1 st.2
    have h4 := h.1
    show energy g (runMoves g ms (solve g m.1 m.2.1 m.2.2 st)).1 ≤ _
    rw [← h3] at h2
    have h5 : energy g (solve g m.1 m.2.1 m.2.2 st).1 = energy g (solve g m.1 m.2.1 m.2.2 (st.1, st.2)).1 := rfl
    linarith

/-! ## The table of memberships -/

/-- Without temporal cliques (the first frames) the table that the matcher fills is right, in any order of the threads. What
is missing: the frames that have temporal cliques, see `temporal_table_refuted`. -/
theorem pairwise_table_partial (r : Resegm) (ht : ∀ n, r.temp n = none) (order : List Nat) : Registers r.graph (memberLut r order) := by
  intro n _
  rw [memberLut_eq]
  have h1 : order.filterMap r.temp = [] := List.filterMap_eq_nil_iff.mpr (fun a _ => ht a)
  have h2 : r.graph.cliques = (List.range r.size).flatMap r.pairw := by
    simp [Graph.cliques, Resegm.graph, ht]
  rw [h1, h2]
  simp

/-- Hence the first frame's moves never let the energy grow, for an exact minimizer. -/
theorem first_frames_never_raise_partial (r : Resegm) (hw : WellFormed r.graph) (ht : ∀ n, r.temp n = none) (order : List Nat)
    (ms : List (Nat × (Nat → Int) × (Nat → Nat → Int))) (st : (Nat → Nat) × Duals) (h : Moves r.graph (memberLut r order) ms st) :
    energy r.graph (runMoves r.graph ms st).1 ≤ energy r.graph st.1 :=
  moves_never_raise r.graph hw _ (pairwise_table_partial r ht order) ms st h

theorem mem_memberships {cs : List Clique} {n i p : Nat} (h : (i, p) ∈ memberships cs n) : ∃ c, cs[i]? = some c ∧ c.nodes[p]? = some n := by
  unfold memberships at h
  obtain ⟨ci, hci, h⟩ := List.mem_flatMap.mp h
  obtain ⟨mp, hmp, he⟩ := List.mem_map.mp h
  obtain ⟨h1, h2⟩ := List.mem_filter.mp hmp
  have e1 : ci.2 = i := congrArg Prod.fst he
  have e2 : mp.2 = p := congrArg Prod.snd he
  have a1 := List.mem_zipIdx_iff_getElem?.mp hci
  have a2 := List.mem_zipIdx_iff_getElem?.mp h1
  refine ⟨ci.1, by rw [← e1]; exact a1, ?_⟩
  rw [← e2, a2]
  simpa using h2

/-- As soon as one temporal clique is valid the table is wrong, in every order of the threads: pairwise cliques join nodes of
one layer, temporal cliques hold one node per layer, newest first. -/
theorem temporal_table_refuted (r : Resegm) (layer : Nat → Nat) (layers : Nat) (hl : 2 ≤ layers)
    (hp : ∀ n, ∀ c ∈ r.pairw n, ∀ a ∈ c.nodes, layer a = layer n)
    (ht : ∀ n c, r.temp n = some c → c.nodes.map layer = List.range layers ∧ ∀ a ∈ c.nodes, a < r.size)
    (order : List Nat) (n : Nat) (hn : n ∈ order) (hv : (r.temp n).isSome) : ¬ Registers r.graph (memberLut r order) := by
  intro hr
  have hne : order.filterMap r.temp ≠ [] := by
    intro hc
    have := List.filterMap_eq_nil_iff.mp hc n hn
    rw [this] at hv
    simp at hv
  obtain ⟨c0, rest, hcr⟩ := List.exists_cons_of_ne_nil hne
  obtain ⟨n0, _, hn0⟩ := List.mem_filterMap.mp (show c0 ∈ order.filterMap r.temp by rw [hcr]; exact List.mem_cons_self ..)
  obtain ⟨hlay, hsz⟩ := ht n0 c0 hn0
  have hlen : c0.nodes.length = layers := by
    have := congrArg List.length hlay
    simpa using this
  have hlayer : ∀ (p : Nat) (hp' : p < c0.nodes.length), layer (c0.nodes[p]) = p := by
    intro p hp'
    have : (c0.nodes.map layer)[p]? = some p := by rw [hlay]; exact List.getElem?_range (by omega)
    rw [List.getElem?_map, List.getElem?_eq_getElem hp'] at this
    simpa using this
  set P := ((List.range r.size).flatMap r.pairw).length with hP
  have hin : ∀ (p : Nat) (hp' : p < c0.nodes.length), (P, c0.nodes.length - 1 - p) ∈ memberLut r order (c0.nodes[p]) := by
    intro p hp'
    rw [memberLut_eq, hcr, List.zipIdx_cons, List.flatMap_cons]
    apply List.mem_append_right
    apply List.mem_append_left
    apply List.mem_map.mpr
    refine ⟨(c0.nodes[p], c0.nodes.length - 1 - p), List.mem_filter.mpr ⟨?_, by simp⟩, rfl⟩
    apply List.mem_zipIdx_iff_getElem?.mpr
    show c0.nodes.reverse[c0.nodes.length - 1 - p]? = some c0.nodes[p]
    rw [List.getElem?_reverse (by omega), show c0.nodes.length - 1 - (c0.nodes.length - 1 - p) = p by omega, List.getElem?_eq_getElem hp']
  have hreg : ∀ (p : Nat) (hp' : p < c0.nodes.length), ∃ c, r.graph.cliques[P]? = some c ∧ c.nodes[c0.nodes.length - 1 - p]? = some c0.nodes[p] := by
    intro p hp'
    have h1 : c0.nodes[p] < r.graph.size := hsz _ (List.getElem_mem hp')
    exact mem_memberships ((hr _ h1).mem_iff.mp (hin p hp'))
  obtain ⟨c, hc, hlast⟩ := hreg 0 (by omega)
  obtain ⟨c', hc', hfirst⟩ := hreg (c0.nodes.length - 1) (by omega)
  rw [hc] at hc'
  cases Option.some.inj hc'
  have l1 := hlayer 0 (by omega)
  have l2 := hlayer (c0.nodes.length - 1) (by omega)
  have hmem : c ∈ r.graph.cliques := List.mem_of_getElem? hc
  unfold Graph.cliques at hmem
  obtain ⟨k, _, hk⟩ := List.mem_flatMap.mp hmem
  rcases List.mem_append.mp (show c ∈ r.pairw k ++ (r.temp k).toList from hk) with h | h
  · have e1 := hp k c h _ (List.mem_of_getElem? hlast)
    have e2 := hp k c h _ (List.mem_of_getElem? hfirst)
    rw [l1] at e1
    rw [l2] at e2
    omega
  · have hk' : r.temp k = some c := by simpa using h
    obtain ⟨hlay', _⟩ := ht k c hk'
    have h0 : (c.nodes.map layer)[0]? = some 0 := by rw [hlay']; exact List.getElem?_range (by omega)
    rw [show c0.nodes.length - 1 - (c0.nodes.length - 1) = 0 by omega] at hfirst
    rw [List.getElem?_map, hfirst] at h0
    have : layer (c0.nodes[c0.nodes.length - 1]) = 0 := by simpa using h0
    omega

/-! ## A move that raises the energy -/

theorem objective_congr (g : Graph) (hw : WellFormed g) (d : Duals) (lut : Nat → List (Nat × Nat)) (lab : Nat → Nat) (alpha : Nat) (x y : Nat → Bool)
    (h : ∀ n < g.size, x n = y n) : objective g d lut lab alpha x = objective g d lut lab alpha y := by
  unfold objective
  simp only [residual_spec]
  congr 1
  · congr 1
    apply List.map_congr_left
    intro n hn
    rw [h n (List.mem_range.mp hn)]
  · congr 1
    apply List.map_congr_left
    intro ci hci
    have hmem : ci.1 ∈ g.cliques := List.mem_of_getElem? (List.mem_zipIdx_iff_getElem?.mp hci)
    have hm : ∀ n ∈ ci.1.nodes, moved lab alpha x n = moved lab alpha y n := by
      intro n hn
      unfold moved
      rw [h n ((hw ci.1 hmem).2 n hn)]
    rw [List.map_congr_left hm]
    congr 1
    unfold rowSum
    congr 1
    apply List.map_congr_left
    intro mp hmp
    rw [hm mp.1 (List.mem_of_getElem? (List.mem_zipIdx_iff_getElem?.mp hmp))]

theorem energy_congr (g : Graph) (hw : WellFormed g) (lab lab' : Nat → Nat) (h : ∀ n < g.size, lab n = lab' n) : energy g lab = energy g lab' := by
  unfold energy
  congr 1
  · congr 1
    apply List.map_congr_left
    intro n hn
    rw [h n (List.mem_range.mp hn)]
  · congr 1
    apply List.map_congr_left
    intro c hc
    rw [List.map_congr_left (fun n hn => h n ((hw c hc).2 n hn))]

/-- The duals of the example. -/
def exDuals : Duals := ((setup exResegm.graph exLab).getD (⟨fun _ _ _ => 0, fun _ _ => 0⟩, 0)).1

theorem ex_wellFormed : WellFormed exResegm.graph := by
  intro c hc
  have : c ∈ [exPair 0 1 0, exPair 2 3 2, exPair 0 2 2, exPair 4 5 4, exPair 6 7 0, exPair 4 6 0] := hc
  simp only [List.mem_cons, List.not_mem_nil, or_false] at this
  rcases this with h | h | h | h | h | h <;> subst h <;>
    exact ⟨by simp [exPair], by simp [exPair, Resegm.graph, exResegm]⟩

/-- The set of nodes given by eight bits. -/
def bits8 (b0 b1 b2 b3 b4 b5 b6 b7 : Bool) : Nat → Bool := fun n => [b0, b1, b2, b3, b4, b5, b6, b7].getD n false

theorem ex_table : ∀ order ∈ [[2, 6], [6, 2]], ∀ b0 b1 b2 b3 b4 b5 b6 b7 : Bool,
    objective exResegm.graph exDuals (memberLut exResegm order) exLab 1 (bits8 false false false false false false false true) <
      objective exResegm.graph exDuals (memberLut exResegm order) exLab 1 (bits8 b0 b1 b2 b3 b4 b5 b6 b7) ∨
    energy exResegm.graph exLab < energy exResegm.graph (moved exLab 1 (bits8 b0 b1 b2 b3 b4 b5 b6 b7)) := by
  decide +kernel

theorem ex_orders (order : List Nat) (h : order.Perm (List.range 8)) : ∃ o ∈ [[2, 6], [6, 2]], memberLut exResegm order = memberLut exResegm o := by
  have hf : (order.filter (fun n => n = 2 ∨ n = 6)).Perm [2, 6] := h.filter _
  have hm : memberLut exResegm order = memberLut exResegm (order.filter (fun n => n = 2 ∨ n = 6)) := by
    unfold memberLut
    have : order.filterMap exResegm.temp = (order.filter (fun n => n = 2 ∨ n = 6)).filterMap exResegm.temp := by
      rw [List.filterMap_filter]
      congr 1
      funext n
      by_cases h2 : n = 2
      · simp [h2]
      · by_cases h6 : n = 6
        · simp [h6]
        · simp [h2, h6, exResegm]
    rw [this]
  refine ⟨order.filter (fun n => n = 2 ∨ n = 6), ?_, hm⟩
  generalize order.filter (fun n => n = 2 ∨ n = 6) = l at hf
  have hl := hf.length_eq
  match l, hl with
  | [a, b], _ =>
    have ha : a ∈ [2, 6] := hf.mem_iff.mp (by simp)
    have hb : b ∈ [2, 6] := hf.mem_iff.mp (by simp)
    have hnd : [a, b].Nodup := hf.nodup_iff.mpr (by decide)
    simp at ha hb hnd
    rcases ha with rfl | rfl <;> rcases hb with rfl | rfl <;> simp at hnd ⊢

/-- A graph of two frames of two cameras where the only thing that an exact minimizer can answer raises the energy, in every
order of the threads. -/
theorem temporal_move_refuted (order : List Nat) (ho : order.Perm (List.range exResegm.size)) (d : Duals) (m : Nat)
    (hs : setup exResegm.graph exLab = some (d, m)) (x : Nat → Bool)
    (hx : ∀ y, objective exResegm.graph d (memberLut exResegm order) exLab 1 x ≤ objective exResegm.graph d (memberLut exResegm order) exLab 1 y) :
    energy exResegm.graph exLab < energy exResegm.graph (moved exLab 1 x) := by
  have hd : d = exDuals := by unfold exDuals; rw [hs]; rfl
  subst hd
  obtain ⟨o, hom, he⟩ := ex_orders order ho
  rw [he] at hx
  set z := bits8 (x 0) (x 1) (x 2) (x 3) (x 4) (x 5) (x 6) (x 7) with hz
  have hxz : ∀ n < exResegm.graph.size, x n = z n := by
    intro n hn
    have hn' : n < 8 := hn
    rw [hz]
    interval_cases n <;> rfl
  rw [energy_congr _ ex_wellFormed (moved exLab 1 x) (moved exLab 1 z) (fun n hn => by unfold moved; rw [hxz n hn])]
  rcases ex_table o hom (x 0) (x 1) (x 2) (x 3) (x 4) (x 5) (x 6) (x 7) with h | h
  · have := hx (bits8 false false false false false false false true)
    rw [objective_congr _ ex_wellFormed _ _ _ _ x z hxz] at this
    exact absurd this (not_le.mpr h)
  · exact h

/-! ## The examples meet the hypotheses -/

example : (setup exResegm.graph exLab).isSome := by decide +kernel
example : energy exResegm.graph exLab = 5 := by decide +kernel
example : WellFormed exResegm.graph ∧ WellFormed exFirst.graph := by
  refine ⟨ex_wellFormed, ?_⟩
  intro c hc
  have : c ∈ [exPair 0 1 0, exPair 2 3 2, exPair 4 5 4, exPair 6 7 0] := hc
  simp only [List.mem_cons, List.not_mem_nil, or_false] at this
  rcases this with h | h | h | h <;> subst h <;>
    exact ⟨by simp [exPair], by simp [exPair, Resegm.graph, exFirst, exResegm]⟩

/-- Without temporal cliques, moving node 5 to the label of node 4 is an answer that makes the objective no larger. -/
example : let d := ((setup exFirst.graph exLab).getD (⟨fun _ _ _ => 0, fun _ _ => 0⟩, 0)).1
    objective exFirst.graph d (memberLut exFirst []) exLab 1 (fun n => decide (n = 5)) ≤ objective exFirst.graph d (memberLut exFirst []) exLab 1 (fun _ => false) := by
  decide +kernel

/-- The move of that node to the label 0 of node 5 makes it smaller. -/
example : let d := ((setup exFirst.graph exLab).getD (⟨fun _ _ _ => 0, fun _ _ => 0⟩, 0)).1
    objective exFirst.graph d (memberLut exFirst []) exLab 0 (fun n => decide (n = 4)) + 5 = objective exFirst.graph d (memberLut exFirst []) exLab 0 (fun _ => false) := by
  decide +kernel

/-- The layers of the example are as `temporal_table_refuted` wants them. -/
example : (∀ n < 8, ∀ c ∈ exResegm.pairw n, ∀ a ∈ c.nodes, a / 2 % 2 = n / 2 % 2) ∧
    (∀ n < 8, ∀ c ∈ exResegm.temp n, c.nodes.map (fun a => a / 2 % 2) = List.range 2) := by
  decide +kernel

/-- Clique of three members: the table at the set of the first and the third. -/
example : residual ⟨fun _ p l => (p : Int) + l, fun _ _ => 0⟩ (fun n => n) 7 0 ⟨[1, 2, 3], fun l => (l.sum : Int)⟩ 5 = (7 + 2 + 7) - ((0 + 7) + (1 + 2) + (2 + 7)) := by
  decide +kernel

end Litiv.SegmDual
