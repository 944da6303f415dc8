import Verif.Lemmas.SegmDual

namespace Litiv.SegmDual

/-! ## Sums over memberships -/

/-- Sum over the members of a clique that are the node. -/
def part (c : Clique) (n : Nat) (f : Nat → Int) : Int :=
  (c.nodes.zipIdx.map (fun mp => if mp.1 = n then f mp.2 else 0)).sum

theorem sum_filter_map {α : Type} (l : List α) (q : α → Bool) (f : α → Int) :
    ((l.filter q).map f).sum = (l.map (fun a => if q a then f a else 0)).sum := by
  induction l with
  | nil => rfl
  | cons a l ih =>
    by_cases h : q a <;> simp [h, ih]

theorem memberships_sum (cs : List Clique) (n : Nat) (f : Nat → Nat → Int) :
    ((memberships cs n).map (fun ip => f ip.1 ip.2)).sum = (cs.zipIdx.map (fun ci => part ci.1 n (f ci.2))).sum := by
  unfold memberships
  rw [List.map_flatMap]
  have : ∀ l : List (Clique × Nat), ((l.flatMap (fun ci => ((ci.1.nodes.zipIdx.filter (fun mp => mp.1 = n)).map (fun mp => (ci.2, mp.2))).map
      (fun ip => f ip.1 ip.2))).sum) = (l.map (fun ci => part ci.1 n (f ci.2))).sum := by
    intro l
    induction l with
    | nil => rfl
    | cons ci l ih =>
      rw [List.flatMap_cons, List.sum_append, ih, List.map_cons, List.sum_cons]
      congr 1
      rw [List.map_map, part]
      rw [show ((fun ip : Nat × Nat => f ip.1 ip.2) ∘ fun mp : Nat × Nat => (ci.2, mp.2)) = fun mp => f ci.2 mp.2 from rfl, sum_filter_map]
      congr 1
      apply List.map_congr_left
      intro mp _
      simp
  exact this _

theorem sum_map_add' {α : Type} (l : List α) (f g : α → Int) : (l.map (fun a => f a + g a)).sum = (l.map f).sum + (l.map g).sum := by
  induction l with
  | nil => rfl
  | cons a l ih => simp only [List.map_cons, List.sum_cons, ih]; ring

theorem sum_map_zero {α : Type} (l : List α) (f : α → Int) (h : ∀ a ∈ l, f a = 0) : (l.map f).sum = 0 := by
  induction l with
  | nil => rfl
  | cons a l ih =>
    rw [List.map_cons, List.sum_cons, h a (List.mem_cons_self ..), ih (fun b hb => h b (List.mem_cons_of_mem _ hb))]; rfl

theorem sum_zipIdx_single {α : Type} (l : List α) (k i : Nat) (a : α) (h : l[i]? = some a) (f : α → Int) :
    ((l.zipIdx k).map (fun ai => if ai.2 = k + i then f ai.1 else 0)).sum = f a := by
  induction l generalizing k i with
  | nil => simp at h
  | cons b l ih =>
    rw [List.zipIdx_cons, List.map_cons, List.sum_cons]
    cases i with
    | zero =>
      simp only [List.getElem?_cons_zero, Option.some.injEq] at h
      subst h
      rw [if_pos (by omega), sum_map_zero]
      · ring
      · intro ai hai
        have := List.le_snd_of_mem_zipIdx hai
        rw [if_neg (by omega)]
    | succ i =>
      rw [List.getElem?_cons_succ] at h
      rw [if_neg (by show ¬ k = k + (i + 1); omega), show k + (i + 1) = k + 1 + i by omega, ih (k + 1) i h]; ring

/-! ## Adding to the duals of a clique -/

/-- The labels of a clique's members get something more, one value per position. -/
def addRow (lab : Nat → Nat) (i : Nat) (c : Clique) (v : Nat → Int) (d : Duals) : Duals where
  dual := fun i' p l => d.dual i' p l + (if i' = i ∧ (c.nodes[p]?).map lab = some l then v p else 0)
  height := fun n l => d.height n l + (if lab n = l then part c n v else 0)

theorem zipIdx_foldl_row (lab : Nat → Nat) (i : Nat) (v : Nat → Int) (step : Duals → Nat × Nat → Duals) :
    ∀ (nodes : List Nat) (k : Nat) (d : Duals)
      (_ : ∀ (s : Duals) (np : Nat × Nat), np ∈ nodes.zipIdx k → (∀ l, s.dual i np.2 l = d.dual i np.2 l) →
        step s np = ⟨setDual s.dual i np.2 (lab np.1) (s.dual i np.2 (lab np.1) + v np.2), addHeight s.height np.1 (lab np.1) (v np.2)⟩),
      ((nodes.zipIdx k).foldl step d).dual = (fun i' p l => d.dual i' p l + (if i' = i ∧ k ≤ p ∧ (nodes[p - k]?).map lab = some l then v p else 0)) ∧
      ((nodes.zipIdx k).foldl step d).height = (fun n l => d.height n l + (if lab n = l then ((nodes.zipIdx k).map (fun mp => if mp.1 = n then v mp.2 else 0)).sum else 0)) := by
  intro nodes
  induction nodes with
  | nil => intro k d _; simp
  | cons m nodes ih =>
    intro k d hstep
    rw [List.zipIdx_cons, List.foldl_cons]
    have h0 := hstep d (m, k) (by rw [List.zipIdx_cons]; exact List.mem_cons_self ..) (fun _ => rfl)
    obtain ⟨e1, e2⟩ := ih (k + 1) (step d (m, k)) (by
      intro s np hnp hs
      apply hstep s np (by rw [List.zipIdx_cons]; exact List.mem_cons_of_mem _ hnp)
      intro l
      rw [hs l, h0]
      have := List.le_snd_of_mem_zipIdx hnp
      simp only [setDual]
      rw [if_neg (by intro hc; omega)])
    rw [e1, e2, h0]
    constructor
    · funext i' p l
      simp only [setDual]
      by_cases hp : p = k
      · subst hp
        by_cases hi : i' = i
        · subst hi
          by_cases hl : l = lab m
          · subst hl; simp
          · simp [hl, Ne.symm hl]
        · simp [hi]
      · by_cases hk : k + 1 ≤ p
        · have : p - k = (p - (k + 1)) + 1 := by omega
          rw [this, List.getElem?_cons_succ]
          simp [hp, hk, show k ≤ p by omega]
        · simp [hp, hk, show ¬ k ≤ p by omega]
    · funext n l
      simp only [addHeight, List.map_cons, List.sum_cons]
      by_cases hn : n = m
      · subst hn
        by_cases hl : l = lab n
        · subst hl; simp; ring
        · simp [hl, Ne.symm hl]
      · by_cases hl : lab n = l
        · simp [hn, Ne.symm hn]
        · simp [hn, hl]

theorem foldl_addRow (lab : Nat → Nat) (i : Nat) (c : Clique) (v : Nat → Int) (step : Duals → Nat × Nat → Duals) (d : Duals)
    (h : ∀ (s : Duals) (np : Nat × Nat), np ∈ c.nodes.zipIdx → (∀ l, s.dual i np.2 l = d.dual i np.2 l) →
        step s np = ⟨setDual s.dual i np.2 (lab np.1) (s.dual i np.2 (lab np.1) + v np.2), addHeight s.height np.1 (lab np.1) (v np.2)⟩) :
    c.nodes.zipIdx.foldl step d = addRow lab i c v d := by
  obtain ⟨h1, h2⟩ := zipIdx_foldl_row lab i v step c.nodes 0 d h
  generalize c.nodes.zipIdx.foldl step d = e at *
  cases e with
  | mk e1 e2 =>
    simp only at h1 h2
    unfold addRow part
    subst h1 h2
    simp

theorem addRow_row (lab : Nat → Nat) (i : Nat) (c : Clique) (v : Nat → Int) (d : Duals) (f : Nat → Nat) (mp : Nat × Nat) (h : mp ∈ c.nodes.zipIdx) :
    (addRow lab i c v d).dual i mp.2 (f mp.1) = d.dual i mp.2 (f mp.1) + (if lab mp.1 = f mp.1 then v mp.2 else 0) := by
  have : c.nodes[mp.2]? = some mp.1 := by
    have := List.mem_zipIdx_iff_getElem?.mp h
    exact this
  simp [addRow, this]

theorem addRow_other (lab : Nat → Nat) (i i' : Nat) (c : Clique) (v : Nat → Int) (d : Duals) (h : i' ≠ i) (p l : Nat) :
    (addRow lab i c v d).dual i' p l = d.dual i' p l := by simp [addRow, h]

theorem Consistent.addRow {g : Graph} {d : Duals} (h : Consistent g d) {i : Nat} {c : Clique} (hc : g.cliques[i]? = some c) (lab : Nat → Nat) (v : Nat → Int) :
    Consistent g (SegmDual.addRow lab i c v d) := by
  intro n hn l
  show d.height n l + _ = _
  rw [h n hn l, memberships_sum _ _ (fun a b => d.dual a b l), memberships_sum _ _ (fun a b => (SegmDual.addRow lab i c v d).dual a b l), add_assoc]
  congr 1
  have : ∀ ci ∈ g.cliques.zipIdx, part ci.1 n (fun p => (SegmDual.addRow lab i c v d).dual ci.2 p l) =
      part ci.1 n (fun p => d.dual ci.2 p l) + (if ci.2 = 0 + i then (if lab n = l then part ci.1 n v else 0) else 0) := by
    intro ci hci
    have hci' := List.mem_zipIdx_iff_getElem?.mp hci
    by_cases hi : ci.2 = 0 + i
    · rw [if_pos hi]
      rw [Nat.zero_add] at hi
      rw [hi, hc] at hci'
      have hcc : c = ci.1 := Option.some.inj hci'
      rw [hi, ← hcc]
      unfold part
      by_cases hl : lab n = l
      · rw [if_pos hl, ← sum_map_add']
        congr 1
        apply List.map_congr_left
        intro mp hmp
        by_cases hm : mp.1 = n
        · rw [if_pos hm, if_pos hm, if_pos hm]
          have := addRow_row lab i c v d (fun _ => l) mp hmp
          dsimp only
          rw [this, if_pos (by rw [hm]; exact hl)]
        · simp [hm]
      · rw [if_neg hl, add_zero]
        congr 1
        apply List.map_congr_left
        intro mp hmp
        by_cases hm : mp.1 = n
        · rw [if_pos hm, if_pos hm]
          have := addRow_row lab i c v d (fun _ => l) mp hmp
          dsimp only
          rw [this, if_neg (by rw [hm]; exact hl), add_zero]
        · simp [hm]
    · rw [if_neg hi, add_zero]
      unfold part
      congr 1
      apply List.map_congr_left
      intro mp _
      dsimp only
      rw [addRow_other _ _ _ _ _ _ (by omega)]
  rw [List.map_congr_left this, sum_map_add', sum_zipIdx_single g.cliques 0 i c hc (fun c => if lab n = l then part c n v else 0)]

/-- Sum of the duals of a clique at some labels. -/
def rowSum (d : Duals) (i : Nat) (c : Clique) (lab : Nat → Nat) : Int := (c.nodes.zipIdx.map (fun mp => d.dual i mp.2 (lab mp.1))).sum

theorem sum_zipIdx_snd (l : List Nat) (k : Nat) (v : Nat → Int) :
    ((l.zipIdx k).map (fun mp => v mp.2)).sum = ((List.range l.length).map (fun p => v (k + p))).sum := by
  induction l generalizing k with
  | nil => rfl
  | cons a l ih =>
    rw [List.zipIdx_cons, List.map_cons, List.sum_cons, ih, List.length_cons, List.range_succ_eq_map, List.map_cons, List.sum_cons, List.map_map]
    congr 2
    apply List.map_congr_left
    intro p _
    simp only [Function.comp]
    congr 1
    omega

theorem rowSum_addRow (d : Duals) (i : Nat) (c : Clique) (lab : Nat → Nat) (v : Nat → Int) :
    rowSum (addRow lab i c v d) i c lab = rowSum d i c lab + ((List.range c.nodes.length).map v).sum := by
  have h := sum_zipIdx_snd c.nodes 0 v
  simp only [Nat.zero_add] at h
  rw [show ((List.range c.nodes.length).map v) = ((List.range c.nodes.length).map (fun p => v p)) from rfl, ← h]
  unfold rowSum
  rw [← sum_map_add']
  congr 1
  apply List.map_congr_left
  intro mp hmp
  rw [addRow_row lab i c v d lab mp hmp, if_pos rfl]

theorem rowSum_other (d : Duals) (i i' : Nat) (c c' : Clique) (lab lab' : Nat → Nat) (v : Nat → Int) (h : i' ≠ i) :
    rowSum (addRow lab i c v d) i' c' lab' = rowSum d i' c' lab' := by
  unfold rowSum
  congr 1
  apply List.map_congr_left
  intro mp _
  rw [addRow_other _ _ _ _ _ _ h]

/-- What the average and the remainder distribute. -/
theorem spread_sum (k : Nat) (a r : Int) (h0 : 0 ≤ r) (h1 : r ≤ k) :
    ((List.range k).map (fun p : Nat => if (p : Int) < r then a + 1 else a)).sum = k * a + r := by
  suffices ∀ k : Nat, ((List.range k).map (fun p : Nat => if (p : Int) < r then a + 1 else a)).sum = k * a + min r k by
    rw [this k, min_eq_left h1]
  intro k
  induction k with
  | zero => simp [h0]
  | succ k ih =>
    rw [List.range_succ, List.map_append, List.sum_append, ih]
    simp only [List.map_cons, List.map_nil, List.sum_cons, List.sum_nil, add_zero]
    push_cast
    by_cases h : (k : Int) < r
    · rw [if_pos h, min_eq_right (by omega), min_eq_right (by omega)]; ring
    · rw [if_neg h, min_eq_left (by omega), min_eq_left (by omega)]; ring

/-! ## The start -/

/-- What holds after the unary costs of the first `k` nodes and some cliques `pre` are in. -/
structure SetupInv (g : Graph) (lab : Nat → Nat) (k : Nat) (pre : List Clique) (st : Duals × Nat) : Prop where
  count : st.2 = pre.length
  fresh : ∀ i ≥ pre.length, ∀ p l, st.1.dual i p l = 0
  tight : ∀ (i : Nat) (c : Clique), pre[i]? = some c → rowSum st.1 i c lab = c.cost (c.nodes.map lab)
  heights : ∀ n l, st.1.height n l = (if n < k then g.unary n l else 0) + (pre.zipIdx.map (fun ci => part ci.1 n (fun p => st.1.dual ci.2 p l))).sum

theorem SetupInv.clique {g : Graph} {lab : Nat → Nat} {k : Nat} {pre : List Clique} {st st' : Duals × Nat} {c : Clique}
    (hi : SetupInv g lab k pre st) (h : setupClique lab st c = some st') : SetupInv g lab k (pre ++ [c]) st' := by
  unfold setupClique at h
  dsimp only at h
  split at h
  case isFalse => simp at h
  case isTrue hc =>
    obtain ⟨hc0, hcn⟩ := hc
    cases Option.some.inj h
    have hlen : 0 < c.nodes.length := List.length_pos_of_ne_nil hcn
    rw [foldl_addRow lab st.2 c (fun p => if (p : Int) < c.cost (c.nodes.map lab) % c.nodes.length then c.cost (c.nodes.map lab) / c.nodes.length + 1
      else c.cost (c.nodes.map lab) / c.nodes.length) _ st.1 (by
        intro s np _ hs
        rw [hs, hi.fresh st.2 (by rw [hi.count])]
        simp only [zero_add])]
    set v : Nat → Int := fun p => if (p : Int) < c.cost (c.nodes.map lab) % c.nodes.length then c.cost (c.nodes.map lab) / c.nodes.length + 1
      else c.cost (c.nodes.map lab) / c.nodes.length with hv
    have hvs : ((List.range c.nodes.length).map v).sum = c.cost (c.nodes.map lab) := by
      rw [hv, spread_sum _ _ _ (Int.emod_nonneg _ (by omega)) (le_of_lt (Int.emod_lt_of_pos _ (by omega)))]
      exact Int.mul_ediv_add_emod _ _
    constructor
    · show st.2 + 1 = _
      rw [hi.count, List.length_append]; rfl
    · intro i hil p l
      rw [List.length_append, List.length_singleton] at hil
      show (addRow lab st.2 c v st.1).dual i p l = 0
      rw [addRow_other _ _ _ _ _ _ (by rw [hi.count]; omega), hi.fresh i (by omega)]
    · intro i c' hic
      show rowSum (addRow lab st.2 c v st.1) i c' lab = _
      rcases Nat.lt_or_ge i pre.length with hlt | hge
      · rw [rowSum_other _ _ _ _ _ _ _ _ (by rw [hi.count]; omega)]
        rw [List.getElem?_append_left hlt] at hic
        exact hi.tight i c' hic
      · rw [List.getElem?_append_right hge] at hic
        have h0 : i - pre.length = 0 := by
          by_contra hne
          rw [List.getElem?_eq_none (by simp; omega)] at hic
          simp at hic
        have hi' : i = st.2 := by rw [hi.count]; omega
        rw [h0] at hic
        have : c = c' := by simpa using hic
        subst this
        rw [hi', rowSum_addRow, hvs]
        have : rowSum st.1 st.2 c lab = 0 := sum_map_zero _ _ (fun mp _ => hi.fresh _ (by rw [hi.count]) _ _)
        rw [this, zero_add]
    · intro n l
      show st.1.height n l + (if lab n = l then part c n v else 0) = _
      rw [hi.heights n l, add_assoc]
      congr 1
      rw [List.zipIdx_append, List.map_append, List.sum_append]
      congr 1
      · congr 1
        apply List.map_congr_left
        intro ci hci
        have hci' := List.mem_zipIdx_iff_getElem?.mp hci
        have : ci.2 < pre.length := by
          by_contra hc
          rw [List.getElem?_eq_none (by omega)] at hci'
          simp at hci'
        unfold part
        congr 1
        apply List.map_congr_left
        intro mp _
        show _ = if mp.1 = n then (addRow lab st.2 c v st.1).dual ci.2 mp.2 l else 0
        rw [addRow_other _ _ _ _ _ _ (by rw [hi.count]; omega)]
      · simp only [List.zipIdx_cons, List.zipIdx_nil, List.map_cons, List.map_nil, List.sum_cons, List.sum_nil, add_zero, Nat.zero_add]
        rw [← hi.count]
        show _ = part c n (fun p => (addRow lab st.2 c v st.1).dual st.2 p l)
        unfold part
        by_cases hl : lab n = l
        · rw [if_pos hl]
          congr 1
          apply List.map_congr_left
          intro mp hmp
          by_cases hm : mp.1 = n
          · rw [if_pos hm, if_pos hm]
            have := addRow_row lab st.2 c v st.1 (fun _ => l) mp hmp
            dsimp only
            rw [this, if_pos (by rw [hm]; exact hl), hi.fresh _ (by rw [hi.count]), zero_add]
          · simp [hm]
        · rw [if_neg hl]
          symm
          apply sum_map_zero
          intro mp hmp
          by_cases hm : mp.1 = n
          · rw [if_pos hm]
            have := addRow_row lab st.2 c v st.1 (fun _ => l) mp hmp
            dsimp only
            rw [this, if_neg (by rw [hm]; exact hl), hi.fresh _ (by rw [hi.count]), add_zero]
          · simp [hm]

theorem SetupInv.cliques {g : Graph} {lab : Nat → Nat} {k : Nat} (cs : List Clique) : ∀ {pre : List Clique} {st st' : Duals × Nat},
    SetupInv g lab k pre st → cs.foldlM (setupClique lab) st = some st' → SetupInv g lab k (pre ++ cs) st' := by
  induction cs with
  | nil =>
    intro pre st st' hi h
    cases Option.some.inj h
    simpa using hi
  | cons c cs ih =>
    intro pre st st' hi h
    rw [List.foldlM_cons] at h
    obtain ⟨s1, h1, h2⟩ := Option.bind_eq_some_iff.mp h
    have := ih (hi.clique h1) h2
    simpa using this

theorem setup_inv {g : Graph} {lab : Nat → Nat} {st : Duals × Nat} (h : setup g lab = some st) : SetupInv g lab g.size g.cliques st := by
  unfold setup at h
  unfold Graph.cliques
  suffices ∀ k (st : Duals × Nat), (List.range k).foldlM (fun st n =>
    (g.own n).foldlM (setupClique lab)
      (({ st.1 with height := fun n' l => if n' = n then st.1.height n' l + g.unary n l else st.1.height n' l } : Duals), st.2))
    ((⟨fun _ _ _ => 0, fun _ _ => 0⟩, 0) : Duals × Nat) = some st → SetupInv g lab k ((List.range k).flatMap g.own) st from this _ _ h
  intro k
  induction k with
  | zero =>
    intro st h
    cases Option.some.inj h
    exact ⟨rfl, fun _ _ _ _ => rfl, by simp, by simp⟩
  | succ k ih =>
    intro st h
    rw [List.range_succ, List.foldlM_append] at h
    obtain ⟨s1, h1, h2⟩ := Option.bind_eq_some_iff.mp h
    have hi := ih s1 h1
    rw [List.foldlM_cons] at h2
    obtain ⟨s2, h3, h4⟩ := Option.bind_eq_some_iff.mp h2
    cases Option.some.inj h4
    rw [List.range_succ, List.flatMap_append]
    simp only [List.flatMap_cons, List.flatMap_nil, List.append_nil]
    refine SetupInv.cliques (g.own k) ?_ h3
    refine ⟨hi.count, hi.fresh, hi.tight, ?_⟩
    intro n l
    show (if n = k then s1.1.height n l + g.unary k l else s1.1.height n l) = _
    rw [hi.heights n l]
    by_cases hn : n = k
    · subst hn
      rw [if_pos rfl, if_neg (lt_irrefl _), if_pos (by omega)]
      ring
    · rw [if_neg hn]
      rw [if_congr (show n < k ↔ n < k + 1 by omega) rfl rfl]

theorem setup_ok {g : Graph} {lab : Nat → Nat} {d : Duals} {m : Nat} (h : setup g lab = some (d, m)) :
    m = g.cliques.length ∧ Tight g d lab ∧ Consistent g d := by
  have hi := setup_inv h
  refine ⟨hi.count, fun i c hc => hi.tight i c hc, fun n hn l => ?_⟩
  rw [hi.heights n l, if_pos hn, memberships_sum _ _ (fun a b => d.dual a b l)]

/-! ## A move -/

theorem addPhi_eq (g : Graph) (alpha : Nat) (phi : Nat → Nat → Int) (d : Duals) :
    addPhi g alpha phi d = g.cliques.zipIdx.foldl (fun d ci => addRow (fun _ => alpha) ci.2 ci.1 (phi ci.2) d) d := by
  unfold addPhi
  congr 1
  funext d ci
  exact foldl_addRow (fun _ => alpha) ci.2 ci.1 (phi ci.2) _ d (fun s np _ _ => rfl)

theorem foldl_inv_mem {α β : Type} (P : β → Prop) (f : β → α → β) (l : List α) (b : β) (h0 : P b) (hs : ∀ b, ∀ a ∈ l, P b → P (f b a)) : P (l.foldl f b) := by
  induction l generalizing b with
  | nil => exact h0
  | cons a l ih =>
    exact ih _ (hs b a (List.mem_cons_self ..) h0) (fun b a' ha hb => hs b a' (List.mem_cons_of_mem _ ha) hb)

theorem addPhi_consistent {g : Graph} {d : Duals} (h : Consistent g d) (alpha : Nat) (phi : Nat → Nat → Int) : Consistent g (addPhi g alpha phi d) := by
  rw [addPhi_eq]
  exact foldl_inv_mem (Consistent g) _ _ d h (fun d ci hci hd => hd.addRow (List.mem_zipIdx_iff_getElem?.mp hci) _ _)

/-- The correction of a clique. -/
def fix (lab : Nat → Nat) (i : Nat) (c : Clique) (d : Duals) (p : Nat) : Int :=
  let cr := c.cost (c.nodes.map lab) - rowSum d i c lab
  if (p : Int) < cr % c.nodes.length then cr / c.nodes.length + 1 else cr / c.nodes.length

theorem floor_div (x k : Int) (hk : 0 < k) :
    (if x.tmod k < 0 then x.tdiv k - 1 else x.tdiv k) = x / k ∧ (if x.tmod k < 0 then x.tmod k + k else x.tmod k) = x % k := by
  have h1 := Int.mul_tdiv_add_tmod x k
  have h2 : x.tmod k < k := Int.tmod_lt_of_pos _ hk
  have h3 : -k < x.tmod k := by
    have := Int.lt_tmod_of_pos x hk
    exact this
  have key : ∀ q r : Int, k * q + r = x → 0 ≤ r → r < k → q = x / k ∧ r = x % k := by
    intro q r e h0 hr
    have : x / k = q ∧ x % k = r := (Int.ediv_emod_unique hk).mpr ⟨by linarith, h0, hr⟩
    exact ⟨this.1.symm, this.2.symm⟩
  by_cases h : x.tmod k < 0
  · rw [if_pos h, if_pos h]
    exact key _ _ (by rw [mul_sub]; omega) (by omega) (by omega)
  · rw [if_neg h, if_neg h]
    exact key _ _ h1 (by omega) h2

theorem editClique_eq (lab : Nat → Nat) (i : Nat) (c : Clique) (d : Duals) (hc : c.nodes ≠ []) :
    editClique lab i c d = addRow lab i c (fix lab i c d) d := by
  have hlen : 0 < c.nodes.length := List.length_pos_of_ne_nil hc
  have hs : c.nodes.zipIdx.foldl (fun s np => s + d.dual i np.2 (lab np.1)) 0 = rowSum d i c lab := by
    rw [foldl_add_sum (fun np : Nat × Nat => d.dual i np.2 (lab np.1))]
    unfold rowSum; ring
  unfold editClique
  dsimp only
  rw [hs]
  obtain ⟨f1, f2⟩ := floor_div (c.cost (c.nodes.map lab) - rowSum d i c lab) c.nodes.length (by omega)
  rw [f1, f2]
  apply foldl_addRow
  intro s np _ hsd
  have e : (if (np.2 : Int) < (c.cost (c.nodes.map lab) - rowSum d i c lab) % c.nodes.length then
      s.dual i np.2 (lab np.1) + (c.cost (c.nodes.map lab) - rowSum d i c lab) / c.nodes.length + 1
      else s.dual i np.2 (lab np.1) + (c.cost (c.nodes.map lab) - rowSum d i c lab) / c.nodes.length)
      = s.dual i np.2 (lab np.1) + fix lab i c d np.2 := by
    unfold fix
    dsimp only
    split <;> ring
  rw [e]
  congr 1
  funext n l
  simp only [addHeight]
  split <;> ring

theorem fix_sum (lab : Nat → Nat) (i : Nat) (c : Clique) (d : Duals) (hc : c.nodes ≠ []) :
    rowSum (addRow lab i c (fix lab i c d) d) i c lab = c.cost (c.nodes.map lab) := by
  have hlen : 0 < c.nodes.length := List.length_pos_of_ne_nil hc
  rw [rowSum_addRow]
  have := spread_sum c.nodes.length ((c.cost (c.nodes.map lab) - rowSum d i c lab) / c.nodes.length) ((c.cost (c.nodes.map lab) - rowSum d i c lab) % c.nodes.length)
    (Int.emod_nonneg _ (by omega)) (le_of_lt (Int.emod_lt_of_pos _ (by omega)))
  rw [show ((List.range c.nodes.length).map (fix lab i c d)) = ((List.range c.nodes.length).map (fun p : Nat =>
    if (p : Int) < (c.cost (c.nodes.map lab) - rowSum d i c lab) % c.nodes.length then (c.cost (c.nodes.map lab) - rowSum d i c lab) / c.nodes.length + 1
      else (c.cost (c.nodes.map lab) - rowSum d i c lab) / c.nodes.length)) from rfl, this, Int.mul_ediv_add_emod]
  ring

theorem solve_ok {g : Graph} (hw : WellFormed g) {lab : Nat → Nat} {d : Duals} (h : Consistent g d) (alpha : Nat) (lbl : Nat → Int) (phi : Nat → Nat → Int) :
    Tight g (solve g alpha lbl phi (lab, d)).2 (solve g alpha lbl phi (lab, d)).1 ∧ Consistent g (solve g alpha lbl phi (lab, d)).2 := by
  have h0 := addPhi_consistent h alpha phi
  show Tight g (g.cliques.zipIdx.foldl (fun d ci => editClique (moveLabels lab alpha lbl) ci.2 ci.1 d) (addPhi g alpha phi d)) (moveLabels lab alpha lbl) ∧ _
  show _ ∧ Consistent g (g.cliques.zipIdx.foldl (fun d ci => editClique (moveLabels lab alpha lbl) ci.2 ci.1 d) (addPhi g alpha phi d))
  generalize moveLabels lab alpha lbl = lab'
  generalize addPhi g alpha phi d = d0 at h0
  suffices ∀ (post pre : List Clique) (d : Duals), g.cliques = pre ++ post → Consistent g d →
      (∀ (i : Nat) (c : Clique), pre[i]? = some c → rowSum d i c lab' = c.cost (c.nodes.map lab')) →
      Tight g ((post.zipIdx pre.length).foldl (fun d ci => editClique lab' ci.2 ci.1 d) d) lab' ∧
      Consistent g ((post.zipIdx pre.length).foldl (fun d ci => editClique lab' ci.2 ci.1 d) d) from
    this g.cliques [] d0 rfl h0 (by simp)
  intro post
  induction post with
  | nil =>
    intro pre d he hcon ht
    rw [List.append_nil] at he
    rw [← he] at ht
    exact ⟨fun i c hc => ht i c hc, hcon⟩
  | cons c post ih =>
    intro pre d he hcon ht
    have hget : g.cliques[pre.length]? = some c := by rw [he]; simp
    have hc : c.nodes ≠ [] := (hw c (List.mem_of_getElem? hget)).1
    rw [List.zipIdx_cons, List.foldl_cons]
    have := ih (pre ++ [c]) (editClique lab' pre.length c d) (by rw [he]; simp) (by
      rw [editClique_eq lab' _ c d hc]; exact hcon.addRow hget _ _) (by
      intro i c' hic
      rw [editClique_eq lab' _ c d hc]
      rcases Nat.lt_or_ge i pre.length with hlt | hge
      · rw [rowSum_other _ _ _ _ _ _ _ _ (by omega)]
        rw [List.getElem?_append_left hlt] at hic
        exact ht i c' hic
      · rw [List.getElem?_append_right hge] at hic
        have h0 : i - pre.length = 0 := by
          by_contra hne
          rw [List.getElem?_eq_none (by simp; omega)] at hic
          simp at hic
        have hi' : i = pre.length := by omega
        rw [h0] at hic
        have : c = c' := by simpa using hic
        subst this
        rw [hi', fix_sum _ _ _ _ hc])
    rw [List.length_append, List.length_singleton] at this
    exact this

theorem runMoves_ok {g : Graph} (hw : WellFormed g) (ms : List (Nat × (Nat → Int) × (Nat → Nat → Int))) : ∀ {st : (Nat → Nat) × Duals},
    Tight g st.2 st.1 → Consistent g st.2 → Tight g (runMoves g ms st).2 (runMoves g ms st).1 ∧ Consistent g (runMoves g ms st).2 := by
  induction ms with
  | nil => intro st h1 h2; exact ⟨h1, h2⟩
  | cons m ms ih =>
    intro st h1 h2
    have := solve_ok hw (lab := st.1) h2 m.1 m.2.1 m.2.2
    exact ih this.1 this.2

/-! ## Energy -/

theorem sum_comm_list {α β : Type} (l : List α) (m : List β) (f : α → β → Int) :
    (l.map (fun a => (m.map (fun b => f a b)).sum)).sum = (m.map (fun b => (l.map (fun a => f a b)).sum)).sum := by
  induction l with
  | nil => simp
  | cons a l ih => simp only [List.map_cons, List.sum_cons, ih, sum_map_add']

theorem sum_single (k m : Nat) (hm : m < k) (f : Nat → Int) : ((List.range k).map (fun n => if m = n then f n else 0)).sum = f m := by
  have := sum_ite_range k m (fun n => if m = n then f n else 0) (fun _ => 0) hm (fun p hp => by simp [Ne.symm hp])
  rw [this]
  simp

/-- Summing over the nodes what they have in the cliques is summing over the cliques. -/
theorem sum_parts (g : Graph) (hw : WellFormed g) (F : Nat → Nat → Nat → Int) :
    ((List.range g.size).map (fun n => (g.cliques.zipIdx.map (fun ci => part ci.1 n (fun p => F n ci.2 p))).sum)).sum =
    (g.cliques.zipIdx.map (fun ci => (ci.1.nodes.zipIdx.map (fun mp => F mp.1 ci.2 mp.2)).sum)).sum := by
  rw [sum_comm_list]
  congr 1
  apply List.map_congr_left
  intro ci hci
  have hmem : ci.1 ∈ g.cliques := List.mem_of_getElem? (List.mem_zipIdx_iff_getElem?.mp hci)
  unfold part
  rw [sum_comm_list]
  congr 1
  apply List.map_congr_left
  intro mp hmp
  have : mp.1 < g.size := (hw ci.1 hmem).2 mp.1 (List.mem_of_getElem? (List.mem_zipIdx_iff_getElem?.mp hmp))
  exact sum_single g.size mp.1 this (fun n => F n ci.2 mp.2)

theorem sum_zipIdx_fst {α : Type} (l : List α) (f : α → Int) (k : Nat) : ((l.zipIdx k).map (fun ai => f ai.1)).sum = (l.map f).sum := by
  induction l generalizing k with
  | nil => rfl
  | cons a l ih => rw [List.zipIdx_cons, List.map_cons, List.sum_cons, ih, List.map_cons, List.sum_cons]

theorem heights_energy {g : Graph} (hw : WellFormed g) {lab : Nat → Nat} {d : Duals} (ht : Tight g d lab) (hc : Consistent g d) :
    ((List.range g.size).map (fun n => d.height n (lab n))).sum = energy g lab := by
  have : (List.range g.size).map (fun n => d.height n (lab n)) =
      (List.range g.size).map (fun n => g.unary n (lab n) + (g.cliques.zipIdx.map (fun ci => part ci.1 n (fun p => d.dual ci.2 p (lab n)))).sum) := by
    apply List.map_congr_left
    intro n hn
    rw [hc n (List.mem_range.mp hn), memberships_sum _ _ (fun a b => d.dual a b (lab n))]
  rw [this, sum_map_add', sum_parts g hw (fun n i p => d.dual i p (lab n)), energy]
  congr 1
  rw [← sum_zipIdx_fst g.cliques _ 0]
  congr 1
  apply List.map_congr_left
  intro ci hci
  exact ht ci.2 ci.1 (List.mem_zipIdx_iff_getElem?.mp hci)

/-! ## The objective -/

theorem map_getD_range (l : List Nat) (f : Nat → Nat) : (List.range l.length).map (fun p => f (l.getD p 0)) = l.map f := by
  apply List.ext_getElem
  · simp
  · intro p h1 h2
    simp at h1
    simp [h1]

theorem sum_zipIdx_getD (l : List Nat) (F : Nat → Nat → Int) :
    ((List.range l.length).map (fun p => F (l.getD p 0) p)).sum = (l.zipIdx.map (fun mp => F mp.1 mp.2)).sum := by
  congr 1
  apply List.ext_getElem
  · simp
  · intro p h1 h2
    simp at h1
    simp [h1]

theorem residual_spec (d : Duals) (lab : Nat → Nat) (alpha i : Nat) (c : Clique) (x : Nat → Bool) :
    residual d lab alpha i c (((List.range c.nodes.length).map (fun p => if x (c.nodes.getD p 0) then 2 ^ p else 0)).sum) =
      c.cost (c.nodes.map (moved lab alpha x)) - rowSum d i c (moved lab alpha x) := by
  obtain ⟨h1, h2⟩ := bits_spec c.nodes.length (fun p => x (c.nodes.getD p 0))
  unfold residual
  dsimp only
  rw [subtractLinear_spec _ _ _ _ h1, fusionTable_spec _ _ _ _ h1]
  congr 1
  · congr 1
    rw [← map_getD_range c.nodes (moved lab alpha x)]
    apply List.map_congr_left
    intro p hp
    rw [h2 p (List.mem_range.mp hp)]
    rfl
  · unfold rowSum
    rw [← sum_zipIdx_getD c.nodes (fun m p => d.dual i p (moved lab alpha x m))]
    congr 1
    apply List.map_congr_left
    intro p hp
    rw [h2 p (List.mem_range.mp hp)]
    unfold moved
    split <;> rfl

theorem neg_sum_map {α : Type} (l : List α) (f : α → Int) : -(l.map f).sum = (l.map (fun a => -f a)).sum := by
  induction l with
  | nil => rfl
  | cons a l ih => simp only [List.map_cons, List.sum_cons, ← ih]; ring

theorem unaryTerm_spec {g : Graph} {d : Duals} {lut : Nat → List (Nat × Nat)} (hr : Registers g lut) (lab : Nat → Nat) (alpha : Nat) {n : Nat} (hn : n < g.size) :
    -unaryTerm g d lut lab alpha n = g.unary n alpha - g.unary n (lab n) +
      (g.cliques.zipIdx.map (fun ci => part ci.1 n (fun p => d.dual ci.2 p alpha - d.dual ci.2 p (lab n)))).sum := by
  unfold unaryTerm
  rw [foldl_add_sum (fun p : Nat × Nat => d.dual p.1 p.2 (lab n) - d.dual p.1 p.2 alpha), ((hr n hn).map _).sum_eq,
    memberships_sum _ _ (fun a b => d.dual a b (lab n) - d.dual a b alpha), neg_add, neg_neg]
  congr 1
  · by_cases h : lab n ≠ alpha
    · rw [if_pos h]
    · rw [if_neg h, not_not.mp h]; ring
  · rw [neg_sum_map]
    congr 1
    apply List.map_congr_left
    intro ci _
    unfold part
    rw [neg_sum_map]
    congr 1
    apply List.map_congr_left
    intro mp _
    split <;> ring

theorem sum_map_sub' {α : Type} (l : List α) (f g : α → Int) : (l.map f).sum - (l.map g).sum = (l.map (fun a => f a - g a)).sum := by
  induction l with
  | nil => rfl
  | cons a l ih => simp only [List.map_cons, List.sum_cons, ← ih]; ring

theorem objective_energy {g : Graph} (hw : WellFormed g) {lut : Nat → List (Nat × Nat)} (hr : Registers g lut) (d : Duals) (lab : Nat → Nat) (alpha : Nat) (x : Nat → Bool) :
    objective g d lut lab alpha x - objective g d lut lab alpha (fun _ => false) = energy g (moved lab alpha x) - energy g lab := by
  have h0 : ∀ (i : Nat) (c : Clique), residual d lab alpha i c (((List.range c.nodes.length).map (fun p => if false = true then 2 ^ p else 0)).sum) =
      c.cost (c.nodes.map (moved lab alpha (fun _ => false))) - rowSum d i c (moved lab alpha (fun _ => false)) :=
    fun i c => residual_spec d lab alpha i c (fun _ => false)
  unfold objective
  simp only [residual_spec, h0]
  have hm0 : moved lab alpha (fun _ => false) = lab := by funext n; simp [moved]
  rw [hm0]
  rw [show ∀ a b c e : Int, a + b - (c + e) = (a - c) + (b - e) by intros; ring, sum_map_sub', sum_map_sub']
  have hU : (List.range g.size).map (fun n => (if unaryTerm g d lut lab alpha n > 0 then (if x n = true then (0 : Int) else unaryTerm g d lut lab alpha n) else
        (if x n = true then -unaryTerm g d lut lab alpha n else 0)) -
      (if unaryTerm g d lut lab alpha n > 0 then (if false = true then (0 : Int) else unaryTerm g d lut lab alpha n) else
        (if false = true then -unaryTerm g d lut lab alpha n else 0))) =
      (List.range g.size).map (fun n => (g.unary n (moved lab alpha x n) - g.unary n (lab n)) +
        (g.cliques.zipIdx.map (fun ci => part ci.1 n (fun p => d.dual ci.2 p (moved lab alpha x n) - d.dual ci.2 p (lab n)))).sum) := by
    apply List.map_congr_left
    intro n hn
    have hs := unaryTerm_spec (d := d) hr lab alpha (List.mem_range.mp hn)
    by_cases hx : x n = true
    · have : moved lab alpha x n = alpha := by simp [moved, hx]
      rw [this, ← hs, if_pos hx, if_pos hx]
      split <;> simp
    · have : moved lab alpha x n = lab n := by simp [moved, hx]
      rw [this, if_neg hx, if_neg hx]
      rw [sum_map_zero]
      · simp
      · intro ci _
        unfold part
        apply sum_map_zero
        intro mp _
        simp
  rw [hU, sum_map_add', sum_parts g hw (fun n i p => d.dual i p (moved lab alpha x n) - d.dual i p (lab n)), add_assoc, ← sum_map_add']
  have hC : g.cliques.zipIdx.map (fun ci => (ci.1.nodes.zipIdx.map (fun mp => d.dual ci.2 mp.2 (moved lab alpha x mp.1) - d.dual ci.2 mp.2 (lab mp.1))).sum +
      (ci.1.cost (ci.1.nodes.map (moved lab alpha x)) - rowSum d ci.2 ci.1 (moved lab alpha x) - (ci.1.cost (ci.1.nodes.map lab) - rowSum d ci.2 ci.1 lab))) =
      g.cliques.zipIdx.map (fun ci => (fun c : Clique => c.cost (c.nodes.map (moved lab alpha x)) - c.cost (c.nodes.map lab)) ci.1) := by
    apply List.map_congr_left
    intro ci _
    rw [← sum_map_sub']
    unfold rowSum
    ring
  rw [hC, sum_zipIdx_fst g.cliques (fun c : Clique => c.cost (c.nodes.map (moved lab alpha x)) - c.cost (c.nodes.map lab)) 0, ← sum_map_sub', ← sum_map_sub']
  unfold energy
  ring

/-! ## The table of memberships -/

/-- Pushing the members of a clique. -/
theorem push_fold (i : Nat) (l : List (Nat × Nat)) (lut : Nat → List (Nat × Nat)) (n : Nat) :
    (l.foldl (fun lut np => push lut np.1 (i, np.2)) lut) n = lut n ++ (l.filter (fun mp => mp.1 = n)).map (fun mp => (i, mp.2)) := by
  induction l generalizing lut with
  | nil => simp
  | cons a l ih =>
    rw [List.foldl_cons, ih]
    by_cases h : a.1 = n
    · simp [push, h]
    · simp [push, h, Ne.symm h]

theorem memberLut_eq (r : Resegm) (order : List Nat) (n : Nat) :
    memberLut r order n = memberships ((List.range r.size).flatMap r.pairw) n ++
      ((order.filterMap r.temp).zipIdx ((List.range r.size).flatMap r.pairw).length).flatMap
        (fun ci => (ci.1.nodes.reverse.zipIdx.filter (fun mp => mp.1 = n)).map (fun mp => (ci.2, mp.2))) := by
  have key : ∀ (f : Clique → List Nat) (cs : List Clique) (st : (Nat → List (Nat × Nat)) × Nat),
      (cs.foldl (fun (st : (Nat → List (Nat × Nat)) × Nat) c => ((f c).zipIdx.foldl (fun lut np => push lut np.1 (st.2, np.2)) st.1, st.2 + 1)) st).1 n
        = st.1 n ++ (cs.zipIdx st.2).flatMap (fun ci => ((f ci.1).zipIdx.filter (fun mp => mp.1 = n)).map (fun mp => (ci.2, mp.2))) ∧
      (cs.foldl (fun (st : (Nat → List (Nat × Nat)) × Nat) c => ((f c).zipIdx.foldl (fun lut np => push lut np.1 (st.2, np.2)) st.1, st.2 + 1)) st).2 = st.2 + cs.length := by
    intro f cs
    induction cs with
    | nil => intro st; simp
    | cons c cs ih =>
      intro st
      obtain ⟨h1, h2⟩ := ih ((f c).zipIdx.foldl (fun lut np => push lut np.1 (st.2, np.2)) st.1, st.2 + 1)
      rw [List.foldl_cons]
      refine ⟨?_, ?_⟩
      · rw [h1]
        simp only
        rw [push_fold, List.zipIdx_cons, List.flatMap_cons, List.append_assoc]
      · rw [h2, List.length_cons]; simp only; omega
  unfold memberLut
  rw [(key (fun c => c.nodes.reverse) _ _).1, (key (fun c => c.nodes) _ _).1, (key (fun c => c.nodes) _ _).2]
  simp [memberships]

end Litiv.SegmDual
