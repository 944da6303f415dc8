import Mathlib.Algebra.BigOperators.Intervals
import Mathlib.Tactic.Abel
import Verif.Lemmas.SegmAssoc
import Verif.Props.Reducer

namespace Litiv.SegmAssoc
open Spec

/-! ## total association cost -/

theorem mem_costCols (c : Cfg) (a : Int) (hd : c.dmin < c.dmax) :
    a ∈ costCols c ↔ (if c.right then (c.dmin : Int) else -c.dmax) ≤ a ∧
      a < (if c.right then (c.cols : Int) + c.dmax else c.cols - c.dmin) := by
  unfold costCols
  dsimp only
  rw [List.mem_map]
  constructor
  · rintro ⟨i, hi, rfl⟩
    rw [List.mem_range] at hi
    omega
  · rintro ⟨h1, h2⟩
    refine ⟨(a - (if c.right then (c.dmin : Int) else -c.dmax)).toNat, ?_, ?_⟩
    · rw [List.mem_range]; omega
    · omega

theorem costCols_nodup (c : Cfg) : (costCols c).Nodup := by
  unfold costCols
  dsimp only
  apply List.nodup_range.map
  intro i j h
  simp only [add_right_inj, Nat.cast_inj] at h
  exact h

theorem costCols_range (c : Cfg) (a : Int) (hd : c.dmin < c.dmax) (h : a ∈ costCols c) :
    0 ≤ a + c.mapOff ∧ a + c.mapOff < c.mapCols := by
  have := (mem_costCols c a hd).1 h
  unfold Cfg.mapOff Cfg.mapCols
  cases hc : c.right <;> rw [hc] at this <;> simp at this ⊢ <;> omega

theorem target_costCols (c : Cfg) (k l : Nat) (hk : k < c.cols) (hl : l < c.nReal) (hd : c.dmin < c.dmax) :
    target c k l ∈ costCols c := by
  rw [mem_costCols c _ hd]
  unfold target
  unfold Cfg.nReal at hl
  cases hc : c.right <;> simp <;> omega

theorem foldlM_sum {α : Type} (f : α → Option Int) (g : α → Int) (l : List α) (h : ∀ x ∈ l, f x = some (g x)) :
    ∀ e : Int, l.foldlM (fun e x => do let v ← f x; some (e + v)) e = some (e + (l.map g).sum) := by
  induction l with
  | nil => intro e; simp
  | cons x l ih =>
    intro e
    rw [List.foldlM_cons, h x (by simp)]
    simp only [Option.bind_eq_bind, Option.bind_some]
    have := ih (fun y hy => h y (by simp [hy])) (e + g x)
    simp only [Option.bind_eq_bind] at this
    rw [this, List.map_cons, List.sum_cons, add_assoc]

/-- the association cost of a labeling -/
def assocSum (c : Cfg) (lab : Nat → Nat → Nat) : Int :=
  ∑ r ∈ Finset.range c.rows, ∑ a ∈ (costCols c).toFinset, sumCost (matched c lab r a).card

theorem totalAssoc_spec (c : Cfg) (hv : Valid c) (h200 : c.nReal < 200) (s : State) (hi : Inv c s s.lab) :
    totalAssoc c s = some (assocSum c s.lab) := by
  unfold totalAssoc
  have row : ∀ r ∈ List.range c.rows, ∀ e : Int, ((costCols c).foldlM (fun e a => do
      let n ← getCount c s r a
      let v ← lut sumCost n
      some (e + v)) e) = some (e + ((costCols c).map (fun a => sumCost (matched c s.lab r a).card)).sum) := by
    intro r hr e
    have := foldlM_sum (fun a => (getCount c s r a).bind (lut sumCost)) (fun a => sumCost (matched c s.lab r a).card)
      (costCols c) (by
        intro a ha
        obtain ⟨h0, h1⟩ := costCols_range c a hv.1 ha
        rw [hi.exact c s r (List.mem_range.1 hr) a h0 h1]
        have := matched_card c s.lab r a
        show lut sumCost _ = _
        unfold lut
        rw [if_pos (by omega)]) e
    simp only [Option.bind_eq_bind, Option.bind_assoc] at this ⊢
    exact this
  have all : ∀ (l : List Nat), (∀ r ∈ l, r ∈ List.range c.rows) → ∀ e : Int,
      l.foldlM (fun e r => (costCols c).foldlM (fun e a => do
        let n ← getCount c s r a
        let v ← lut sumCost n
        some (e + v)) e) e =
      some (e + (l.map (fun r => ((costCols c).map (fun a => sumCost (matched c s.lab r a).card)).sum)).sum) := by
    intro l
    induction l with
    | nil => intro _ e; simp
    | cons r l ih =>
      intro hl e
      rw [List.foldlM_cons, row r (hl r (by simp)) e]
      show l.foldlM _ _ = _
      rw [ih (fun r hr => hl r (by simp [hr])), List.map_cons, List.sum_cons, add_assoc]
  rw [all _ (fun r hr => hr), zero_add]
  unfold assocSum
  congr 1
  have e : ∀ r, (∑ a ∈ (costCols c).toFinset, sumCost (matched c s.lab r a).card) =
      ((costCols c).map (fun a => sumCost (matched c s.lab r a).card)).sum :=
    fun r => List.sum_toFinset _ (costCols_nodup c)
  simp only [e]
  rw [← List.sum_toFinset _ List.nodup_range, List.toFinset_range]

/-! ## energy -/

theorem energy_spec (c : Cfg) (hv : Valid c) (h200 : c.nReal < 200) (m : Costs) (s : State) (hi : Inv c s s.lab) :
    energy c m s = some (assocSum c s.lab + ((nodes c).map (fun n => m.unary n.1 n.2 (s.lab n.1 n.2))).sum +
      ((nodes c).map (fun n => ((cliques c n.1 n.2).map (fun q =>
        m.pair n.1 n.2 q.1 [s.lab n.1 n.2, s.lab q.2.1 q.2.2])).sum)).sum) := by
  unfold energy
  rw [totalAssoc_spec c hv h200 s hi]
  rfl

/-! ## move costs -/

/-- the cost of removing the present association of a pixel -/
def remPart (c : Cfg) (lab : Nat → Nat → Nat) (n : Nat × Nat) : Int :=
  if lab n.1 n.2 < c.nReal then remCost (matched c lab n.1 (target c n.2 (lab n.1 n.2))).card else 0

/-- the cost of adding an association -/
def addPart (c : Cfg) (lab : Nat → Nat → Nat) (alpha : Nat) (n : Nat × Nat) : Int :=
  if alpha < c.nReal then addCost (matched c lab n.1 (target c n.2 alpha)).card else 0

/-- the cost of one node's move -/
def nodeCost (c : Cfg) (m : Costs) (lab : Nat → Nat → Nat) (alpha : Nat) (n : Nat × Nat) : Int :=
  if lab n.1 n.2 ≠ alpha then
    remPart c lab n + addPart c lab alpha n + m.unary n.1 n.2 alpha - m.unary n.1 n.2 (lab n.1 n.2)
  else 0

theorem moveCost_spec (c : Cfg) (hv : Valid c) (h200 : c.nReal < 200) (m : Costs) (s : State) (hi : Inv c s s.lab)
    (alpha : Nat) (n : Nat × Nat) (hn : n ∈ nodes c) :
    moveCost c m.unary s n.1 n.2 alpha = some (nodeCost c m s.lab alpha n) := by
  obtain ⟨r, k⟩ := n
  obtain ⟨hr, hk, hroi⟩ := (mem_nodes c r k).1 hn
  have cnt : ∀ l, l < c.nReal → getCount c s r (target c k l) = some (matched c s.lab r (target c k l)).card := by
    intro l hl
    obtain ⟨h0, h1⟩ := target_range c k l hk hl hv.1
    exact hi.exact c s r hr _ h0 h1
  unfold moveCost nodeCost
  by_cases h : s.lab r k ≠ alpha
  · rw [if_pos h, if_pos h]
    have h1 : calcRem c s r k (s.lab r k) = some (remPart c s.lab (r, k)) := by
      unfold calcRem remPart
      by_cases hl : s.lab r k < c.nReal
      · rw [if_pos hl, if_pos hl, offsetCol_eq c k _ hl]
        simp only [Option.bind_eq_bind, Option.bind_some]
        rw [cnt _ hl]
        simp only [Option.bind_some]
        have hpos : 0 < (matched c s.lab r (target c k (s.lab r k))).card := by
          rw [Finset.card_pos]
          exact ⟨k, (mem_matched _ _ _ _ _).2 ⟨hk, hroi, hl, rfl⟩⟩
        rw [if_pos hpos]
        have := matched_card c s.lab r (target c k (s.lab r k))
        unfold lut
        rw [if_pos (by omega)]
      · rw [if_neg hl, if_neg hl]
    have h2 : calcAdd c s r k alpha = some (addPart c s.lab alpha (r, k)) := by
      unfold calcAdd addPart
      by_cases hl : alpha < c.nReal
      · rw [if_pos hl, if_pos hl, offsetCol_eq c k _ hl]
        simp only [Option.bind_eq_bind, Option.bind_some]
        rw [cnt _ hl]
        simp only [Option.bind_some]
        have := matched_card c s.lab r (target c k alpha)
        unfold lut
        rw [if_pos (by omega)]
      · rw [if_neg hl, if_neg hl]
    rw [h1, h2]
    rfl
  · rw [if_neg h, if_neg h]

theorem mapM_some {α β : Type} (f : α → Option β) (g : α → β) (l : List α) (h : ∀ x ∈ l, f x = some (g x)) :
    l.mapM f = some (l.map g) := by
  induction l with
  | nil => rfl
  | cons x l ih =>
    rw [List.mapM_cons, h x (by simp), ih (fun y hy => h y (by simp [hy]))]
    rfl

/-- terms of one node -/
def nodeTerms (c : Cfg) (m : Costs) (lab : Nat → Nat → Nat) (alpha : Nat) (n : Nat × Nat) : List (Int × List Nat) :=
  (nodeCost c m lab alpha n, [(nodes c).idxOf n]) :: (cliques c n.1 n.2).flatMap (fun (q : Nat × Nat × Nat) =>
    Reducer.terms 2 (m.pair n.1 n.2 q.1) alpha
      (fun d => if d = 0 then lab n.1 n.2 else lab q.2.1 q.2.2)
      (fun d => if d = 0 then (nodes c).idxOf n else (nodes c).idxOf (q.2.1, q.2.2)))

theorem moveTerms_spec (c : Cfg) (hv : Valid c) (h200 : c.nReal < 200) (m : Costs) (s : State) (hi : Inv c s s.lab)
    (alpha : Nat) : moveTerms c m s alpha = some (((nodes c).map (nodeTerms c m s.lab alpha)).flatten) := by
  unfold moveTerms
  rw [mapM_some _ (nodeTerms c m s.lab alpha)]
  · rfl
  · intro n hn
    rw [moveCost_spec c hv h200 m s hi alpha n hn]
    rfl

theorem value_append (a b : List (Int × List Nat)) (x : Nat → Bool) :
    Reducer.Spec.value (a ++ b) x = Reducer.Spec.value a x + Reducer.Spec.value b x := by
  unfold Reducer.Spec.value
  rw [List.map_append, List.sum_append]

theorem value_flatten (l : List (List (Int × List Nat))) (x : Nat → Bool) :
    Reducer.Spec.value l.flatten x = (l.map (fun t => Reducer.Spec.value t x)).sum := by
  induction l with
  | nil => rfl
  | cons a l ih => rw [List.flatten_cons, value_append, ih, List.map_cons, List.sum_cons]

/-- labels after the move given by a 0/1 point -/
def at01 (c : Cfg) (lab : Nat → Nat → Nat) (alpha : Nat) (x : Nat → Bool) : Nat → Nat → Nat :=
  fun r k => if x ((nodes c).idxOf (r, k)) then alpha else lab r k

theorem nodeTerms_value (c : Cfg) (m : Costs) (lab : Nat → Nat → Nat) (alpha : Nat) (n : Nat × Nat) (x : Nat → Bool) :
    Reducer.Spec.value (nodeTerms c m lab alpha n) x =
      (if x ((nodes c).idxOf n) then nodeCost c m lab alpha n else 0) +
      ((cliques c n.1 n.2).map (fun q =>
        m.pair n.1 n.2 q.1 [at01 c lab alpha x n.1 n.2, at01 c lab alpha x q.2.1 q.2.2] -
        m.pair n.1 n.2 q.1 [lab n.1 n.2, lab q.2.1 q.2.2])).sum := by
  unfold nodeTerms
  rw [← List.singleton_append, value_append]
  congr 1
  · unfold Reducer.Spec.value
    simp
  · rw [List.flatMap_def, value_flatten, List.map_map]
    congr 1
    apply List.map_congr_left
    intro q _
    show Reducer.Spec.value (Reducer.terms 2 _ _ _ _) x = _
    rw [Reducer.terms_value 2 (by norm_num)]
    rfl

/-! ## the move bound -/

/-- ROI pixels as a set -/
def nodeSet (c : Cfg) : Finset (Nat × Nat) := (nodes c).toFinset

theorem mem_nodeSet (c : Cfg) (n : Nat × Nat) : n ∈ nodeSet c ↔ n.1 < c.rows ∧ n.2 < c.cols ∧ c.roi n.1 n.2 = true := by
  unfold nodeSet
  rw [List.mem_toFinset]
  exact mem_nodes c n.1 n.2

theorem nodes_sum (c : Cfg) (f : Nat × Nat → Int) : ((nodes c).map f).sum = ∑ n ∈ nodeSet c, f n :=
  (List.sum_toFinset f (nodes_nodup c)).symm

/-- pixels matched with a position of the other image -/
def hits (c : Cfg) (lab : Nat → Nat → Nat) (p : Nat × Int) : Finset (Nat × Nat) :=
  (nodeSet c).filter (fun n => lab n.1 n.2 < c.nReal ∧ (n.1, target c n.2 (lab n.1 n.2)) = p)

theorem hits_card (c : Cfg) (lab : Nat → Nat → Nat) (r : Nat) (a : Int) (hr : r < c.rows) :
    (matched c lab r a).card = (hits c lab (r, a)).card := by
  have e : hits c lab (r, a) = (matched c lab r a).map ⟨fun k => (r, k), fun _ _ h => (Prod.mk.inj h).2⟩ := by
    ext ⟨r', k⟩
    unfold hits
    simp only [Finset.mem_filter, mem_nodeSet, Finset.mem_map, mem_matched, Prod.mk.injEq]
    constructor
    · rintro ⟨⟨h1, h2, h3⟩, h4, rfl, h6⟩
      exact ⟨k, ⟨h2, h3, h4, h6⟩, rfl⟩
    · rintro ⟨k', ⟨h1, h2, h3, h4⟩, he⟩
      cases he
      exact ⟨⟨hr, h1, h2⟩, h3, rfl, h4⟩
  rw [e, Finset.card_map]

/-- all positions -/
def spots (c : Cfg) : Finset (Nat × Int) := Finset.range c.rows ×ˢ (costCols c).toFinset

theorem assocSum_spots (c : Cfg) (lab : Nat → Nat → Nat) :
    assocSum c lab = ∑ p ∈ spots c, sumCost (hits c lab p).card := by
  unfold assocSum spots
  rw [Finset.sum_product]
  apply Finset.sum_congr rfl
  intro r hr
  apply Finset.sum_congr rfl
  intro a _
  rw [hits_card c lab r a (Finset.mem_range.1 hr)]

theorem spot_mem (c : Cfg) (hd : c.dmin < c.dmax) (n : Nat × Nat) (hn : n ∈ nodeSet c) (l : Nat) (hl : l < c.nReal) :
    (n.1, target c n.2 l) ∈ spots c := by
  obtain ⟨h1, h2, _⟩ := (mem_nodeSet c n).1 hn
  unfold spots
  rw [Finset.mem_product, Finset.mem_range, List.mem_toFinset]
  exact ⟨h1, target_costCols c _ l h2 hl hd⟩

theorem part_sum (c : Cfg) (hd : c.dmin < c.dmax) (S : Finset (Nat × Nat)) (hS : S ⊆ nodeSet c) (l : Nat × Nat → Nat)
    (f : Nat × Int → Int) :
    (∑ n ∈ S, if l n < c.nReal then f (n.1, target c n.2 (l n)) else 0) =
      ∑ p ∈ spots c, ((S.filter (fun n => l n < c.nReal ∧ (n.1, target c n.2 (l n)) = p)).card : Int) * f p := by
  rw [← Finset.sum_filter]
  rw [← Finset.sum_fiberwise_of_maps_to (s := S.filter (fun n => l n < c.nReal)) (t := spots c)
    (g := fun n => (n.1, target c n.2 (l n)))]
  · apply Finset.sum_congr rfl
    intro p _
    rw [Finset.filter_filter]
    rw [Finset.sum_congr rfl (g := fun _ => f p)]
    · rw [Finset.sum_const, nsmul_eq_mul]
    · intro n hn
      rw [(Finset.mem_filter.1 hn).2.2]
  · intro n hn
    obtain ⟨h1, h2⟩ := Finset.mem_filter.1 hn
    exact spot_mem c hd n (hS h1) _ h2

theorem assoc_bound (c : Cfg) (hv : Valid c) (lab lab' : Nat → Nat → Nat) (alpha : Nat)
    (hlab : ∀ n ∈ nodeSet c, lab' n.1 n.2 = lab n.1 n.2 ∨ lab' n.1 n.2 = alpha) :
    assocSum c lab' - assocSum c lab ≤
      ∑ n ∈ (nodeSet c).filter (fun n => lab' n.1 n.2 ≠ lab n.1 n.2), (remPart c lab n + addPart c lab alpha n) := by
  set S := (nodeSet c).filter (fun n => lab' n.1 n.2 ≠ lab n.1 n.2) with hS
  have hsub : S ⊆ nodeSet c := Finset.filter_subset _ _
  rw [Finset.sum_add_distrib]
  have e1 : ∑ n ∈ S, remPart c lab n =
      ∑ p ∈ spots c, ((S.filter (fun n => lab n.1 n.2 < c.nReal ∧ (n.1, target c n.2 (lab n.1 n.2)) = p)).card : Int) *
        remCost (hits c lab p).card := by
    rw [← part_sum c hv.1 S hsub (fun n => lab n.1 n.2) (fun p => remCost (hits c lab p).card)]
    apply Finset.sum_congr rfl
    intro n hn
    unfold remPart
    rw [hits_card c lab n.1 _ ((mem_nodeSet c n).1 (hsub hn)).1]
  have e2 : ∑ n ∈ S, addPart c lab alpha n =
      ∑ p ∈ spots c, ((S.filter (fun n => alpha < c.nReal ∧ (n.1, target c n.2 alpha) = p)).card : Int) *
        addCost (hits c lab p).card := by
    rw [← part_sum c hv.1 S hsub (fun _ => alpha) (fun p => addCost (hits c lab p).card)]
    apply Finset.sum_congr rfl
    intro n hn
    unfold addPart
    rw [hits_card c lab n.1 _ ((mem_nodeSet c n).1 (hsub hn)).1]
  rw [e1, e2, ← Finset.sum_add_distrib, assocSum_spots, assocSum_spots, ← Finset.sum_sub_distrib]
  apply Finset.sum_le_sum
  intro p hp
  set K := S.filter (fun n => lab n.1 n.2 < c.nReal ∧ (n.1, target c n.2 (lab n.1 n.2)) = p) with hK
  set G := S.filter (fun n => alpha < c.nReal ∧ (n.1, target c n.2 alpha) = p) with hG
  have hKle : K.card ≤ (hits c lab p).card := by
    apply Finset.card_le_card
    intro n hn
    obtain ⟨h1, h2⟩ := Finset.mem_filter.1 hn
    exact Finset.mem_filter.2 ⟨hsub h1, h2⟩
  have hG1 : G.card ≤ 1 := by
    rw [Finset.card_le_one]
    intro n hn n' hn'
    have h1 := (Finset.mem_filter.1 hn).2.2
    have h2 := (Finset.mem_filter.1 hn').2.2
    have h3 := h1.trans h2.symm
    rw [Prod.mk.injEq] at h3
    exact Prod.ext h3.1 (target_inj c _ _ alpha h3.2)
  have hbal : (hits c lab' p).card + K.card = (hits c lab p).card + G.card := by
    rw [hK, hG, hS, Finset.filter_filter, Finset.filter_filter]
    unfold hits
    simp only [Finset.card_filter]
    rw [← Finset.sum_add_distrib, ← Finset.sum_add_distrib]
    apply Finset.sum_congr rfl
    intro n hn
    by_cases hne : lab' n.1 n.2 = lab n.1 n.2
    · simp [hne]
    · have ha := (hlab n hn).resolve_left hne
      rw [ha] at hne ⊢
      simp only [ne_eq, hne, not_false_eq_true, true_and]
      omega
  have hn : (hits c lab p).card < 1000 := by
    have h1 := (Finset.mem_product.1 hp).1
    have h2 := hits_card c lab p.1 p.2 (Finset.mem_range.1 h1)
    have h3 := matched_card c lab p.1 p.2
    have h4 := hv.2
    have e : (hits c lab p).card = (hits c lab (p.1, p.2)).card := rfl
    omega
  have := move_bound (hits c lab p).card K.card G.card hKle hG1 hn
  have e3 : (hits c lab' p).card = (hits c lab p).card - K.card + G.card := by omega
  rw [e3]
  exact this

theorem sum_map_diff {α : Type} (l : List α) (f g : α → Int) :
    (l.map (fun q => f q - g q)).sum = (l.map f).sum - (l.map g).sum := by
  induction l with
  | nil => rfl
  | cons a l ih => simp only [List.map_cons, List.sum_cons, ih]; ring

/-- the terms of a move bound the change of the energy -/
theorem terms_bound (c : Cfg) (hv : Valid c) (m : Costs) (lab lab' : Nat → Nat → Nat) (alpha : Nat) (x : Nat → Bool)
    (hlab : ∀ r k, (r, k) ∈ nodes c → lab' r k = at01 c lab alpha x r k) :
    (assocSum c lab' + ((nodes c).map (fun n => m.unary n.1 n.2 (lab' n.1 n.2))).sum +
      ((nodes c).map (fun n => ((cliques c n.1 n.2).map (fun q =>
        m.pair n.1 n.2 q.1 [lab' n.1 n.2, lab' q.2.1 q.2.2])).sum)).sum) -
    (assocSum c lab + ((nodes c).map (fun n => m.unary n.1 n.2 (lab n.1 n.2))).sum +
      ((nodes c).map (fun n => ((cliques c n.1 n.2).map (fun q =>
        m.pair n.1 n.2 q.1 [lab n.1 n.2, lab q.2.1 q.2.2])).sum)).sum) ≤
    Reducer.Spec.value (((nodes c).map (nodeTerms c m lab alpha)).flatten) x := by
  have hb := assoc_bound c hv lab lab' alpha (by
    rintro ⟨r, k⟩ hn
    have hm : (r, k) ∈ nodes c := List.mem_toFinset.1 hn
    dsimp only
    rw [hlab r k hm]
    unfold at01
    split
    · right; rfl
    · left; rfl)
  rw [value_flatten, List.map_map]
  have e : ((nodes c).map ((fun t => Reducer.Spec.value t x) ∘ nodeTerms c m lab alpha)).sum =
      ∑ n ∈ nodeSet c, ((if x ((nodes c).idxOf n) then nodeCost c m lab alpha n else 0) +
        (((cliques c n.1 n.2).map (fun q => m.pair n.1 n.2 q.1 [lab' n.1 n.2, lab' q.2.1 q.2.2])).sum -
        ((cliques c n.1 n.2).map (fun q => m.pair n.1 n.2 q.1 [lab n.1 n.2, lab q.2.1 q.2.2])).sum)) := by
    rw [nodes_sum]
    apply Finset.sum_congr rfl
    rintro ⟨r, k⟩ hn
    have hm : (r, k) ∈ nodes c := List.mem_toFinset.1 hn
    obtain ⟨hr, hk, hroi⟩ := (mem_nodes c r k).1 hm
    show Reducer.Spec.value _ x = _
    rw [nodeTerms_value]
    congr 1
    rw [← sum_map_diff]
    congr 1
    apply List.map_congr_left
    intro q hq
    have hq' : (q.2.1, q.2.2) ∈ nodes c := by
      unfold cliques at hq
      rw [List.mem_append] at hq
      rcases hq with hq | hq
      · split at hq
        · rename_i h
          simp only [List.mem_singleton] at hq
          subst hq
          exact (mem_nodes c _ _).2 ⟨h.1, hk, h.2⟩
        · simp at hq
      · split at hq
        · rename_i h
          simp only [List.mem_singleton] at hq
          subst hq
          exact (mem_nodes c _ _).2 ⟨hr, h.1, h.2⟩
        · simp at hq
    rw [hlab r k hm, hlab _ _ hq']
  rw [e, Finset.sum_add_distrib, Finset.sum_sub_distrib, nodes_sum, nodes_sum, nodes_sum, nodes_sum]
  have e2 : (∑ n ∈ nodeSet c, if x ((nodes c).idxOf n) then nodeCost c m lab alpha n else 0) =
      ∑ n ∈ (nodeSet c).filter (fun n => lab' n.1 n.2 ≠ lab n.1 n.2), (remPart c lab n + addPart c lab alpha n) +
      (∑ n ∈ nodeSet c, m.unary n.1 n.2 (lab' n.1 n.2) - ∑ n ∈ nodeSet c, m.unary n.1 n.2 (lab n.1 n.2)) := by
    rw [Finset.sum_filter, ← Finset.sum_sub_distrib, ← Finset.sum_add_distrib]
    apply Finset.sum_congr rfl
    rintro ⟨r, k⟩ hn
    have hm : (r, k) ∈ nodes c := List.mem_toFinset.1 hn
    dsimp only
    rw [hlab r k hm]
    unfold at01 nodeCost
    dsimp only
    by_cases hx : x ((nodes c).idxOf (r, k)) = true
    · rw [if_pos hx]
      simp only [hx, if_true]
      by_cases ha : lab r k ≠ alpha
      · rw [if_pos ha, if_pos (Ne.symm ha)]; ring
      · rw [not_not] at ha
        rw [if_neg (not_not.2 ha), if_neg (not_not.2 ha.symm), ha]; ring
    · rw [if_neg hx]
      simp [hx]
  rw [e2]
  linarith

theorem assocSum_spec (c : Cfg) (hd : c.dmin < c.dmax) (lab : Nat → Nat → Nat) : assocSum c lab =
    ∑ r ∈ Finset.range c.rows, ∑ a ∈ Finset.Ico (-c.dmax : Int) (c.cols + c.dmax), sumCost (matched c lab r a).card := by
  unfold assocSum
  apply Finset.sum_congr rfl
  intro r _
  apply Finset.sum_subset
  · intro a ha
    have := (mem_costCols c a hd).1 (List.mem_toFinset.1 ha)
    rw [Finset.mem_Ico]
    cases hc : c.right <;> rw [hc] at this <;> simp at this <;> omega
  · intro a _ ha
    have : matched c lab r a = ∅ := by
      rw [Finset.eq_empty_iff_forall_notMem]
      intro k hk
      obtain ⟨h1, _, h3, h4⟩ := (mem_matched _ _ _ _ _).1 hk
      apply ha
      rw [List.mem_toFinset, ← h4]
      exact target_costCols c k _ h1 h3 hd
    rw [this]
    rfl

theorem energy_form (c : Cfg) (hd : c.dmin < c.dmax) (m : Costs) (lab : Nat → Nat → Nat) :
    assocSum c lab + ((nodes c).map (fun n => m.unary n.1 n.2 (lab n.1 n.2))).sum +
      ((nodes c).map (fun n => ((cliques c n.1 n.2).map (fun q =>
        m.pair n.1 n.2 q.1 [lab n.1 n.2, lab q.2.1 q.2.2])).sum)).sum = Energy c m lab := by
  unfold Energy
  rw [assocSum_spec c hd, add_assoc, nodes_sum, nodes_sum, ← Finset.sum_add_distrib]
  congr 1
  have e : nodeSet c = (Finset.range c.rows ×ˢ Finset.range c.cols).filter (fun n => c.roi n.1 n.2 = true) := by
    ext n
    rw [mem_nodeSet, Finset.mem_filter, Finset.mem_product, Finset.mem_range, Finset.mem_range, and_assoc]
  rw [e]
  apply Finset.sum_congr rfl
  intro n _
  congr 1
  unfold cliques
  rw [List.map_append, List.sum_append]
  congr 1
  · split <;> simp
  · split <;> simp

end Litiv.SegmAssoc
