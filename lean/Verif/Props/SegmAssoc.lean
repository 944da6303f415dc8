import Verif.Lemmas.SegmEnergy

/-!
# Properties of the stereo associations and fusion moves of the segmentation matcher
-/

namespace Litiv.SegmAssoc
open Spec

/-! ## the run invariant -/

theorem run_inv (c : Cfg) (hv : Valid c) (s : State) (h : Run c s) : Inv c s s.lab := by
  induction h with
  | start unary warped s _ hr =>
    obtain ⟨s0, h1, _, h3⟩ := reset_spec c hv unary warped
    rw [h1] at hr
    cases Option.some.inj hr
    exact h3
  | move m s s' alpha lbl ts n _ _ _ _ ha ih =>
    obtain ⟨s0, n0, h1, _, h3⟩ := apply_spec c hv alpha lbl s ih
    rw [h1] at ha
    cases Option.some.inj ha
    exact h3

/-- C140: after the initialization and any number of fusion moves, whatever the costs and the answers of the minimizer,
the number of associations kept for every column of the other image is the number of ROI pixels matched with it, and
every one of them is recorded under its label. -/
theorem associations_exact (c : Cfg) (hv : Valid c) (s : State) (h : Run c s) : Exact c s ∧ Recorded c s :=
  ⟨(run_inv c hv s h).exact, (run_inv c hv s h).recorded c hv.1⟩

/-- C140: the initialization succeeds (no assertion, no access outside of a buffer). A pixel keeps the label moved along
the optical flow, a pixel without one takes the smallest of the cheapest labels. -/
theorem reset_labels (c : Cfg) (hv : Valid c) (unary : Nat → Nat → Nat → Int) (warped : Nat → Nat → Nat) :
    ∃ s, reset c unary warped = some s ∧ ∀ r k,
      (¬(r < c.rows ∧ k < c.cols ∧ c.roi r k = true ∧ warped r k = c.nReal) → s.lab r k = warped r k) ∧
      (r < c.rows ∧ k < c.cols ∧ c.roi r k = true ∧ warped r k = c.nReal →
        s.lab r k < c.nLabels ∧ (∀ l, l < c.nLabels → unary r k (s.lab r k) ≤ unary r k l) ∧
        (∀ l, l < s.lab r k → unary r k (s.lab r k) < unary r k l)) := by
  obtain ⟨s, h1, h2, _⟩ := reset_spec c hv unary warped
  refine ⟨s, h1, fun r k => ⟨?_, ?_⟩⟩
  · intro h
    rw [h2, init_spec, if_neg]
    rintro ⟨h3, h4⟩
    obtain ⟨h5, h6, h7⟩ := (mem_nodes c r k).1 h3
    exact h ⟨h5, h6, h7, h4⟩
  · rintro ⟨h3, h4, h5, h6⟩
    rw [h2, init_spec, if_pos ⟨(mem_nodes c r k).2 ⟨h3, h4, h5⟩, h6⟩]
    exact wta_spec c (unary r k)

/-- C140: a fusion move can be applied in every state the loop can be in, for every answer of the minimizer; exactly the
ROI pixels it chose take the new label. -/
theorem move_labels (c : Cfg) (hv : Valid c) (s : State) (h : Run c s) (alpha : Nat) (lbl : Nat → Int) :
    ∃ s' n, applyMove c alpha lbl s = some (s', n) ∧ s'.lab = switched c s.lab alpha lbl ∧ Exact c s' ∧ Recorded c s' := by
  obtain ⟨s', n, h1, h2, h3⟩ := apply_spec c hv alpha lbl s (run_inv c hv s h)
  exact ⟨s', n, h1, h2, h3.exact, h3.recorded c hv.1⟩

/-- C140: the labels of a run are legal. -/
theorem run_legal (c : Cfg) (hv : Valid c) (s : State) (h : Run c s) : Legal c s.lab := by
  induction h with
  | start unary warped s hw hr =>
    obtain ⟨s0, h1, h2⟩ := reset_labels c hv unary warped
    rw [h1] at hr
    cases Option.some.inj hr
    intro r k hr hk hroi
    by_cases hd : warped r k = c.nReal
    · exact ((h2 r k).2 ⟨hr, hk, hroi, hd⟩).1
    · rw [(h2 r k).1 (fun h => hd h.2.2.2)]
      exact hw r k hr hk hroi
  | move m s s' alpha lbl ts n hrun hal _ _ ha ih =>
    obtain ⟨s0, n0, h1, h2, _⟩ := move_labels c hv s hrun alpha lbl
    rw [h1] at ha
    cases Option.some.inj ha
    intro r k hr hk hroi
    rw [h2]
    unfold switched
    split
    · exact hal
    · exact ih r k hr hk hroi

/-- C140: no column is matched more often than there are disparities, so the 16-bit counters never wrap. -/
theorem associations_bounded (c : Cfg) (hv : Valid c) (s : State) (h : Run c s) (r : Nat) (hr : r < c.rows) (a : Int)
    (h0 : 0 ≤ a + c.mapOff) (h1 : a + c.mapOff < c.mapCols) : ∃ n, getCount c s r a = some n ∧ n ≤ 253 :=
  ⟨_, (associations_exact c hv s h).1 r hr a h0 h1, le_trans (matched_card c s.lab r a) hv.2⟩

/-! ## energy -/

/-- C141: the value reported by the inference is the energy of the current labeling. -/
theorem energy_exact (c : Cfg) (hv : Valid c) (h200 : c.nReal < 200) (m : Costs) (s : State) (h : Run c s) :
    energy c m s = some (Energy c m s.lab) := by
  rw [← energy_form c hv.1]
  exact energy_spec c hv h200 m s (run_inv c hv s h)

/-- C141: the terms given to the minimizer can be computed in every state, they are zero for "nothing moves", and for
every set of moving pixels they are an upper bound of the change of the energy. -/
theorem move_terms_bound (c : Cfg) (hv : Valid c) (h200 : c.nReal < 200) (m : Costs) (s : State) (h : Run c s) (alpha : Nat) :
    ∃ ts, moveTerms c m s alpha = some ts ∧ Reducer.Spec.value ts (fun _ => false) = 0 ∧
      ∀ lbl : Nat → Int, Energy c m (switched c s.lab alpha lbl) - Energy c m s.lab ≤
        Reducer.Spec.value ts (fun i => lbl i = 1) := by
  refine ⟨_, moveTerms_spec c hv h200 m s (run_inv c hv s h) alpha, ?_, ?_⟩
  · rw [value_flatten, List.map_map]
    apply List.sum_eq_zero
    intro v hv'
    obtain ⟨n, _, rfl⟩ := List.mem_map.1 hv'
    show Reducer.Spec.value _ _ = 0
    rw [nodeTerms_value]
    have e : at01 c s.lab alpha (fun _ => false) = s.lab := by funext r k; unfold at01; simp
    rw [e]
    simp
  · intro lbl
    rw [← energy_form c hv.1, ← energy_form c hv.1]
    apply terms_bound c hv m s.lab (switched c s.lab alpha lbl) alpha (fun i => lbl i = 1)
    intro r k hn
    unfold switched at01
    simp [hn]

/-- C141: a fusion move with a persistent answer of the minimizer never raises the energy; the assertion of the move loop
("stereo energy not minimizing!") does not fire. -/
theorem energy_never_rises_partial (c : Cfg) (hv : Valid c) (h200 : c.nReal < 200) (m : Costs) (s : State) (h : Run c s)
    (alpha : Nat) (lbl : Nat → Int) (ts : List (Int × List Nat)) (ht : moveTerms c m s alpha = some ts)
    (hp : Persistent (Reducer.Spec.value ts) lbl) (hal : alpha < c.nLabels) :
    ∃ s' n e e', applyMove c alpha lbl s = some (s', n) ∧ energy c m s = some e ∧ energy c m s' = some e' ∧ e' ≤ e := by
  obtain ⟨s', n, h1, h2, _⟩ := move_labels c hv s h alpha lbl
  have hrun : Run c s' := Run.move m s s' alpha lbl ts n h hal ht hp h1
  obtain ⟨ts', h3, h4, h5⟩ := move_terms_bound c hv h200 m s h alpha
  rw [ht] at h3
  cases Option.some.inj h3
  refine ⟨s', n, _, _, h1, energy_exact c hv h200 m s h, energy_exact c hv h200 m s' hrun, ?_⟩
  have hb := h5 lbl
  have hq := hp (fun _ => false)
  rw [h4] at hq
  have e : (fun i => if lbl i = 1 then true else if lbl i = 0 then false else false) = (fun i => decide (lbl i = 1)) := by
    funext i
    by_cases hx : lbl i = 1 <;> simp [hx]
  rw [e] at hq
  rw [h2]
  linarith

/-- C141: with prices that are not negative, the energy is not negative. -/
theorem energy_nonneg (c : Cfg) (hv : Valid c) (m : Costs) (lab : Nat → Nat → Nat) (hu : ∀ r k l, 0 ≤ m.unary r k l)
    (hp : ∀ r k o l, 0 ≤ m.pair r k o l) : 0 ≤ Energy c m lab := by
  unfold Energy
  apply add_nonneg
  · apply Finset.sum_nonneg
    intro r _
    apply Finset.sum_nonneg
    intro a _
    apply sumCost_nonneg
    have := matched_card c lab r a
    have := hv.2
    omega
  · apply Finset.sum_nonneg
    intro n _
    apply add_nonneg (hu _ _ _) (add_nonneg _ _)
    · split
      · exact hp _ _ _ _
      · exact le_rfl
    · split
      · exact hp _ _ _ _
      · exact le_rfl

/-! ## the price of repeated matches -/

/-- C142: a first match is free, every further match of the same column costs at least as much as the one before, and at
most 1200. -/
theorem match_price (n : Nat) (hn : n < 1000) :
    addCost 0 = 0 ∧ 0 ≤ addCost n ∧ addCost n ≤ addCost (n + 1) ∧ addCost n ≤ 1200 ∧ sumCost (n + 1) - sumCost n = addCost n :=
  ⟨rfl, addCost_nonneg n (by omega), addCost_mono n (n + 1) (by omega) (by omega), addCost_le n (by omega),
    by show sumCost n + addCost n - sumCost n = _; ring⟩

/-- C142: the price announced for removing `k` of the `n` matches of a column and adding at most one is never below the
real change of price. -/
theorem move_price (n k g : Nat) (hk : k ≤ n) (hg : g ≤ 1) (hn : n < 1000) :
    sumCost (n - k + g) - sumCost n ≤ k * remCost n + g * addCost n :=
  move_bound n k g hk hg hn

theorem foldlM_none {α β : Type} (f : β → α → Option β) (x : α) (l : List α) (hx : x ∈ l) (h : ∀ e, f e x = none) :
    ∀ e, l.foldlM f e = none := by
  induction l with
  | nil => exact absurd hx (by simp)
  | cons y l ih =>
    intro e
    rw [List.foldlM_cons]
    rcases List.mem_cons.1 hx with rfl | hx
    · rw [h e]; rfl
    · cases hy : f e y with
      | none => rfl
      | some e' => exact ih hx e'

/-- a matcher for disparities 0 to 252, accepted by the constructor, on an image of 480 by 640 -/
def wideCfg : Cfg := ⟨480, 640, false, 0, 252, fun r k => decide (0 < k ∨ r = 0)⟩

/-- a scene where the pixel in column `k` is best explained by the disparity `k` -/
def wideUnary : Nat → Nat → Nat → Int := fun _ k l => if l = k then 0 else 1

/-- C142: the price tables have 200 entries, but the constructor accepts 253 disparities: there is an accepted
configuration and a run where the energy is read outside of the tables. -/
theorem price_tables_refuted : ∃ c s, Valid c ∧ Run c s ∧ ∀ m, energy c m s = none := by
  have hv : Valid wideCfg := by constructor <;> decide
  obtain ⟨s, h1, h2⟩ := reset_labels wideCfg hv wideUnary (fun _ _ => wideCfg.nReal)
  have hrun : Run wideCfg s := Run.start wideUnary _ s (by intro r k _ _ _; show wideCfg.nReal < wideCfg.nReal + 2; omega) h1
  refine ⟨wideCfg, s, hv, hrun, ?_⟩
  intro m
  have hlab : ∀ k, k < 253 → s.lab 0 k = k := by
    intro k hk
    have hroi : wideCfg.roi 0 k = true := by
      show decide (0 < k ∨ 0 = 0) = true
      simp
    obtain ⟨h3, h4, h5⟩ := (h2 0 k).2 ⟨by decide, by show k < 640; omega, hroi, rfl⟩
    have := h4 k (by show k < 255; omega)
    unfold wideUnary at this
    by_contra hne
    rw [if_neg hne, if_pos rfl] at this
    omega
  have hcard : 200 ≤ (matched wideCfg s.lab 0 0).card := by
    have : Finset.range 200 ⊆ matched wideCfg s.lab 0 0 := by
      intro k hk
      rw [Finset.mem_range] at hk
      rw [mem_matched, hlab k (by omega)]
      refine ⟨by show k < 640; omega, ?_, by show k < 253; omega, ?_⟩
      · show decide (0 < k ∨ 0 = 0) = true
        simp
      · show (k : Int) - (0 + k : Nat) = 0
        omega
    have h := Finset.card_le_card this
    rwa [Finset.card_range] at h
  have hcol : (0 : Int) ∈ costCols wideCfg := by
    rw [mem_costCols wideCfg 0 hv.1]
    constructor <;> decide
  have hnone : totalAssoc wideCfg s = none := by
    unfold totalAssoc
    apply foldlM_none _ 0 _ (List.mem_range.2 (by decide))
    intro e
    apply foldlM_none _ 0 _ hcol
    intro e
    rw [(associations_exact wideCfg hv s hrun).1 0 (by decide) 0 (by decide) (by decide)]
    simp only [Option.bind_eq_bind, Option.bind_some]
    unfold lut
    rw [if_neg (by omega)]
    rfl
  unfold energy
  rw [hnone]
  rfl

/-- C142: with fewer than 200 disparities every access to the tables is inside. -/
theorem price_tables_partial (c : Cfg) (hv : Valid c) (h200 : c.nReal < 200) (m : Costs) (s : State) (h : Run c s) :
    (∃ e, energy c m s = some e) ∧ ∀ alpha, ∃ ts, moveTerms c m s alpha = some ts := by
  refine ⟨⟨_, energy_exact c hv h200 m s h⟩, fun alpha => ?_⟩
  obtain ⟨ts, h1, _⟩ := move_terms_bound c hv h200 m s h alpha
  exact ⟨ts, h1⟩

/-! ## a concrete case -/

/-- a row of four pixels, the last one outside of the ROI, disparities 1 to 2 -/
def smallCfg : Cfg := ⟨1, 4, false, 1, 2, fun _ k => k < 3⟩

/-- prices that favour the disparity 1 for even columns and 2 for odd columns, and equal neighbours -/
def smallCosts : Costs :=
  ⟨fun _ k l => if l = 3 then 50 else if l % 2 = k % 2 then 0 else 10, fun _ _ _ l => if l.getD 0 0 = l.getD 1 0 then 0 else 7⟩

/-- what the initialization gives for it -/
def smallStart : State := ((reset smallCfg smallCosts.unary (fun _ _ => smallCfg.nReal)).getD ⟨fun _ _ => 0, fun _ => 0, fun _ => 0⟩)

example : Valid smallCfg ∧ smallCfg.nReal < 200 := by
  refine ⟨⟨by decide, by decide⟩, by decide⟩

theorem small_reset : reset smallCfg smallCosts.unary (fun _ _ => smallCfg.nReal) = some smallStart := by
  obtain ⟨s, h, _⟩ := reset_labels smallCfg ⟨by decide, by decide⟩ smallCosts.unary (fun _ _ => smallCfg.nReal)
  unfold smallStart
  rw [h]; rfl

example : Run smallCfg smallStart :=
  Run.start smallCosts.unary (fun _ _ => smallCfg.nReal) smallStart (by intro r k _ _ _; show smallCfg.nReal < smallCfg.nReal + 2; omega) small_reset

/-- labels 0, 1, 0: the columns -1, -1 and 1 of the other image; the first of them is matched twice -/
example : (List.range 3).map (smallStart.lab 0) = [0, 1, 0] ∧
    (List.range 4).map (fun (i : Nat) => getCount smallCfg smallStart 0 ((i : Int) - 2)) = [some 0, some 2, some 0, some 1] := by
  decide +kernel

/-- a move to the label 0 that is chosen for the second pixel: it is applied, one label changes, and the counts follow -/
example : ((applyMove smallCfg 0 (fun i => if i = 1 then 1 else 0) smallStart).map (fun p =>
    ((List.range 3).map (p.1.lab 0), p.2,
      (List.range 4).map (fun (i : Nat) => getCount smallCfg p.1 0 ((i : Int) - 2))))) =
    some ([0, 0, 0], 1, [some 0, some 1, some 1, some 1]) := by
  decide +kernel

/-- the terms of this move, the choice of the second pixel is persistent for them, and the energy falls from 414 to 10 -/
example : moveTerms smallCfg smallCosts smallStart 0 =
      some [(0, [0]), (0, [0]), (-7, [1]), (0, [0, 1]), (-189, [1]), (-7, [1]), (0, [2]), (0, [1, 2]), (0, [2])] ∧
    Persistent (Reducer.Spec.value
      [(0, [0]), (0, [0]), (-7, [1]), (0, [0, 1]), (-189, [1]), (-7, [1]), (0, [2]), (0, [1, 2]), (0, [2])])
      (fun i => if i = 1 then 1 else 0) ∧
    energy smallCfg smallCosts smallStart = some 414 ∧
    (applyMove smallCfg 0 (fun i => if i = 1 then 1 else 0) smallStart).bind (fun p => energy smallCfg smallCosts p.1) =
      some 10 := by
  refine ⟨by decide +kernel, ?_, by decide +kernel, by decide +kernel⟩
  intro z
  unfold Reducer.Spec.value
  cases h : z 1 <;> simp [h]

end Litiv.SegmAssoc
