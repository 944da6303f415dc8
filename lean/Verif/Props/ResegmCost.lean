import Verif.Lemmas.ResegmCost

/-!
# Temporal links and costs of the segmentation graph
-/

namespace Litiv.ResegmCost
open ResegmGraph

/-- **Temporal links follow the flow.** From its pixel in the oldest layer, a temporal term goes from layer to layer to
the pixel of the image closest to where the flow leads, staying with its camera. If all these pixels are in the region
of interest, its members are their nodes, the latest first, in both numberings; otherwise the term is turned off. No
node outside the tables is ever read. -/
theorem link_follows (c : Cfg) (flow : Nat → Nat → Nat → ℚ × ℚ) {base cam row col : Nat}
    (h : NodeAt c base cam (c.layers - 1) row col) : ∃ pos, Path c flow row col pos ∧
    ((∀ l < c.layers, c.roi cam (pos l).1 (pos l).2 = true) → ∃ graphs, link c (build c) flow base =
      some (some ((List.range c.layers).map fun l => place c cam l (pos l).1 (pos l).2, graphs)) ∧
      graphs.map (fun g => (build c).luts[g]?) = (List.range c.layers).map fun l => some (place c cam l (pos l).1 (pos l).2)) ∧
    (¬ (∀ l < c.layers, c.roi cam (pos l).1 (pos l).2 = true) → link c (build c) flow base = some none) := by
  obtain ⟨⟨hcam, hL, hr, hk⟩, hroi, rfl⟩ := h
  have hin := steps_in c flow hr hk
  have hnode : ∀ l < c.layers, ∀ i, Pixel c cam l (steps c flow (row, col) i).1 (steps c flow (row, col) i).2 :=
    fun l hl i => ⟨hcam, hl, (hin i).1, (hin i).2⟩
  have ht := track_path c flow hcam (by omega) hr hk
  refine ⟨fun l => steps c flow (row, col) (c.layers - 1 - l), ⟨?_, ?_, ?_⟩, ?_, ?_⟩
  · simp [steps]
  · intro l hl
    have h1 : c.layers - 1 - l = (c.layers - 1 - (l + 1)) + 1 := by omega
    have h2 : c.layers - 1 - (c.layers - 1 - (l + 1) + 1) = l := by omega
    rw [h1]
    have := (landN_closest c.rows (by omega) ((steps c flow (row, col) (c.layers - 1 - (l + 1))).1 +
      (flow l (steps c flow (row, col) (c.layers - 1 - (l + 1))).1 (steps c flow (row, col) (c.layers - 1 - (l + 1))).2).2)).2
    simpa only [steps, goOn, h2] using this
  · intro l hl
    have h1 : c.layers - 1 - l = (c.layers - 1 - (l + 1)) + 1 := by omega
    have h2 : c.layers - 1 - (c.layers - 1 - (l + 1) + 1) = l := by omega
    rw [h1]
    have := (landN_closest c.cols (by omega) ((steps c flow (row, col) (c.layers - 1 - (l + 1))).2 +
      (flow l (steps c flow (row, col) (c.layers - 1 - (l + 1))).1 (steps c flow (row, col) (c.layers - 1 - (l + 1))).2).1)).2
    simpa only [steps, goOn, h2] using this
  · intro hall
    have hn : ∀ j < c.layers, NodeAt c (place c cam (c.layers - 1 - j) (steps c flow (row, col) j).1 (steps c flow (row, col) j).2)
        cam (c.layers - 1 - j) (steps c flow (row, col) j).1 (steps c flow (row, col) j).2 := by
      intro j hj
      refine ⟨hnode _ (by omega) _, ?_, rfl⟩
      have := hall (c.layers - 1 - j) (by omega)
      have hj' : c.layers - 1 - (c.layers - 1 - j) = j := by omega
      simpa only [hj'] using this
    have hu : (((List.range c.layers).map fun j =>
        place c cam (c.layers - 1 - j) (steps c flow (row, col) j).1 (steps c flow (row, col) j).2).tail.all (usable (build c))) = true := by
      rw [List.all_eq_true]
      intro p hp
      obtain ⟨j, hj, rfl⟩ := List.mem_map.1 (List.mem_of_mem_tail hp)
      rw [usable, nodeAt_node c (hn j (List.mem_range.1 hj))]; rfl
    rw [link, ht, Option.bind_some, if_pos hu]
    have hm : ((List.range c.layers).map fun j =>
        place c cam (c.layers - 1 - j) (steps c flow (row, col) j).1 (steps c flow (row, col) j).2).mapM
          (fun p => ((build c).node p).bind (·.graph)) = some ((List.range c.layers).map fun j =>
            rank c (place c cam (c.layers - 1 - j) (steps c flow (row, col) j).1 (steps c flow (row, col) j).2)) := by
      rw [mapM_some _ (rank c), List.map_map]
      · rfl
      · intro p hp
        obtain ⟨j, hj, rfl⟩ := List.mem_map.1 hp
        rw [nodeAt_node c (hn j (List.mem_range.1 hj))]; rfl
    rw [hm, Option.map_some]
    refine ⟨_, by rw [reverse_layers fun l j => place c cam l (steps c flow (row, col) j).1 (steps c flow (row, col) j).2], ?_⟩
    rw [reverse_layers fun l j => rank c (place c cam l (steps c flow (row, col) j).1 (steps c flow (row, col) j).2), List.map_map]
    apply List.map_congr_left
    intro l hl
    have hl' := List.mem_range.1 hl
    have := hn (c.layers - 1 - l) (by omega)
    have hj' : c.layers - 1 - (c.layers - 1 - l) = l := by omega
    simp only [hj'] at this
    exact luts_rank c this
  · intro hnot
    have hu : ¬ (((List.range c.layers).map fun j =>
        place c cam (c.layers - 1 - j) (steps c flow (row, col) j).1 (steps c flow (row, col) j).2).tail.all (usable (build c))) = true := by
      intro hall
      apply hnot
      intro l hl
      by_cases hlast : l = c.layers - 1
      · subst hlast; simpa [steps] using hroi
      · rw [List.all_eq_true] at hall
        have hmem : place c cam l (steps c flow (row, col) (c.layers - 1 - l)).1 (steps c flow (row, col) (c.layers - 1 - l)).2 ∈
            ((List.range c.layers).map fun j =>
              place c cam (c.layers - 1 - j) (steps c flow (row, col) j).1 (steps c flow (row, col) j).2).tail := by
          rw [List.mem_iff_getElem?]
          refine ⟨c.layers - 1 - l - 1, ?_⟩
          rw [List.getElem?_tail, List.getElem?_map, List.getElem?_range (by omega)]
          have h1 : c.layers - 1 - l - 1 + 1 = c.layers - 1 - l := by omega
          have h2 : c.layers - 1 - (c.layers - 1 - l) = l := by omega
          simp only [h1, h2, Option.map_some]
        have := hall _ hmem
        rw [usable, build_node c (hnode l hl _)] at this
        exact this
    rw [link, ht, Option.bind_some, if_neg hu]

/-- **Still scenes.** Without any flow, each temporal term keeps the members it was built with: the same pixel in all
layers. -/
theorem still_link (c : Cfg) (flow : Nat → Nat → Nat → ℚ × ℚ) (hf : ∀ l r k, flow l r k = (0, 0)) {base cam row col : Nat}
    (h : NodeAt c base cam (c.layers - 1) row col) : ∃ graphs, link c (build c) flow base =
      some (some ((List.range c.layers).map fun l => place c cam l row col, graphs)) ∧
      graphs.map (fun g => (build c).luts[g]?) = (List.range c.layers).map fun l => some (place c cam l row col) := by
  obtain ⟨pos, hp, h1, _⟩ := link_follows c flow h
  obtain ⟨⟨_, hL, hr, hk⟩, hroi, _⟩ := h
  have hpos : ∀ i, i < c.layers → pos (c.layers - 1 - i) = (row, col) := by
    intro i
    induction i with
    | zero => intro _; exact hp.start
    | succ i ih =>
      intro hi
      have h2 : c.layers - 1 - i = c.layers - 1 - (i + 1) + 1 := by omega
      have h3 := ih (by omega)
      rw [h2] at h3
      have hrow := hp.row (c.layers - 1 - (i + 1)) (by omega)
      have hcol := hp.col (c.layers - 1 - (i + 1)) (by omega)
      rw [h3, hf, add_zero] at hrow hcol
      exact Prod.ext (closest_whole _ _ _ hr hrow) (closest_whole _ _ _ hk hcol)
  have hall : ∀ l < c.layers, pos l = (row, col) := by
    intro l hl
    have := hpos (c.layers - 1 - l) (by omega)
    rwa [show c.layers - 1 - (c.layers - 1 - l) = l by omega] at this
  obtain ⟨graphs, h2, h3⟩ := h1 (fun l hl => by rw [hall l hl]; exact hroi)
  have he : ∀ {α : Type} (f : Nat → Nat × Nat → α), ((List.range c.layers).map fun l => f l (pos l)) = (List.range c.layers).map fun l => f l (row, col) := by
    intro α f
    apply List.map_congr_left
    intro l hl
    rw [hall l (List.mem_range.1 hl)]
  refine ⟨graphs, ?_, ?_⟩
  · rw [h2, he fun l p => place c cam l p.1 p.2]
  · rw [h3, he fun l p => some (place c cam l p.1 p.2)]

/-- Two layers of 2 by 3 pixels; both regions of interest leave out the lower left pixel. -/
def exCfg : Cfg := ⟨2, 3, 2, 1, fun _ r k => !(r == 1 && k == 0)⟩

example : NodeAt exCfg 6 0 1 0 0 ∧ NodeAt exCfg 19 1 1 0 1 := by decide
example : link exCfg (build exCfg) (fun _ _ _ => (5 / 4, 1 / 2)) 6 = some (some ([4, 6], [3, 5])) := by decide +kernel
example : link exCfg (build exCfg) (fun _ _ _ => (-3, 2 / 3)) 6 = some none := by decide +kernel
example : link exCfg (build exCfg) (fun _ _ _ => (0, 0)) 19 = some (some ([13, 19], [11, 16])) := by decide +kernel

/-- **Matching pixels.** With a real disparity, the matching pixel is the one moved by the disparity, to the left from
the first camera and to the right from the second one, if that is in the other camera's region of interest; matching is
mutual. -/
theorem matching_exact (c : Cfg) (cam row col : Nat) (hcam : cam < 2) (d : Int) (o : Nat) :
    (matching c cam row col (some d) = some o ↔ o < c.cols ∧ c.roi (1 - cam) row o = true ∧ (o : Int) = if cam = 0 then col - d else col + d) ∧
    matching c cam row col none = none ∧
    (matching c cam row col (some d) = some o → col < c.cols → c.roi cam row col = true →
      matching c (1 - cam) row o (some d) = some col) := by
  have hx : ∀ cam < 2, cam ^^^ 1 = 1 - cam := by
    intro cam h
    rcases (by omega : cam = 0 ∨ cam = 1) with rfl | rfl <;> rfl
  have key : ∀ cam < 2, ∀ col o : Nat, (matching c cam row col (some d) = some o ↔
      o < c.cols ∧ c.roi (1 - cam) row o = true ∧ (o : Int) = if cam = 0 then col - d else col + d) := by
    intro cam hcam col o
    have ho : offsetCol cam col d = if cam = 0 then (col : Int) - d else col + d := by
      rw [offsetCol]; split_ifs <;> omega
    simp only [matching, Option.bind_some, hx cam hcam, ho]
    generalize (if cam = 0 then (col : Int) - d else col + d) = q
    constructor
    · intro h
      split_ifs at h with hc
      have := Option.some.inj h
      obtain ⟨h1, h2, h3⟩ := hc
      subst this
      exact ⟨by omega, h3, by omega⟩
    · rintro ⟨h1, h2, h3⟩
      have : q.toNat = o := by omega
      rw [this, if_pos ⟨by omega, by omega, h2⟩]
  refine ⟨key cam hcam col o, rfl, ?_⟩
  intro h hc hroi
  rw [key cam hcam] at h
  rw [key (1 - cam) (by omega)]
  refine ⟨hc, by rwa [show 1 - (1 - cam) = cam by omega], ?_⟩
  rcases (by omega : cam = 0 ∨ cam = 1) with rfl | rfl
  · have := h.2.2; simp only [if_pos] at this; simp; omega
  · have := h.2.2; simp at this; simp; omega

example : matching exCfg 0 0 2 (some 1) = some 1 ∧ matching exCfg 1 0 1 (some 1) = some 2 ∧
    matching exCfg 0 1 2 (some 2) = none ∧ matching exCfg 0 0 0 (some 1) = none := by decide

/-- **Unary costs.** Costs are never negative; each is a sum of the label's own shape distance, colour distance, and
half the weight of the shape distance at the matching pixel, so that no label becomes cheaper when its distances grow.
Without a matching pixel, the background is preferred by a fixed amount, whatever the distances. -/
theorem unary_costs (p q : Px) (o u : ℚ × ℚ) (hp : 0 ≤ p.fgDist ∧ 0 ≤ p.bgDist ∧ 0 ≤ p.fgLog ∧ 0 ≤ p.bgLog)
    (ho : 0 ≤ o.1 ∧ 0 ≤ o.2) :
    0 ≤ (unary p (some o)).1 ∧ 0 ≤ (unary p (some o)).2 ∧ unary p none = (100, 0) ∧
    (p.fgDist ≤ q.fgDist → p.fgLog ≤ q.fgLog → o.1 ≤ u.1 → (unary p (some o)).1 ≤ (unary q (some u)).1) ∧
    (p.bgDist ≤ q.bgDist → p.bgLog ≤ q.bgLog → o.2 ≤ u.2 → (unary p (some o)).2 ≤ (unary q (some u)).2) ∧
    (p.fgDist * 200 + p.fgLog * 30 + o.1 * 100 - 3 < (unary p (some o)).1 ∧ (unary p (some o)).1 ≤ p.fgDist * 200 + p.fgLog * 30 + o.1 * 100) ∧
    (p.bgDist * 200 + p.bgLog * 30 + o.2 * 100 - 3 < (unary p (some o)).2 ∧ (unary p (some o)).2 ≤ p.bgDist * 200 + p.bgLog * 30 + o.2 * 100) := by
  obtain ⟨h1, h2, h3, h4⟩ := hp
  have near : ∀ q : ℚ, 0 ≤ q → q - 1 < (costCast q : ℚ) ∧ (costCast q : ℚ) ≤ q := by
    intro q hq
    rw [costCast, if_pos hq]
    exact ⟨by have := Int.lt_floor_add_one q; linarith, Int.floor_le q⟩
  have e1 : ∀ x : ℚ, 0 ≤ x → 0 ≤ x * 200 := fun x hx => by linarith
  have e2 : ∀ x : ℚ, 0 ≤ x → 0 ≤ x * 30 := fun x hx => by linarith
  have e3 : ∀ x : ℚ, 0 ≤ x → 0 ≤ x * 200 * (1 / 2) := fun x hx => by linarith
  refine ⟨?_, ?_, rfl, ?_, ?_, ?_, ?_⟩
  · have a := costCast_nonneg (e1 _ h1); have b := costCast_nonneg (e2 _ h3); have d := costCast_nonneg (e3 _ ho.1)
    simp only [unary]; omega
  · have a := costCast_nonneg (e1 _ h2); have b := costCast_nonneg (e2 _ h4); have d := costCast_nonneg (e3 _ ho.2)
    simp only [unary]; omega
  · intro g1 g2 g3
    have a := costCast_mono (e1 _ h1) (by linarith : p.fgDist * 200 ≤ q.fgDist * 200)
    have b := costCast_mono (e2 _ h3) (by linarith : p.fgLog * 30 ≤ q.fgLog * 30)
    have d := costCast_mono (e3 _ ho.1) (by linarith : o.1 * 200 * (1 / 2) ≤ u.1 * 200 * (1 / 2))
    simp only [unary]; omega
  · intro g1 g2 g3
    have a := costCast_mono (e1 _ h2) (by linarith : p.bgDist * 200 ≤ q.bgDist * 200)
    have b := costCast_mono (e2 _ h4) (by linarith : p.bgLog * 30 ≤ q.bgLog * 30)
    have d := costCast_mono (e3 _ ho.2) (by linarith : o.2 * 200 * (1 / 2) ≤ u.2 * 200 * (1 / 2))
    simp only [unary]; omega
  · have a := near _ (e1 _ h1); have b := near _ (e2 _ h3); have d := near _ (e3 _ ho.1)
    simp only [unary]; push_cast
    constructor <;> linarith
  · have a := near _ (e1 _ h2); have b := near _ (e2 _ h4); have d := near _ (e3 _ ho.2)
    simp only [unary]; push_cast
    constructor <;> linarith

example : unary ⟨1 / 10, 3 / 4, 2, 1 / 7⟩ (some (1 / 2, 1)) = (130, 254) := by decide +kernel

/-- **Pairwise costs.** Equal labels cost nothing; different ones cost the same in either order, never a negative
amount, and never more when the factor is smaller: the factor is at most the one of the pixel's own gradient, and at
most twice the one of the matching pixel's. Each table is submodular, so that graph cuts apply to it. -/
theorem pair_costs (fact : Nat → ℚ) (hf : ∀ g, 0 ≤ fact g) (grad : Nat) (other : Option Nat) :
    (∀ a, pairCost (pairScale fact grad other) a a = 0) ∧
    (∀ a b, pairCost (pairScale fact grad other) a b = pairCost (pairScale fact grad other) b a) ∧
    (∀ a b, 0 ≤ pairCost (pairScale fact grad other) a b) ∧
    pairCost (pairScale fact grad other) 0 1 = ⌊200 * pairScale fact grad other⌋ ∧
    pairCost (pairScale fact grad other) 0 0 + pairCost (pairScale fact grad other) 1 1 ≤
      pairCost (pairScale fact grad other) 0 1 + pairCost (pairScale fact grad other) 1 0 ∧
    (∀ s, pairScale fact grad other ≤ s → ∀ a b, pairCost (pairScale fact grad other) a b ≤ pairCost s a b) ∧
    0 ≤ pairScale fact grad other ∧ pairScale fact grad other ≤ fact grad ∧
    (other = none → pairScale fact grad other = fact grad) ∧
    (∀ h, other = some h → pairScale fact grad other ≤ 2 * fact h ∧
      (pairScale fact grad other = fact grad ∨ pairScale fact grad other = 2 * fact h)) := by
  have hd : ∀ h, fact h / (1 / 2) = 2 * fact h := fun h => by ring
  have hs : 0 ≤ pairScale fact grad other := by
    cases other with
    | none => exact hf grad
    | some h => rw [pairScale, hd]; exact le_min (hf grad) (by linarith [hf h])
  have hle : pairScale fact grad other ≤ fact grad := by
    cases other with
    | none => exact Rat.le_refl
    | some h => exact min_le_left _ _
  have hw : ∀ (s : ℚ), 0 ≤ s → ∀ a b : Nat, 0 ≤ ((a ^^^ b : Nat) : ℚ) * s * 200 := by
    intro s hs a b
    have : (0 : ℚ) ≤ ((a ^^^ b : Nat) : ℚ) := by positivity
    positivity
  have hnn : ∀ a b, 0 ≤ pairCost (pairScale fact grad other) a b := fun a b => costCast_nonneg (hw _ hs a b)
  have hz : ∀ a, pairCost (pairScale fact grad other) a a = 0 := by
    intro a; rw [pairCost, Nat.xor_self]; simp [costCast]
  refine ⟨hz, fun a b => by rw [pairCost, pairCost, Nat.xor_comm], hnn, ?_, ?_, ?_, hs, hle, ?_, ?_⟩
  · rw [pairCost, show (0 ^^^ 1 : Nat) = 1 from rfl, costCast, Nat.cast_one, one_mul, if_pos (by linarith), mul_comm]
  · rw [hz, hz]; have := hnn 0 1; have := hnn 1 0; omega
  · intro s hle a b
    apply costCast_mono (hw _ hs a b)
    have : (0 : ℚ) ≤ ((a ^^^ b : Nat) : ℚ) := by positivity
    have := mul_le_mul_of_nonneg_left hle this
    linarith
  · rintro rfl; rfl
  · rintro h rfl
    rw [pairScale, hd]
    exact ⟨min_le_right _ _, min_choice _ _⟩

example : pairScale (fun g => 1 / (g + 1)) 1 (some 7) = 1 / 4 ∧ pairCost (1 / 4) 0 1 = 50 := by decide +kernel

theorem changes_nonneg (fact : Nat → ℚ) (hf : ∀ g, 0 ≤ fact g) (diff : Nat → Nat → Nat) (at_ : Nat → Nat) (x : Nat → Bool) (k : Nat) :
    0 ≤ changes fact diff at_ x k := by
  induction k with
  | zero => exact Rat.le_refl
  | succ k ih =>
    rw [changes]
    split_ifs
    · linarith
    · have := hf (diff k (at_ (k + 1))); linarith

/-- **Temporal costs.** A temporal table has an entry for each labelling of the frames, at the number whose binary digits
are the labels, the latest frame's first. It is the integer part of 200 times the factors of the labelling's changes:
one for each frame whose label differs from the next older one, at the older frame's pixel. Nothing else is written. -/
theorem temp_table (fact : Nat → ℚ) (hf : ∀ g, 0 ≤ fact g) (diff : Nat → Nat → Nat) (maps : List Nat) (n : Nat) (old : Nat → Int)
    (i : Nat) : tempTable fact diff maps n old i = if i < 2 ^ n then
      ⌊200 * changes fact diff (fun l => maps.getD l 0) i.testBit (n - 1)⌋ else old i := by
  by_cases hi : i < 2 ^ n
  · rw [if_pos hi]
    have he : cell n (fun v => (i.testBit v).toNat) = i := by
      have := cell_assign n i hi
      rwa [show bitLabel i = fun v => (i.testBit v).toNat from funext (bitLabel_eq i)] at this
    have h1 := coeffs_changes fact diff maps n i.testBit
    rw [he] at h1
    have hc := changes_nonneg fact hf diff (fun l => maps.getD l 0) i.testBit (n - 1)
    rw [table_cell _ _ _ _ _ _ hi, h1, costCast, if_pos (by linarith), mul_comm]
  · rw [if_neg hi]
    exact table_rest fact diff maps n old i (by omega)

/-- **Steady labels are free**, others never cost a negative amount, opposite labellings cost the same, and with two
frames the table is submodular. -/
theorem temp_steady (fact : Nat → ℚ) (hf : ∀ g, 0 ≤ fact g) (diff : Nat → Nat → Nat) (maps : List Nat) (n : Nat) (old : Nat → Int) :
    tempTable fact diff maps n old 0 = 0 ∧ tempTable fact diff maps n old (2 ^ n - 1) = 0 ∧
    (∀ i < 2 ^ n, 0 ≤ tempTable fact diff maps n old i) ∧
    (∀ i < 2 ^ n, tempTable fact diff maps n old (2 ^ n - 1 - i) = tempTable fact diff maps n old i) ∧
    (n = 2 → tempTable fact diff maps n old 0 + tempTable fact diff maps n old 3 ≤
      tempTable fact diff maps n old 1 + tempTable fact diff maps n old 2) := by
  have hpos : 0 < 2 ^ n := Nat.two_pow_pos n
  have hnn : ∀ i < 2 ^ n, 0 ≤ tempTable fact diff maps n old i := by
    intro i hi
    rw [temp_table fact hf, if_pos hi]
    apply Int.floor_nonneg.2
    have := changes_nonneg fact hf diff (fun l => maps.getD l 0) i.testBit (n - 1)
    linarith
  have hopp : ∀ i < 2 ^ n, tempTable fact diff maps n old (2 ^ n - 1 - i) = tempTable fact diff maps n old i := by
    intro i hi
    rw [temp_table fact hf, temp_table fact hf, if_pos hi, if_pos (by omega)]
    congr 2
    have hb : ∀ v < n, (2 ^ n - 1 - i).testBit v = !i.testBit v := by
      intro v hv
      rw [show 2 ^ n - 1 - i = 2 ^ n - (i + 1) by omega, Nat.testBit_two_pow_sub_succ hi]
      simp [hv]
    have key : ∀ m ≤ n - 1, changes fact diff (fun l => maps.getD l 0) (2 ^ n - 1 - i).testBit m =
        changes fact diff (fun l => maps.getD l 0) i.testBit m := by
      intro m hm
      induction m with
      | zero => rfl
      | succ k ih =>
        rw [changes, changes, ih (by omega), hb (k + 1) (by omega), hb k (by omega)]
        cases i.testBit (k + 1) <;> cases i.testBit k <;> simp
    exact key _ (Nat.le_refl _)
  have h0 : tempTable fact diff maps n old 0 = 0 := by
    rw [temp_table fact hf, if_pos hpos]
    have : ∀ k, changes fact diff (fun l => maps.getD l 0) (Nat.testBit 0) k = 0 := by
      intro k
      induction k with
      | zero => rfl
      | succ k ih => rw [changes, ih, if_pos (by simp), add_zero]
    rw [this, mul_zero]; rfl
  have h3 : tempTable fact diff maps n old (2 ^ n - 1) = 0 := by
    have := hopp 0 hpos
    rwa [Nat.sub_zero, h0] at this
  refine ⟨h0, h3, hnn, hopp, ?_⟩
  rintro rfl
  have h1 := hnn 1 (by norm_num)
  have h2 := hnn 2 (by norm_num)
  rw [h0, show (3 : Nat) = 2 ^ 2 - 1 by norm_num, h3]
  omega

example : (List.range 5).map (tempTable (fun g => 1 / (g + 1)) (fun l p => l + p) [4, 2] 2 fun _ => -1) = [0, 66, 66, 0, -1] := by decide +kernel
example : changes (fun g => 1 / (g + 1)) (fun l p => l + p) ([5, 1, 7].getD · 0) (Nat.testBit 2) 2 = 1 / 2 + 1 / 9 := by
  decide +kernel

end Litiv.ResegmCost
