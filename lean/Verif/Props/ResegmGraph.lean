import Verif.Lemmas.ResegmGraph

/-!
# Properties of the segmentation graph of the segmentation matcher
-/

namespace Litiv.ResegmGraph

/-- A 3x2 grid, two layers, with three and two pixels in the regions of interest. -/
def exCfg : Cfg := ⟨3, 2, 2, 2, fun cam r k => if cam = 0 then decide (r ≤ 1 ∧ r ≤ k) || decide (r = 0) else decide (k = 0 ∧ 1 ≤ r)⟩

/-- **Node information.** Each pixel of each camera and layer has its own entry in the node table, which gives back
its camera, layer, row and column, its place within its layer and its camera, and whether it is in the region of
interest; there is nothing outside of the table. -/
theorem node_info (c : Cfg) : (∀ cam layer row col, Pixel c cam layer row col → ∃ n, (build c).node (place c cam layer row col) = some n ∧
      n.cam = cam ∧ n.layer = layer ∧ n.row = row ∧ n.col = col ∧ n.valid = c.roi cam row col ∧ n.mapIdx = row * c.cols + col ∧
      n.stacked = (layer * c.rows + row) * c.cols + col ∧ n.lut = place c cam layer row col) ∧
    ∀ p, 2 * c.layers * c.rows * c.cols ≤ p → (build c).node p = none := by
  refine ⟨?_, fun p h => build_outside c p h⟩
  intro cam layer row col h
  refine ⟨_, build_node c h, rfl, rfl, rfl, rfl, rfl, rfl, ?_, rfl⟩
  simp only [Cfg.size]; ring

/-- **Numbering.** Graph nodes are numbered in the order of the node table: every pixel of the regions of interest, and
nothing else, has a number, both tables are inverse to each other, and the number of nodes is the number of pixels in
both regions of interest, for each layer. -/
theorem node_numbering (c : Cfg) : (build c).luts.Pairwise (· < ·) ∧ (build c).luts.length = (build c).count ∧
    (∀ p, p ∈ (build c).luts ↔ ∃ cam layer row col, NodeAt c p cam layer row col) ∧
    (∀ g p, (build c).luts[g]? = some p ↔ ∃ n, (build c).node p = some n ∧ n.graph = some g) ∧
    (build c).count = (c.roiCount 0 + c.roiCount 1) * c.layers := by
  refine ⟨sorted_luts c, build_length c, mem_luts c, ?_, count_roi c⟩
  intro g p
  constructor
  · intro h
    obtain ⟨cam, layer, row, col, hn⟩ := (mem_luts c p).1 (List.mem_of_getElem? h)
    exact ⟨_, nodeAt_node c hn, by rw [rank_eq c hn h]⟩
  · rintro ⟨n, h1, h2⟩
    by_cases hp : p < 2 * c.layers * c.rows * c.cols
    · have hm : p ∈ (order c).map (key c) := by rw [order_keys]; simpa using hp
      rw [List.mem_map] at hm
      obtain ⟨⟨a, b, d, e⟩, hm, rfl⟩ := hm
      have hpx := (mem_order ..).1 hm
      rw [show key c (a, b, d, e) = place c a b d e from rfl, build_node c hpx] at h1
      have h1 := Option.some.inj h1
      subst h1
      dsimp only at h2
      by_cases hr : c.roi a d e = true
      · rw [if_pos hr] at h2
        rw [← Option.some.inj h2]
        exact luts_rank c ⟨hpx, hr, rfl⟩
      · rw [if_neg hr] at h2; exact absurd h2 (by simp)
    · rw [build_outside c p (by omega)] at h1; exact absurd h1 (by simp)

example : (build exCfg).luts = [0, 1, 3, 6, 7, 9, 14, 16, 20, 22] ∧ (build exCfg).count = 10 := by decide
example : NodeAt exCfg 16 1 0 2 0 := by decide

/-- **Pairwise terms.** Each pair of neighbouring pixels of the regions of interest, in the same camera and layer, gets
exactly one pairwise term, and no other pair does: not across cameras, layers, or the ends of rows. Terms know the
numbers of both nodes, and get consecutive factor ids after the unary ones. -/
theorem pairs_exact (c : Cfg) : ∃ s, pairs c (build c) = some s ∧ (s.list.map (·.luts)).Nodup ∧
    (∀ p q, (p, q) ∈ s.list.map (·.luts) ↔ Adjacent c p q) ∧
    (∀ t ∈ s.list, (build c).luts[t.graphs.1]? = some t.luts.1 ∧ (build c).luts[t.graphs.2]? = some t.luts.2) ∧
    ∀ i t, s.list[i]? = some t → t.factor = (build c).count + i := by
  obtain ⟨s, h1, h2⟩ := pairs_good c
  have hl : s.list.map (·.luts) = ((List.range (build c).count).flatMap (links c)).map (·.2.2.1) := by
    rw [← h2.core, List.map_map]; rfl
  refine ⟨s, h1, ?_, ?_, ?_, h2.factor⟩
  · rw [hl]
    refine List.Nodup.map_on ?_ (List.Nodup.of_map _ (links_keys c))
    intro x hx y hy hxy
    rw [List.mem_flatMap] at hx hy
    obtain ⟨g, _, hx⟩ := hx
    obtain ⟨g', _, hy⟩ := hy
    obtain ⟨_, _, _, _, p, ha, hn, hx⟩ := mem_links c g x hx
    obtain ⟨_, _, _, _, p', ha', hn', hy⟩ := mem_links c g' y hy
    rcases hx with ⟨rfl, hq⟩ | ⟨rfl, hq⟩ <;> rcases hy with ⟨rfl, hq'⟩ | ⟨rfl, hq'⟩ <;> dsimp only at hxy <;>
      obtain ⟨rfl, he⟩ := Prod.mk.injEq .. ▸ hxy
    · rw [← rank_eq c hn ha, ← rank_eq c hn' ha']
    · have := nodeAt_inj c hn hn'
      rw [he] at hq
      have := nodeAt_inj c hq hq'
      omega
    · have := nodeAt_inj c hn hn'
      rw [he] at hq
      have := nodeAt_inj c hq hq'
      omega
    · rw [← rank_eq c hn ha, ← rank_eq c hn' ha']
  · intro p q
    rw [hl, List.mem_map]
    constructor
    · rintro ⟨x, hx, hpq⟩
      rw [List.mem_flatMap] at hx
      obtain ⟨g, _, hx⟩ := hx
      obtain ⟨cam, layer, row, col, p', ha, hn, hx⟩ := mem_links c g x hx
      rcases hx with ⟨rfl, hq⟩ | ⟨rfl, hq⟩ <;> dsimp only at hpq <;> obtain ⟨rfl, rfl⟩ := Prod.mk.injEq .. ▸ hpq
      · exact ⟨cam, layer, row, col, hn, .inl hq⟩
      · exact ⟨cam, layer, row, col, hn, .inr hq⟩
    · rintro ⟨cam, layer, row, col, hn, hq⟩
      have hg : rank c p < (build c).count := by
        rw [← build_length]; exact (List.getElem?_eq_some_iff.1 (luts_rank c hn)).1
      rcases hq with hq | hq
      · exact ⟨_, List.mem_flatMap.2 ⟨_, List.mem_range.2 hg, (links_mem c hn).1 hq⟩, rfl⟩
      · exact ⟨_, List.mem_flatMap.2 ⟨_, List.mem_range.2 hg, (links_mem c hn).2 hq⟩, rfl⟩
  · intro t ht
    have : t.core ∈ s.list.map Pair.core := List.mem_map_of_mem ht
    rw [h2.core, List.mem_flatMap] at this
    obtain ⟨g, _, hx⟩ := this
    obtain ⟨cam, layer, row, col, p, ha, hn, hx⟩ := mem_links c g _ hx
    rcases hx with ⟨he, hq⟩ | ⟨he, hq⟩ <;> simp only [Pair.core, Prod.mk.injEq] at he
    · obtain ⟨_, _, e1, e2⟩ := he
      rw [e1, e2]
      exact ⟨ha, luts_rank c hq⟩
    · obtain ⟨_, _, e1, e2⟩ := he
      rw [e1, e2]
      exact ⟨ha, luts_rank c hq⟩

/-- **Membership.** Each node lists the pairwise terms it belongs to, with its position in them, once. -/
theorem pair_members (c : Cfg) : ∃ s, pairs c (build c) = some s ∧ ∀ p, (s.members p).Nodup ∧
    ∀ i j, (i, j) ∈ s.members p ↔ ∃ t, s.list[i]? = some t ∧ ((j = 0 ∧ t.luts.1 = p) ∨ (j = 1 ∧ t.luts.2 = p)) := by
  obtain ⟨s, h1, h2⟩ := pairs_good c
  refine ⟨s, h1, fun p => ?_⟩
  rw [h2.members]
  exact ⟨memberOf_nodup _ _, fun i j => mem_memberOf _ _ _ _⟩

example : (pairs exCfg (build exCfg)).map (fun s => (s.list.map (·.luts), s.members 1)) =
    some ([(0, 1), (1, 3), (6, 7), (7, 9), (14, 16), (20, 22)], [(0, 1), (1, 0)]) := by decide
example : Adjacent exCfg 14 16 := ⟨1, 0, 1, 0, by decide, .inl (by decide)⟩

/-- **Temporal terms.** With more than one layer, each pixel of the regions of interest on the stride's grid gets
exactly one temporal term, which joins the same pixel of the same camera in all layers, the latest frame first; there
are no others. Factor ids follow those of the pairwise terms. -/
theorem temporal_exact (c : Cfg) (hL : 1 < c.layers) (k : Nat) : ∃ ts, temps c (build c) k = some ts ∧ (ts.map (·.luts)).Nodup ∧
    (∀ l, l ∈ ts.map (·.luts) ↔ ∃ cam row col, Sampled c cam row col ∧
      l = (List.range c.layers).map fun layer => place c cam layer row col) ∧
    (∀ t ∈ ts, t.graphs.map (fun g => (build c).luts[g]?) = t.luts.map some) ∧
    ∀ i t, ts[i]? = some t → t.factor = (build c).count + k + i := by
  obtain ⟨s, h1, h2⟩ := temps_good c k
  have hl : s.map (·.luts) = ((List.range (build c).count).flatMap (tlinks c)).map (·.1) := by
    rw [← h2.core, List.map_map]; rfl
  refine ⟨s, by rw [temps, if_pos hL, h1], ?_, ?_, ?_, fun i t h => (h2.factor i t h).1⟩
  · rw [hl]
    apply List.Nodup.of_map (f := fun l : List Nat => l.getLast?)
    rw [List.map_map]
    exact tlinks_nodup c
  · intro l
    rw [hl, List.mem_map]
    constructor
    · rintro ⟨x, hx, rfl⟩
      rw [List.mem_flatMap] at hx
      obtain ⟨g, _, hx⟩ := hx
      obtain ⟨cam, row, col, hS, _, rfl⟩ := (mem_tlinks c g x).1 hx
      exact ⟨cam, row, col, hS, rfl⟩
    · rintro ⟨cam, row, col, hS, rfl⟩
      have hr := luts_rank c hS.1
      have hg := (List.getElem?_eq_some_iff.1 hr).1
      rw [build_length] at hg
      exact ⟨_, List.mem_flatMap.2 ⟨_, List.mem_range.2 hg, (mem_tlinks c _ _).2 ⟨cam, row, col, hS, hr, rfl⟩⟩, rfl⟩
  · intro t ht
    have : (t.luts, t.graphs) ∈ s.map fun t => (t.luts, t.graphs) := List.mem_map_of_mem ht
    rw [h2.core, List.mem_flatMap] at this
    obtain ⟨g, _, hx⟩ := this
    obtain ⟨cam, row, col, hS, _, he⟩ := (mem_tlinks c g _).1 hx
    obtain ⟨e1, e2⟩ := Prod.mk.injEq .. ▸ he
    rw [e1, e2, List.map_map]
    apply List.map_congr_left
    intro p hp
    rw [column, List.mem_map] at hp
    obtain ⟨l, hl, rfl⟩ := hp
    obtain ⟨⟨⟨a1, a2, a3, a4⟩, a5, a6⟩, _, _⟩ := hS
    exact luts_rank c (layer := l) ⟨⟨a1, List.mem_range.1 hl, a3, a4⟩, a5, rfl⟩

example : (temps exCfg (build exCfg) 6).map (fun s => s.map fun t => (t.luts, t.factor, t.data)) =
    some [([0, 6], 16, 100), ([16, 22], 17, 104)] := by decide
example : Sampled exCfg 1 2 0 := ⟨by decide, by decide, by decide⟩

/-- **Function buffers.** The functions of all terms lie in the allocated buffer, and no two of them overlap: unary
functions (two values), then pairwise ones (four values), then temporal ones (a value per labelling of the layers). -/
theorem functions_apart (c : Cfg) : ∃ s ts, pairs c (build c) = some s ∧ temps c (build c) s.list.length = some ts ∧
    (∀ g < (build c).count, unaryData g + 2 ≤ pairwBase c) ∧
    (∀ g g', g ≠ g' → Apart (unaryData g) 2 (unaryData g') 2) ∧
    (∀ t ∈ s.list, pairwBase c ≤ t.data ∧ t.data + 4 ≤ tempBase c) ∧
    s.list.Pairwise (fun t u => Apart t.data 4 u.data 4) ∧
    (∀ t ∈ ts, tempBase c ≤ t.data ∧ t.data + 2 ^ c.layers ≤ dataEnd c) ∧
    ts.Pairwise (fun t u => Apart t.data (2 ^ c.layers) u.data (2 ^ c.layers)) := by
  obtain ⟨s, h1, h2⟩ := pairs_good c
  have hcount := count_roi c
  have ho : ∀ t ∈ s.list, t.owner < (build c).count ∧ t.orient < 2 := by
    intro t ht
    have : t.core ∈ s.list.map Pair.core := List.mem_map_of_mem ht
    rw [h2.core, List.mem_flatMap] at this
    obtain ⟨g, hg, hx⟩ := this
    obtain ⟨cam, layer, row, col, p, ha, hn, hx⟩ := mem_links c g _ hx
    rw [List.mem_range] at hg
    rcases hx with ⟨he, hq⟩ | ⟨he, hq⟩ <;> simp only [Pair.core, Prod.mk.injEq] at he <;> omega
  obtain ⟨ts, h3, h4⟩ : ∃ ts, temps c (build c) s.list.length = some ts ∧ ts.length ≤ c.roiCount 0 + c.roiCount 1 ∧
      ∀ i t, ts[i]? = some t → t.data = tempBase c + i * 2 ^ c.layers := by
    by_cases hL : 1 < c.layers
    · obtain ⟨ts, h3, h4⟩ := temps_good c s.list.length
      refine ⟨ts, by rw [temps, if_pos hL, h3], ?_, fun i t h => (h4.factor i t h).2⟩
      rw [← List.length_map (f := fun t : Temp => (t.luts, t.graphs)), h4.core]
      exact tlinks_length c
    · exact ⟨[], by rw [temps, if_neg hL], by simp, by simp⟩
  have hu : pairwBase c = (build c).count * 2 := by rw [pairwBase, unarySize, hcount]; ring
  have ht : tempBase c = pairwBase c + (build c).count * 8 := by rw [tempBase, pairwSize, hcount]; ring
  refine ⟨s, ts, h1, h3, ?_, ?_, ?_, ?_, ?_, ?_⟩
  · intro g hg; rw [hu, unaryData]; omega
  · intro g g' hg; simp only [Apart, unaryData]; omega
  · intro t htm
    have := ho t htm
    rw [h2.data t htm, ht]
    omega
  · have hk := links_keys c
    rw [← h2.core, List.map_map] at hk
    rw [List.Nodup, List.pairwise_map] at hk
    refine hk.imp_of_mem ?_
    intro a b ha hb hab
    have h5 := ho a ha
    have h6 := ho b hb
    have : ¬(a.owner = b.owner ∧ a.orient = b.orient) := by
      rintro ⟨e1, e2⟩; exact hab (by simp [Pair.core, e1, e2])
    rw [h2.data a ha, h2.data b hb]
    simp only [Apart]; omega
  · intro t htm
    obtain ⟨i, hi⟩ := List.mem_iff_getElem?.1 htm
    rw [h4.2 i t hi, dataEnd, tempSize]
    have hlt : i + 1 ≤ c.roiCount 0 + c.roiCount 1 := Nat.le_trans (List.getElem?_eq_some_iff.1 hi).1 h4.1
    have := Nat.mul_le_mul_right (2 ^ c.layers) hlt
    constructor
    · omega
    · linarith
  · rw [List.pairwise_iff_getElem]
    intro i j hi hj hij
    rw [h4.2 i _ (List.getElem?_eq_getElem hi), h4.2 j _ (List.getElem?_eq_getElem hj)]
    left
    have := Nat.mul_le_mul_right (2 ^ c.layers) hij
    rw [Nat.succ_mul] at this
    omega

/-- **Reserved functions.** There are never more functions than were reserved, so that adding one does not move the
others. -/
theorem functions_reserved (c : Cfg) (hL : 0 < c.layers) : ∃ s ts, pairs c (build c) = some s ∧
    temps c (build c) s.list.length = some ts ∧ (build c).count + s.list.length + ts.length ≤ reserved (build c) := by
  obtain ⟨s, h1, h2⟩ := pairs_good c
  have hs : s.list.length ≤ (build c).count * 2 := by
    rw [← List.length_map (f := Pair.core), h2.core]; exact links_length c
  have hc : c.roiCount 0 + c.roiCount 1 ≤ (build c).count := by
    rw [count_roi]; exact Nat.le_mul_of_pos_right _ hL
  by_cases hl : 1 < c.layers
  · obtain ⟨ts, h3, h4⟩ := temps_good c s.list.length
    refine ⟨s, ts, h1, by rw [temps, if_pos hl, h3], ?_⟩
    have : ts.length ≤ c.roiCount 0 + c.roiCount 1 := by
      rw [← List.length_map (f := fun t : Temp => (t.luts, t.graphs)), h4.core]; exact tlinks_length c
    rw [reserved]; omega
  · refine ⟨s, [], h1, by rw [temps, if_neg hl], ?_⟩
    rw [reserved]; simp; omega

/-- **Construction.** Regions of interest with at least two pixels each, which leave out at least one pixel each, are
accepted on any grid with two rows and columns: the constructor's count of the nodes never fails. -/
theorem create_partial (c : Cfg) (hr : 1 < c.rows) (hc : 1 < c.cols) (h : ∀ cam < 2, 1 < c.roiCount cam ∧ c.roiCount cam < c.size) :
    create c = some (build c) := by
  have h0 := h 0 (by omega)
  have h1 := h 1 (by omega)
  have hs : 1 < c.size := by omega
  rw [create]
  dsimp only
  rw [if_pos ⟨h0.1, h1.1, hs, hr, hc, h0.2, h1.2⟩, if_pos (count_roi c)]

example : 1 < exCfg.roiCount 0 ∧ exCfg.roiCount 0 < exCfg.size ∧ 1 < exCfg.roiCount 1 ∧ exCfg.roiCount 1 < exCfg.size := by decide

/-- **Full regions of interest are refused.** A region of interest which covers the whole image, the natural choice
without any rectification, is not accepted. -/
theorem create_refuted (c : Cfg) (cam : Nat) (hcam : cam < 2) (h : ∀ r < c.rows, ∀ k < c.cols, c.roi cam r k = true) : create c = none := by
  have hfull : c.roiCount cam = c.size := by
    rw [Cfg.roiCount, Cfg.size]
    have : ((List.range c.rows).map fun r => ((List.range c.cols).filter (c.roi cam r)).length) = (List.range c.rows).map fun _ => c.cols := by
      apply List.map_congr_left
      intro r hr
      rw [List.filter_eq_self.2 (fun k hk => h r (List.mem_range.1 hr) k (List.mem_range.1 hk)), List.length_range]
    rw [this]; simp
  rw [create]
  dsimp only
  rw [if_neg]
  rintro ⟨_, _, _, _, _, h0, h1⟩
  have : cam = 0 ∨ cam = 1 := by omega
  rcases this with rfl | rfl <;> omega

example : ∃ c : Cfg, 1 < c.rows ∧ 1 < c.cols ∧ (∀ r < c.rows, ∀ k < c.cols, c.roi 0 r k = true) ∧ create c = none :=
  ⟨⟨3, 4, 2, 2, fun _ _ _ => true⟩, by decide, by decide, fun _ _ _ _ => rfl, by decide⟩

end Litiv.ResegmGraph
