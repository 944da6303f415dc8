import Verif.Lemmas.Groups

/-!
# Properties of batch groups (C33, C37, C64, C66)
-/

namespace Litiv.Groups

open Litiv.Metrics

variable {L : Type}

/-! ### C33: group totals -/

/-- C33. Every total of a group is the sum over its work batches, at any nesting depth. -/
theorem count_sum (f : L → Nat) (bare : Bool) (bs : List (Batch L)) :
    (Batch.group bare bs).count f = ((leavesOf bs).map f).sum % 2^64 := by
  have h := countList_mod f bs 0
  rw [Nat.zero_add, Nat.mod_eq_of_lt (countList_lt f bs 0 (by norm_num))] at h
  rw [Batch.count, h]

/-- C33. A total that fits in `size_t` is exact. -/
theorem count_exact (f : L → Nat) (bare : Bool) (bs : List (Batch L)) (h : ((leavesOf bs).map f).sum < 2^64) :
    (Batch.group bare bs).count f = ((leavesOf bs).map f).sum := by
  rw [count_sum, Nat.mod_eq_of_lt h]

example : (Batch.group false [.group true [.leaf 4], .group false [.leaf 5, .leaf 6], .group true []]).count id = 15 := by
  decide

/-- C33. `getBatches(false)` lists each work batch once, in order. -/
theorem getBatches_leaves (bare : Bool) (bs : List (Batch L)) : (Batch.group bare bs).getBatches = leavesOf bs := by
  rw [Batch.getBatches, pushBatchList_eq, List.nil_append]

example : (Batch.group false [.group true [.leaf 4], .group false [.leaf 5, .leaf 6]]).getBatches = [4, 5, 6] := by decide

/-- C33. A group is processing/precaching exactly if one of its work batches is. -/
theorem anyOf_leaves (f : L → Bool) (b : Batch L) : b.anyOf f = true ↔ ∃ l ∈ b.leaves, f l = true := by
  rw [anyOf_iff, List.any_eq_true]

example : (Batch.group false [.leaf 1, .group false [.leaf 7, .leaf 2]]).anyOf (· == 7) = true := by decide

/-- C33. The counters of a group are the totals over its work batches, whatever the grouping. -/
theorem metricsBase_totals (b : Batch LeafData) : b.metricsBase = totals (b.leaves.map LeafData.base) := metricsBase_eq b

/-- C33. Two trees with the same work batches, in any order and grouping, have the same counters. -/
theorem metricsBase_regroup (b b' : Batch LeafData) (h : b.leaves.Perm b'.leaves) : b.metricsBase = b'.metricsBase := by
  rw [metricsBase_eq, metricsBase_eq]
  exact totals_perm _ _ (h.map _)

example : (Batch.group false [.leaf ⟨1, { tp := 3 }⟩, .group true [.leaf ⟨2, { tp := 4, fn := 1 }⟩]]).metricsBase =
    { tp := 7, fn := 1 } := by decide

/-! ### C37: averaged metrics -/

/-- C37. The averaged metrics of a tree are the unweighted means over its processed work batches: each processed batch
counts once whatever its size and its place in the tree, unprocessed batches do not count. -/
theorem average_metrics (b : Batch LeafData) (hwf : b.WF)
    (hs : (b.leaves.map LeafData.outputs).sum < 2^64) (hp : processed b.leaves ≠ [])
    (hf : ∀ l ∈ processed b.leaves, Fits l.base) :
    ∃ (c : Calc) (met : LeafData → BinMetrics), b.getMetrics true = some c ∧
      (∀ l ∈ processed b.leaves, calcMetrics l.base = some (met l)) ∧
      c.weight = (processed b.leaves).length ∧
      c.metrics.recall = mean ((processed b.leaves).map fun l => (met l).recall) ∧
      c.metrics.specificity = mean ((processed b.leaves).map fun l => (met l).specificity) ∧
      c.metrics.fpr = mean ((processed b.leaves).map fun l => (met l).fpr) ∧
      c.metrics.fnr = mean ((processed b.leaves).map fun l => (met l).fnr) ∧
      c.metrics.pbc = mean ((processed b.leaves).map fun l => (met l).pbc) ∧
      c.metrics.precision = mean ((processed b.leaves).map fun l => (met l).precision) ∧
      c.metrics.fmeasure = mean ((processed b.leaves).map fun l => (met l).fmeasure) ∧
      c.metrics.mcc = mean ((processed b.leaves).map fun l => (met l).mcc) := by
  have hm : ∀ l ∈ processed b.leaves, calcMetrics l.base = some ((calcMetrics l.base).getD
      ⟨0, 0, 0, 0, 0, 0, 0, 0⟩) := by
    intro l hl
    obtain ⟨v, hv, -⟩ := metrics_in_range l.base (hf l hl)
    rw [hv]; rfl
  obtain ⟨c, h1, h2⟩ := getMetrics_mean _ b hwf hm hs hp
  have hlen : ((processed b.leaves).length : ℝ) ≠ 0 := by
    rw [Nat.cast_ne_zero]; exact fun e => hp (List.length_eq_zero_iff.1 e)
  have key : ∀ (f : BinMetrics → ℝ) (x : ℝ) (met : LeafData → BinMetrics),
      x * (pmets met b.leaves).length = ((pmets met b.leaves).map f).sum →
      x = mean ((processed b.leaves).map fun l => f (met l)) := by
    intro f x met h
    unfold mean
    unfold pmets at h
    rw [List.length_map, List.map_map] at h
    rw [List.length_map, eq_div_iff hlen]
    exact h
  exact ⟨c, _, h1, hm, by rw [h2.weight, pmets, List.length_map], key _ _ _ h2.recall, key _ _ _ h2.specificity,
    key _ _ _ h2.fpr, key _ _ _ h2.fnr, key _ _ _ h2.pbc, key _ _ _ h2.precision, key _ _ _ h2.fmeasure,
    key _ _ _ h2.mcc⟩

/-- C37. Averaging with no processed batch has no result (the assertion on the first processed batch fails). -/
theorem average_none (bs : List (Batch LeafData)) (h : processed (leavesOf bs) = []) :
    (Batch.group false bs).getMetrics true = none := by
  rw [Batch.getMetrics]
  simp only [Bool.not_false, Bool.and_self, if_true]
  induction bs with
  | nil => rw [firstProcessed]
  | cons b bs ih =>
    rw [leavesOf, processed_append, List.append_eq_nil_iff] at h
    rw [firstProcessed, if_pos, ih h.2]
    have h0 := (processed_nil_iff _).1 h.1
    exact (count_zero_iff b (by omega)).2 h.1

/-- A dataset with a group of two batches (one unprocessed) and a bare group. -/
def exTree : Batch LeafData :=
  .group false [.group false [.leaf ⟨3, { tp := 8, fn := 2, tn := 10 }⟩, .leaf ⟨0, {}⟩],
    .group true [.leaf ⟨100, { tp := 100, fn := 300, fp := 7, tn := 5000 }⟩], .group true []]

example : exTree.WF := by
  simp [exTree, Batch.WF, wfList]
example : (exTree.leaves.map LeafData.outputs).sum < 2^64 := by decide
example : (processed exTree.leaves).length = 2 := by decide
example : ∀ l ∈ processed exTree.leaves, Fits l.base := by
  unfold Fits; decide
/-- The mean recall of the example is the mean of 8/10 and 100/400, not 108/410. -/
example : ∃ c, exTree.getMetrics true = some c ∧ c.metrics.recall = (8 / 10 + 100 / 400) / 2 := by
  obtain ⟨c, met, h1, h2, -, h3, -⟩ := average_metrics exTree (by simp [exTree, Batch.WF, wfList]) (by decide)
    (by decide) (by unfold Fits; decide)
  refine ⟨c, h1, ?_⟩
  have hl : processed exTree.leaves = [⟨3, { tp := 8, fn := 2, tn := 10 }⟩,
      ⟨100, { tp := 100, fn := 300, fp := 7, tn := 5000 }⟩] := by rfl
  rw [hl] at h2 h3
  have key : ∀ l, calcMetrics l.base = some (met l) → Fits l.base →
      (met l).recall = toR l.base.tp / (toR l.base.tp + toR l.base.fn) := by
    intro l hl hf
    obtain ⟨r, -⟩ := ratio_values l.base hf
    simp only [calcMetrics, Option.bind_eq_bind, r, Option.bind_some, Option.bind_eq_some_iff] at hl
    obtain ⟨_, _, _, _, _, _, _, _, _, _, _, _, _, _, e⟩ := hl
    rw [← Option.some.inj e]
  have e1 := key ⟨3, { tp := 8, fn := 2, tn := 10 }⟩ (h2 _ (by simp)) (by unfold Fits; decide)
  have e2 := key ⟨100, { tp := 100, fn := 300, fp := 7, tn := 5000 }⟩ (h2 _ (by simp)) (by unfold Fits; decide)
  rw [h3]
  simp only [mean, List.map_cons, List.map_nil, List.sum_cons, List.sum_nil, List.length_cons, List.length_nil, e1, e2]
  have t : toR 8 = 8 ∧ toR 2 = 2 ∧ toR 100 = 100 ∧ toR 300 = 300 := by
    unfold toR
    exact ⟨by exact_mod_cast rfl, by exact_mod_cast rfl, by exact_mod_cast rfl, by exact_mod_cast rfl⟩
  rw [t.1, t.2.1, t.2.2.1, t.2.2.2]
  norm_num

/-- C37. Accumulating two metric sets of a stream array takes the weighted mean of each stream. -/
theorem arr_acc_wmean (a m : ArrCalc) (h : a.metrics.length = m.metrics.length) (hw : 0 < a.weight) :
    ∃ r, a.acc m = some r ∧ r.weight = a.weight + m.weight ∧ r.metrics.length = a.metrics.length ∧
      ∀ (i : Nat) x y z, a.metrics[i]? = some x → m.metrics[i]? = some y → r.metrics[i]? = some z →
        wmeanMetrics y m.weight x a.weight = some z := by
  have hall : ∀ p ∈ List.zip m.metrics a.metrics,
      ∃ z, wmeanMetrics p.1 m.weight p.2 a.weight = some z := by
    intro p _
    simp only [wmeanMetrics, wmean_eq _ _ _ _ hw, Option.bind_eq_bind, Option.bind_some]
    exact ⟨_, rfl⟩
  have hmap : ∀ (l : List (BinMetrics × BinMetrics)), (∀ p ∈ l, ∃ z, wmeanMetrics p.1 m.weight p.2 a.weight = some z) →
      ∃ r, (l.mapM fun p => wmeanMetrics p.1 m.weight p.2 a.weight) = some r ∧ r.length = l.length ∧
        ∀ (i : Nat) p z, l[i]? = some p → r[i]? = some z → wmeanMetrics p.1 m.weight p.2 a.weight = some z := by
    intro l
    induction l with
    | nil => intro _; exact ⟨[], rfl, rfl, by simp⟩
    | cons p l ih =>
      intro hl
      obtain ⟨z, hz⟩ := hl p (by simp)
      obtain ⟨r, h1, h2, h3⟩ := ih fun q hq => hl q (by simp [hq])
      refine ⟨z :: r, ?_, by simp [h2], ?_⟩
      · rw [List.mapM_cons, hz, h1]; rfl
      · intro i q w hq hw'
        cases i with
        | zero => simp at hq hw'; subst hq; subst hw'; exact hz
        | succ i => simp at hq hw'; exact h3 i q w hq hw'
  obtain ⟨r, h1, h2, h3⟩ := hmap _ hall
  refine ⟨{ metrics := r, weight := a.weight + m.weight }, ?_, rfl, ?_, ?_⟩
  · unfold ArrCalc.acc
    rw [if_pos h, h1]; rfl
  · simp [h2, h]
  · intro i x y z hx hy hz
    refine h3 i (y, x) z ?_ hz
    rw [List.getElem?_zip_eq_some]
    exact ⟨hy, hx⟩

example : ({ metrics := [⟨1, 1, 0, 0, 0, 1, 1, 1⟩] } : ArrCalc).metrics.length =
    ({ metrics := [⟨0, 1, 0, 1, 0, 1, 1, 1⟩] } : ArrCalc).metrics.length := rfl

/-- C37. Metric arrays of different stream counts are rejected. -/
theorem arr_acc_rejects (a m : ArrCalc) (h : a.metrics.length ≠ m.metrics.length) : a.acc m = none := by
  unfold ArrCalc.acc
  rw [if_neg h]

example : ({ metrics := [⟨1, 1, 0, 0, 0, 1, 1, 1⟩] } : ArrCalc).metrics.length ≠ ({ metrics := [] } : ArrCalc).metrics.length := by
  simp

theorem foldl_add_fields (ms : List BinMetrics) (m : BinMetrics) (f : BinMetrics → ℝ)
    (hf : ∀ a b, f (a.add b) = f a + f b) : f (ms.foldl BinMetrics.add m) = ((m :: ms).map f).sum := by
  induction ms generalizing m with
  | nil => simp
  | cons a ms ih => rw [List.foldl_cons, ih]; simp [hf, add_assoc]

/-- C37. Reducing a stream array gives the mean of each metric over the streams; an empty array cannot be reduced. -/
theorem arr_reduce_mean (a : ArrCalc) (h : a.metrics ≠ []) :
    ∃ r, a.reduce = some r ∧ r.recall = mean (a.metrics.map BinMetrics.recall) ∧
      r.specificity = mean (a.metrics.map BinMetrics.specificity) ∧ r.fpr = mean (a.metrics.map BinMetrics.fpr) ∧
      r.fnr = mean (a.metrics.map BinMetrics.fnr) ∧ r.pbc = mean (a.metrics.map BinMetrics.pbc) ∧
      r.precision = mean (a.metrics.map BinMetrics.precision) ∧
      r.fmeasure = mean (a.metrics.map BinMetrics.fmeasure) ∧ r.mcc = mean (a.metrics.map BinMetrics.mcc) := by
  unfold ArrCalc.reduce
  cases hm : a.metrics with
  | nil => exact absurd hm h
  | cons m ms =>
    have hne : ((ms.length + 1 : Nat) : ℝ) ≠ 0 := Nat.cast_ne_zero.2 (by omega)
    refine ⟨_, by
      simp only [BinMetrics.quot, divc_of_ne _ _ hne, Option.bind_eq_bind, Option.bind_some]; rfl, ?_⟩
    have key : ∀ f : BinMetrics → ℝ, (∀ a b, f (a.add b) = f a + f b) →
        f (ms.foldl BinMetrics.add m) / ((ms.length + 1 : Nat) : ℝ) = mean ((m :: ms).map f) := by
      intro f hf
      rw [foldl_add_fields _ _ f hf, mean, List.length_map, List.length_cons]
    exact ⟨key _ fun _ _ => rfl, key _ fun _ _ => rfl, key _ fun _ _ => rfl, key _ fun _ _ => rfl, key _ fun _ _ => rfl,
      key _ fun _ _ => rfl, key _ fun _ _ => rfl, key _ fun _ _ => rfl⟩

example : ({ metrics := [⟨1, 1, 0, 0, 0, 1, 1, 1⟩, ⟨0, 1, 0, 1, 0, 1, 1, 1⟩] } : ArrCalc).metrics ≠ [] := by simp

/-! ### C64: parsing -/

/-- The work batches the user expects from a directory tree: the kept subdirectories of each kept group directory, or
the group directory itself if it has no subdirectory. -/
def expectedBatches (skip : String → Bool) (dirs : List Dir) : List (String × String) :=
  (dirs.filter fun d => !skip d.name).flatMap fun d =>
    if d.subdirs = [] then [(d.name, d.name)] else (d.subdirs.filter fun s => !skip s).map fun s => (d.name, s)

theorem leavesOf_leaf (g : String) (l : List String) :
    leavesOf (l.map fun s => (Batch.leaf (g, s) : Batch (String × String))) = l.map fun s => (g, s) := by
  induction l with
  | nil => rfl
  | cons a l ih => simp [leavesOf, Batch.leaves, ih]

theorem wfList_leaf (g : String) (l : List String) :
    wfList (l.map fun s => (Batch.leaf (g, s) : Batch (String × String))) := by
  induction l with
  | nil => trivial
  | cons a l ih => exact ⟨trivial, ih⟩

theorem parseGroup_leaves (skip : String → Bool) (d : Dir) :
    (parseGroup skip d).leaves = if skip d.name then [] else
      if d.subdirs = [] then [(d.name, d.name)] else (d.subdirs.filter fun s => !skip s).map fun s => (d.name, s) := by
  unfold parseGroup
  split
  · rfl
  · by_cases h : d.subdirs = []
    · simp [h, Batch.leaves, leavesOf]
    · have h' : d.subdirs.isEmpty = false := by simp [h]
      simp only [h', Bool.false_eq_true, if_false, if_neg h, Batch.leaves, leavesOf_leaf]

/-- C64. The parsed dataset has exactly the expected work batches, in order. -/
theorem parse_leaves (skip : String → Bool) (dirs : List Dir) :
    (parseDataset skip dirs).leaves = expectedBatches skip dirs := by
  unfold parseDataset expectedBatches
  rw [Batch.leaves]
  induction dirs with
  | nil => rfl
  | cons d dirs ih =>
    rw [List.map_cons, leavesOf, ih, parseGroup_leaves]
    cases h : skip d.name <;> simp [h]

/-- C64. Parsed trees are well-formed (the hypothesis of `average_metrics`). -/
theorem parse_wf (skip : String → Bool) (dirs : List Dir) : (parseDataset skip dirs).WF := by
  unfold parseDataset
  rw [Batch.WF]
  induction dirs with
  | nil => trivial
  | cons d dirs ih =>
    refine ⟨?_, ih⟩
    unfold parseGroup
    split
    · exact Or.inl rfl
    · split
      · exact Or.inr ⟨_, rfl⟩
      · exact wfList_leaf _ _

/-- C64. No batch of the dataset has a skipped name, unless it stands for a group without subdirectory. -/
theorem parse_not_skipped (skip : String → Bool) (dirs : List Dir) (g s : String)
    (h : (g, s) ∈ (parseDataset skip dirs).getBatches) : skip g = false ∧ skip s = false := by
  have h' : (g, s) ∈ expectedBatches skip dirs := by
    rw [← parse_leaves]; rw [parseDataset, getBatches_leaves] at h; rw [parseDataset, Batch.leaves]; exact h
  unfold expectedBatches at h'
  rw [List.mem_flatMap] at h'
  obtain ⟨d, hd, hm⟩ := h'
  rw [List.mem_filter] at hd
  have hd2 : skip d.name = false := by simpa using hd.2
  split at hm
  · simp at hm; rw [hm.1, hm.2]; exact ⟨hd2, hd2⟩
  · rw [List.mem_map] at hm
    obtain ⟨x, hx, e⟩ := hm
    rw [List.mem_filter] at hx
    cases e
    exact ⟨hd2, by simpa using hx.2⟩

/-- A directory tree with a plain group, a group without subdirectory and a skipped subdirectory. -/
def exDirs : List Dir := [⟨"a", ["x", "skip", "y"]⟩, ⟨"b", []⟩]

example : (parseDataset (· == "skip") exDirs).getBatches = [("a", "x"), ("a", "y"), ("b", "b")] := by decide

/-! ### C66: printing the structure -/

mutual
theorem print_batches : ∀ (b : Batch L) (out : List (Line L)), b.print = some out → batchLines out = b.leaves
  | .leaf l, out, h => by rw [Batch.print] at h; cases h; rfl
  | .group true bs, out, h => by
    match bs, h with
    | [b], h =>
      rw [Batch.print] at h
      rw [Batch.leaves, leavesOf, leavesOf, List.append_nil]
      exact print_batches b out h
    | [], h => simp [Batch.print] at h
    | _ :: _ :: _, h => simp [Batch.print] at h
  | .group false bs, out, h => by
    rw [Batch.print, Option.map_eq_some_iff] at h
    obtain ⟨o, ho, rfl⟩ := h
    rw [batchLines, Batch.leaves]
    exact printList_batches bs o ho
theorem printList_batches : ∀ (bs : List (Batch L)) (out : List (Line L)), printList bs = some out →
    batchLines out = leavesOf bs
  | [], out, h => by rw [printList] at h; cases h; rfl
  | b :: bs, out, h => by
    rw [printList] at h
    simp only [Option.bind_eq_bind, Option.bind_eq_some_iff, Option.pure_def, Option.some.injEq] at h
    obtain ⟨o1, h1, o2, h2, rfl⟩ := h
    have : ∀ a b : List (Line L), batchLines (a ++ b) = batchLines a ++ batchLines b := by
      intro a b
      induction a with
      | nil => rfl
      | cons x a ih => cases x <;> simp [batchLines, ih]
    rw [this, print_batches b o1 h1, printList_batches bs o2 h2, leavesOf]
end

theorem printList_leaf (g : String) (l : List String) :
    printList (l.map fun s => (Batch.leaf (g, s) : Batch (String × String))) = some (l.map fun s => Line.batch (g, s)) := by
  induction l with
  | nil => rfl
  | cons a l ih => simp [printList, Batch.print, ih]

theorem parseGroup_print (skip : String → Bool) (d : Dir) :
    (parseGroup skip d).print = none ↔ skip d.name = true := by
  unfold parseGroup
  split
  · simp [Batch.print, *]
  · split
    · simp [Batch.print, *]
    · simp [Batch.print, printList_leaf, *]

theorem printDirs_none (skip : String → Bool) (dirs : List Dir) :
    printList (dirs.map (parseGroup skip)) = none ↔ ∃ d ∈ dirs, skip d.name = true := by
  induction dirs with
  | nil => simp [printList]
  | cons d dirs ih =>
    rw [List.map_cons, printList]
    have h1 := parseGroup_print skip d
    cases hp : (parseGroup skip d).print with
    | none => simp [h1.1 hp]
    | some o =>
      have hs : ¬ skip d.name = true := fun h => by rw [h1.2 h] at hp; cases hp
      cases hl : printList (dirs.map (parseGroup skip)) with
      | none =>
        obtain ⟨d', hd', e⟩ := ih.1 hl
        simp only [Option.bind_eq_bind, Option.bind_some, Option.bind_none, true_iff]
        exact ⟨d', by simp [hd'], e⟩
      | some o' =>
        have : ¬ ∃ d ∈ dirs, skip d.name = true := fun h => by rw [ih.2 h] at hl; cases hl
        simp only [Option.bind_eq_bind, Option.bind_some, Option.pure_def, reduceCtorEq, false_iff]
        rintro ⟨d', hd', e⟩
        rcases List.mem_cons.1 hd' with rfl | h
        · exact hs e
        · exact this ⟨d', h, e⟩

/-- C66, partial: a dataset can be created, and its printed structure lists its work batches in order, as long as no
top-level group directory is skipped. Missing: datasets with a skipped group, see `create_skipped_group`. -/
theorem create_ok_partial (skip : String → Bool) (dirs : List Dir) (h : ∀ d ∈ dirs, skip d.name = false) :
    createDataset skip dirs = some (parseDataset skip dirs) ∧
      ∃ out, printDataset (dirs.map (parseGroup skip)) = some out ∧ batchLines out = expectedBatches skip dirs := by
  have hn : ¬ printList (dirs.map (parseGroup skip)) = none := by
    rw [printDirs_none]
    rintro ⟨d, hd, e⟩
    rw [h d hd] at e; cases e
  obtain ⟨o, ho⟩ := Option.ne_none_iff_exists'.1 hn
  have hb := printList_batches _ _ ho
  rw [← parse_leaves, parseDataset, Batch.leaves, createDataset, printDataset]
  by_cases he : (dirs.map (parseGroup skip)).isEmpty = true
  · rw [if_pos he]
    refine ⟨rfl, _, rfl, ?_⟩
    rw [List.isEmpty_iff] at he
    rw [he]; rfl
  · rw [if_neg he, ho]
    exact ⟨rfl, _, rfl, hb⟩

example : ∀ d ∈ exDirs, (d.name == "skip") = false := by decide

/-- C66, refuted: whenever a top-level group directory matches a skip token, creating the dataset fails. -/
theorem create_skipped_group (skip : String → Bool) (dirs : List Dir) (h : ∃ d ∈ dirs, skip d.name = true) :
    createDataset skip dirs = none := by
  have h1 := (printDirs_none skip dirs).2 h
  obtain ⟨d, hd, -⟩ := h
  have he : (dirs.map (parseGroup skip)).isEmpty = false := by
    cases dirs with
    | nil => cases hd
    | cons => rfl
  rw [createDataset, printDataset, he, h1]; rfl

example : createDataset (· == "b") exDirs = none := by decide

end Litiv.Groups
