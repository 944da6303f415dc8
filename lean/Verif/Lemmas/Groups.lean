import Verif.Spec.Groups
import Verif.Props.Metrics

/-! # Auxiliary lemmas for batch groups -/

namespace Litiv.Groups

open Litiv.Metrics

variable {L : Type}

mutual
theorem count_mod (f : L → Nat) : ∀ b : Batch L, b.count f % 2^64 = (b.leaves.map f).sum % 2^64
  | .leaf l => by simp [Batch.count, Batch.leaves]
  | .group _ bs => by
    rw [Batch.count, Batch.leaves, countList_mod f bs 0, Nat.zero_add]
theorem countList_mod (f : L → Nat) : ∀ (bs : List (Batch L)) (acc : Nat),
    countList f acc bs % 2^64 = (acc + ((leavesOf bs).map f).sum) % 2^64
  | [], acc => by simp [countList, leavesOf]
  | b :: bs, acc => by
    rw [countList, leavesOf, countList_mod f bs, List.map_append, List.sum_append, Nat.add_mod, Nat.mod_mod,
      Nat.add_mod acc, count_mod f b, ← Nat.add_mod acc, ← Nat.add_mod, Nat.add_assoc]
end

theorem countList_lt (f : L → Nat) : ∀ (bs : List (Batch L)) (acc : Nat), acc < 2^64 → countList f acc bs < 2^64
  | [], acc, h => by rw [countList]; exact h
  | b :: bs, acc, _ => by rw [countList]; exact countList_lt f bs _ (Nat.mod_lt _ (by norm_num))

mutual
theorem anyOf_iff (f : L → Bool) : ∀ b : Batch L, b.anyOf f = b.leaves.any f
  | .leaf l => by simp [Batch.anyOf, Batch.leaves]
  | .group _ bs => by rw [Batch.anyOf, Batch.leaves, anyOfList_iff f bs]
theorem anyOfList_iff (f : L → Bool) : ∀ bs : List (Batch L), anyOfList f bs = (leavesOf bs).any f
  | [] => by simp [anyOfList, leavesOf]
  | b :: bs => by
    rw [anyOfList, leavesOf, List.any_append, anyOf_iff f b, anyOfList_iff f bs]
    cases b.leaves.any f <;> rfl
end

mutual
theorem pushBatches_eq : ∀ (b : Batch L) (acc : List L), pushBatches acc b = acc ++ b.leaves
  | .leaf l, acc => by simp [pushBatches, Batch.leaves]
  | .group _ bs, acc => by rw [pushBatches, Batch.leaves, pushBatchList_eq bs]
theorem pushBatchList_eq : ∀ (bs : List (Batch L)) (acc : List L), pushBatchList acc bs = acc ++ leavesOf bs
  | [], acc => by simp [pushBatchList, leavesOf]
  | b :: bs, acc => by
    rw [pushBatchList, leavesOf, pushBatches_eq b, pushBatchList_eq bs, List.append_assoc]
end

mutual
theorem metricsBase_eq : ∀ b : Batch LeafData, b.metricsBase = totals (b.leaves.map LeafData.base)
  | .leaf l => by simp [Batch.metricsBase, Batch.leaves, totals, zero_acc]
  | .group _ bs => by rw [Batch.metricsBase, Batch.leaves, baseList_eq bs, zero_acc]
theorem baseList_eq : ∀ (bs : List (Batch LeafData)) (acc : BinClassif),
    baseList acc bs = acc.acc (totals ((leavesOf bs).map LeafData.base))
  | [], acc => by simp [baseList, leavesOf, totals, BinClassif.acc]
  | b :: bs, acc => by
    rw [baseList, leavesOf, baseList_eq bs, metricsBase_eq b, acc_assoc]
    congr 1
    rw [List.map_append]
    simp only [totals, List.foldl_append]
    rw [foldl_acc_init (List.map LeafData.base (leavesOf bs)) (List.foldl _ _ _)]
end

/-- `c` holds the means of the metric sets `ms`. -/
structure IsMean (c : Calc) (ms : List BinMetrics) : Prop where
  ne : ms ≠ []
  weight : c.weight = ms.length
  recall : c.metrics.recall * ms.length = (ms.map BinMetrics.recall).sum
  specificity : c.metrics.specificity * ms.length = (ms.map BinMetrics.specificity).sum
  fpr : c.metrics.fpr * ms.length = (ms.map BinMetrics.fpr).sum
  fnr : c.metrics.fnr * ms.length = (ms.map BinMetrics.fnr).sum
  pbc : c.metrics.pbc * ms.length = (ms.map BinMetrics.pbc).sum
  precision : c.metrics.precision * ms.length = (ms.map BinMetrics.precision).sum
  fmeasure : c.metrics.fmeasure * ms.length = (ms.map BinMetrics.fmeasure).sum
  mcc : c.metrics.mcc * ms.length = (ms.map BinMetrics.mcc).sum

theorem wmean_eq (x2 : ℝ) (w2 : Nat) (x : ℝ) (w : Nat) (h : 0 < w) :
    wmean x2 w2 x w = some ((x2 * w2 + x * w) / ((w : ℝ) + w2)) := by
  unfold wmean
  rw [divc_of_ne, Nat.cast_add]
  exact Nat.cast_ne_zero.2 (by omega)

theorem IsMean.acc {c c' : Calc} {ms ms' : List BinMetrics} (h : IsMean c ms) (h' : IsMean c' ms') :
    ∃ r, c.acc c' = some r ∧ IsMean r (ms ++ ms') := by
  have hw : 0 < c.weight := by rw [h.weight]; exact List.length_pos_iff.2 h.ne
  have hne : ((c.weight : ℝ) + c'.weight) ≠ 0 := by
    have : (0 : ℝ) < c.weight := Nat.cast_pos.2 hw
    positivity
  refine ⟨_, by
    simp only [Calc.acc, wmeanMetrics, wmean_eq _ _ _ _ hw, Option.bind_eq_bind, Option.bind_some]; rfl, ?_⟩
  have e1 := h.weight
  have e2 := h'.weight
  have key : ∀ (f : BinMetrics → ℝ) (x x' : ℝ), x * ms.length = (ms.map f).sum → x' * ms'.length = (ms'.map f).sum →
      (x' * c'.weight + x * c.weight) / ((c.weight : ℝ) + c'.weight) * ((ms ++ ms').length : Nat) =
        ((ms ++ ms').map f).sum := by
    intro f x x' hx hx'
    rw [List.length_append, Nat.cast_add, ← e1, ← e2, div_mul_cancel₀ _ hne, List.map_append, List.sum_append, ← hx, ← hx',
      e1, e2, add_comm]
  refine ⟨by simp [h.ne], by simp [e1, e2], key _ _ _ h.recall h'.recall, key _ _ _ h.specificity h'.specificity,
    key _ _ _ h.fpr h'.fpr, key _ _ _ h.fnr h'.fnr, key _ _ _ h.pbc h'.pbc, key _ _ _ h.precision h'.precision,
    key _ _ _ h.fmeasure h'.fmeasure, key _ _ _ h.mcc h'.mcc⟩

theorem isMean_single (m : BinMetrics) : IsMean { metrics := m } [m] := by
  constructor <;> simp

theorem processed_append (a b : List LeafData) : processed (a ++ b) = processed a ++ processed b := by
  simp [processed]

theorem processed_nil_iff (ls : List LeafData) : processed ls = [] ↔ (ls.map LeafData.outputs).sum = 0 := by
  induction ls with
  | nil => simp [processed]
  | cons l ls ih =>
    rw [List.map_cons, List.sum_cons]
    unfold processed at *
    by_cases h : 0 < l.outputs
    · rw [List.filter_cons_of_pos (by simpa using h)]
      simp only [reduceCtorEq, false_iff]; omega
    · rw [List.filter_cons_of_neg (by simpa using h), ih]; omega

/-- Metrics of the processed batches of a list, given a choice `met` of metrics for each. -/
noncomputable def pmets (met : LeafData → BinMetrics) (ls : List LeafData) : List BinMetrics := (processed ls).map met

theorem pmets_append (met : LeafData → BinMetrics) (a b : List LeafData) :
    pmets met (a ++ b) = pmets met a ++ pmets met b := by simp [pmets, processed_append]

mutual
theorem count_eq (b : Batch LeafData) (h : (b.leaves.map LeafData.outputs).sum < 2^64) :
    b.count LeafData.outputs = (b.leaves.map LeafData.outputs).sum := by
  cases b with
  | leaf l => simp [Batch.count, Batch.leaves]
  | group _ bs =>
    have h1 := count_mod LeafData.outputs (.group ‹_› bs)
    rw [Nat.mod_eq_of_lt h, Nat.mod_eq_of_lt] at h1
    · exact h1
    · rw [Batch.count]; exact countList_lt _ _ _ (by norm_num)
end

theorem count_zero_iff (b : Batch LeafData) (h : (b.leaves.map LeafData.outputs).sum < 2^64) :
    b.count LeafData.outputs = 0 ↔ processed b.leaves = [] := by
  rw [count_eq b h, processed_nil_iff]

mutual
theorem getMetrics_mean (met : LeafData → BinMetrics) : ∀ (b : Batch LeafData), b.WF →
    (∀ l ∈ processed b.leaves, calcMetrics l.base = some (met l)) → (b.leaves.map LeafData.outputs).sum < 2^64 →
    processed b.leaves ≠ [] → ∃ c, b.getMetrics true = some c ∧ IsMean c (pmets met b.leaves)
  | .leaf l, _, hm, _, hp => by
    have hl : processed [l] = [l] := by
      unfold processed
      by_cases h : 0 < l.outputs
      · simp [h]
      · exact absurd (by simp [processed, Batch.leaves, h]) hp
    have := hm l (by rw [Batch.leaves, hl]; simp)
    refine ⟨{ metrics := met l }, by simp [Batch.getMetrics, mkCalc, this], ?_⟩
    rw [Batch.leaves, pmets, hl]
    exact isMean_single _
  | .group true bs, hwf, hm, _, hp => by
    rcases hwf with rfl | ⟨l, rfl⟩
    · exact absurd (by simp [processed, Batch.leaves, leavesOf]) hp
    · have hlv : (Batch.group true [Batch.leaf l]).leaves = [l] := by simp [Batch.leaves, leavesOf]
      rw [hlv] at hm hp ⊢
      have hl : processed [l] = [l] := by
        unfold processed
        by_cases h : 0 < l.outputs
        · simp [h]
        · exact absurd (by simp [processed, h]) hp
      have := hm l (by rw [hl]; simp)
      refine ⟨{ metrics := met l }, ?_, ?_⟩
      · simp [Batch.getMetrics, mkCalc, baseList, Batch.metricsBase, zero_acc, this]
      · rw [pmets, hl]; exact isMean_single _
  | .group false bs, hwf, hm, hs, hp => by
    rw [Batch.getMetrics]
    exact firstProcessed_mean met bs hwf hm hs hp
theorem firstProcessed_mean (met : LeafData → BinMetrics) : ∀ (bs : List (Batch LeafData)), wfList bs →
    (∀ l ∈ processed (leavesOf bs), calcMetrics l.base = some (met l)) → ((leavesOf bs).map LeafData.outputs).sum < 2^64 →
    processed (leavesOf bs) ≠ [] → ∃ c, firstProcessed true bs = some c ∧ IsMean c (pmets met (leavesOf bs))
  | [], _, _, _, hp => absurd (by simp [processed, leavesOf]) hp
  | b :: bs, hwf, hm, hs, hp => by
    rw [leavesOf] at hm hs hp ⊢
    rw [List.map_append, List.sum_append] at hs
    rw [processed_append] at hm hp
    have hz := count_zero_iff b (by omega)
    rw [firstProcessed]
    by_cases h0 : b.count LeafData.outputs = 0
    · rw [if_pos h0]
      have hb := hz.1 h0
      rw [hb, List.nil_append] at hp hm
      obtain ⟨c, h1, h2⟩ := firstProcessed_mean met bs hwf.2 hm (by omega) hp
      refine ⟨c, h1, ?_⟩
      rw [pmets_append, pmets, hb]
      exact h2
    · rw [if_neg h0]
      obtain ⟨c, h1, h2⟩ := getMetrics_mean met b hwf.1 (fun l hl => hm l (by simp [hl])) (by omega) (fun e => h0 (hz.2 e))
      obtain ⟨c', h3, h4⟩ := accRest_mean met bs c _ hwf.2 (fun l hl => hm l (by simp [hl])) (by omega) h2
      exact ⟨c', by rw [h1, Option.bind_some, h3], by rw [pmets_append]; exact h4⟩
theorem accRest_mean (met : LeafData → BinMetrics) : ∀ (bs : List (Batch LeafData)) (c : Calc) (ms : List BinMetrics),
    wfList bs → (∀ l ∈ processed (leavesOf bs), calcMetrics l.base = some (met l)) →
    ((leavesOf bs).map LeafData.outputs).sum < 2^64 → IsMean c ms →
    ∃ c', accRest true c bs = some c' ∧ IsMean c' (ms ++ pmets met (leavesOf bs))
  | [], c, ms, _, _, _, hc => ⟨c, by rw [accRest], by simpa [pmets, processed, leavesOf] using hc⟩
  | b :: bs, c, ms, hwf, hm, hs, hc => by
    rw [leavesOf] at hm hs ⊢
    rw [List.map_append, List.sum_append] at hs
    rw [processed_append] at hm
    have hz := count_zero_iff b (by omega)
    rw [accRest]
    by_cases h0 : b.count LeafData.outputs > 0
    · rw [if_pos h0]
      obtain ⟨m, h1, h2⟩ := getMetrics_mean met b hwf.1 (fun l hl => hm l (by simp [hl])) (by omega)
        (fun e => by have := hz.2 e; omega)
      obtain ⟨c1, h3, h4⟩ := hc.acc h2
      obtain ⟨c2, h5, h6⟩ := accRest_mean met bs c1 _ hwf.2 (fun l hl => hm l (by simp [hl])) (by omega) h4
      refine ⟨c2, by rw [h1, Option.bind_some, h3, Option.bind_some, h5], ?_⟩
      rw [pmets_append, ← List.append_assoc]; exact h6
    · rw [if_neg h0]
      have hb := hz.1 (by omega)
      obtain ⟨c2, h5, h6⟩ := accRest_mean met bs c ms hwf.2 (fun l hl => hm l (by simp [hl])) (by omega) hc
      refine ⟨c2, h5, ?_⟩
      rw [pmets_append, show pmets met b.leaves = [] by rw [pmets, hb]; rfl, List.nil_append]; exact h6
end

end Litiv.Groups
