import Verif.Lemmas.GMInfo

/-! # Theorems about the description of graphical models -/

namespace Litiv.GMInfo

open Spec

/-- The description is always printed: the count of factors always agrees. -/
theorem printed (labels orders : List Nat) : ∃ i, printModelInfo labels orders = some i ∧
    i.vars = labels.length ∧ i.factors = orders.length ∧ Bins orders i.bins := by
  have h := fold_spec orders [] (by simp [Sorted])
  have hsum : (histogram orders).foldl (fun n p => n + p.2) 0 = orders.length := by
    rw [foldl_sum]
    unfold histogram
    rw [h.2.2.2]
    simp
  unfold printModelInfo
  dsimp only
  rw [if_pos hsum]
  refine ⟨_, rfl, rfl, rfl, h.1, ?_⟩
  intro k c
  change (k, c) ∈ List.foldl (fun h k => bump k h) [] orders ↔ _
  rw [mem_val _ h.1 k c, h.2.2.1 k, h.2.1 k]
  simp [val]

/-- With at least one variable (and numbers of labels that fit a `size_t`) the labels are described truthfully.
Without variables they are not: see `labels_refuted`. -/
theorem labels_partial (labels orders : List Nat) (i : Info) (h0 : labels ≠ []) (hm : ∀ l ∈ labels, l ≤ sizeMax)
    (h : printModelInfo labels orders = some i) : Truthful labels i.labels := by
  have hr := range_fold labels (sizeMax, 0)
  dsimp only at hr
  have hlab : i.labels = if (labelRange labels).1 = (labelRange labels).2 then .each (labelRange labels).1
      else .range (labelRange labels).1 (labelRange labels).2 := by
    unfold printModelInfo at h
    dsimp only at h
    split at h
    · simp only [Option.some.injEq] at h
      rw [← h]
    · simp at h
  unfold labelRange at hlab
  obtain ⟨h1, h2, h3, h4, h5⟩ := hr
  generalize labels.foldl (fun (a : Nat × Nat) n => (min n a.1, max n a.2)) (sizeMax, 0) = r at *
  rw [hlab]
  by_cases he : r.1 = r.2
  · rw [if_pos he]
    intro l hl
    have := h5 l hl
    omega
  · rw [if_neg he]
    obtain ⟨l, hl⟩ := List.exists_mem_of_ne_nil labels h0
    have hb := h5 l hl
    have hl1 := hm l hl
    refine ⟨⟨?_, ?_⟩, by omega, h5⟩
    · rcases h1 with h1 | h1
      · have : r.1 = l := by omega
        rw [this]
        exact hl
      · exact h1
    · rcases h2 with h2 | h2
      · have : r.2 = l := by omega
        rw [this]
        exact hl
      · exact h2

/-- A model without variables is said to have up to `SIZE_MAX` labels at least and none at most. -/
theorem labels_refuted : ∃ i, printModelInfo [] [] = some i ∧ i.labels = .range sizeMax 0 ∧ ¬ Truthful [] i.labels := by
  refine ⟨_, rfl, by decide, ?_⟩
  intro h
  exact absurd h.1.1 (by simp)

example : printModelInfo [3, 2, 3] [2, 1, 3, 1, 2, 1] = some ⟨3, .range 2 3, 6, [(1, 3), (2, 2), (3, 1)]⟩ := by
  decide +kernel

example : (printModelInfo [4, 4] [2]).map (fun i => i.labels) = some (.each 4) := by decide +kernel

end Litiv.GMInfo
