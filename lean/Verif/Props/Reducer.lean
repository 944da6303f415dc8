import Verif.Spec.Reducer
import Verif.Lemmas.Reducer

/-!
# Term reduction: properties
-/

namespace Litiv.Reducer
open Spec Finset

variable {R L : Type} [Ring R]

theorem termVars_all (n : Nat) (node : Nat → Nat) (s x : Nat) (move : Nat → Bool)
    (hx : ∀ i, i < n → x.testBit i = move (node i)) :
    (termVars n node s).all move = true ↔ Sub n s x := by
  unfold termVars Sub
  rw [List.all_eq_true]
  constructor
  · intro h i hi hs
    rw [hx i hi]
    apply h
    rw [List.mem_insertionSort, List.mem_map]
    exact ⟨i, by rw [List.mem_filter, List.mem_range]; exact ⟨hi, by rw [bit_eq]; exact hs⟩, rfl⟩
  · intro h v hv
    rw [List.mem_insertionSort, List.mem_map] at hv
    obtain ⟨i, hi, rfl⟩ := hv
    rw [List.mem_filter, List.mem_range, bit_eq] at hi
    rw [← hx i hi.1]
    exact h i hi.1 hi.2

theorem labels_moved (n : Nat) (alpha : L) (cur : Nat → L) (var : Nat → Nat) (move : Nat → Bool)
    (x : Nat) (hx : ∀ i, i < n → x.testBit i = move (var i)) :
    labels n alpha cur x = moved n alpha cur var move := by
  unfold labels moved
  apply List.map_congr_left
  intro i hi
  rw [bit_eq, hx i (List.mem_range.mp hi)]

/-- the sum over the non-empty masks -/
theorem terms_value (n : Nat) (hn : n ≤ 31) (energy : List L → R) (alpha : L) (cur : Nat → L)
    (node : Nat → Nat) (move : Nat → Bool) :
    value (terms n energy alpha cur node) move =
      energy (moved n alpha cur node move) - energy ((List.range n).map cur) := by
  obtain ⟨x, hx, hxb⟩ := exists_mask n (fun i => move (node i))
  have hpos : 0 < 2 ^ n := Nat.two_pow_pos n
  have hm := mobius (R := R) n x (fun a => energy (labels n alpha cur a)) hx
  have h0 : labels n alpha cur 0 = (List.range n).map cur := by
    unfold labels
    apply List.map_congr_left
    intro i _
    rw [bit_eq]; simp
  have hz : (∑ a ∈ range (2 ^ n), if Sub n a 0 then
      (sg n a 0 : R) * energy (labels n alpha cur a) else 0) = energy ((List.range n).map cur) := by
    rw [Finset.sum_eq_single 0]
    · rw [if_pos (show Sub n 0 0 from fun i _ h => h), h0]
      have : parity n 0 0 = false := by
        have : ∀ m, parity m 0 0 = false := by
          intro m
          induction m with
          | zero => rfl
          | succ m ih => rw [parity_succ, ih]; simp
        exact this n
      simp [sg, this]
    · intro a ha hne
      rw [if_neg]
      intro hs
      apply hne
      apply Nat.eq_of_testBit_eq
      intro i
      by_cases hi : i < n
      · cases hb : a.testBit i
        · simp
        · have := hs i hi hb; simp at this
      · rw [Nat.zero_testBit]
        exact Nat.testBit_lt_two_pow (Nat.lt_of_lt_of_le (Finset.mem_range.mp ha)
          (Nat.pow_le_pow_right (by omega) (by omega)))
    · intro h; exact absurd (Finset.mem_range.mpr hpos) h
  have hval : value (terms n energy alpha cur node) move =
      ∑ s ∈ range (2 ^ n - 1), if Sub n (s + 1) x then ∑ a ∈ range (2 ^ n),
        (if Sub n a (s + 1) then (sg n a (s + 1) : R) * energy (labels n alpha cur a) else 0)
        else 0 := by
    have gen : ∀ m, m ≤ 2 ^ n - 1 → ((List.range' 1 m).map (fun s =>
        if (termVars n node s).all move = true then coeffs n energy alpha cur s else 0)).sum =
        ∑ s ∈ range m, if Sub n (s + 1) x then ∑ a ∈ range (2 ^ n),
          (if Sub n a (s + 1) then (sg n a (s + 1) : R) * energy (labels n alpha cur a) else 0)
          else 0 := by
      intro m hmm
      induction m with
      | zero => simp
      | succ m ih =>
        rw [List.range'_concat, List.map_append, List.sum_append, ih (by omega),
          Finset.sum_range_succ]
        congr 1
        simp only [List.map_cons, List.map_nil, List.sum_cons, List.sum_nil, add_zero, Nat.one_mul]
        rw [Nat.add_comm 1 m, coeffs_apply n energy alpha cur (by omega) (m + 1) (by omega) (by omega)]
        have := termVars_all n node (m + 1) x move hxb
        simp only [this]
    unfold value terms
    rw [List.map_map]
    exact gen _ (Nat.le_refl _)
  have e : 2 ^ n = (2 ^ n - 1) + 1 := by omega
  rw [← labels_moved n alpha cur node move x hxb, ← hm, hval]
  conv_rhs => rw [e, Finset.sum_range_succ', ← e]
  rw [if_pos (show Sub n 0 x from fun i _ h => by simp at h), hz]
  abel

/-- C27: the terms a clique adds, evaluated at any move, give the change of its energy. -/
theorem clique_exact (order : Nat) (ho : order ≤ 31) (energy : List L → R) (alpha : L)
    (labeling : Nat → L) (lutIdx node : Nat → Nat) (move : Nat → Bool) :
    value (reduceClique true order energy alpha labeling lutIdx node) move =
      energy (moved order alpha (fun i => labeling (lutIdx i)) node move) -
      energy ((List.range order).map (fun i => labeling (lutIdx i))) :=
  terms_value order ho energy alpha _ node move

/-- C27: an unused clique adds nothing. -/
theorem clique_unused (order : Nat) (energy : List L → R) (alpha : L)
    (labeling : Nat → L) (lutIdx node : Nat → Nat) :
    reduceClique false order energy alpha labeling lutIdx node = [] := rfl

/-- C27: the same for a factor, when its order does not exceed the buffer. -/
theorem factor_exact (maxOrder order : Nat) (ho : order ≤ 31) (hm : order ≤ maxOrder)
    (energy : List L → R) (alpha : L) (labeling : Nat → L) (validLut varIdx : Nat → Nat) :
    ∃ ts, reduceFactor maxOrder order energy alpha labeling validLut varIdx = some ts ∧
      ∀ move : Nat → Bool, value ts move =
        energy (moved order alpha (fun i => labeling (validLut (varIdx i))) varIdx move) -
        energy ((List.range order).map (fun i => labeling (validLut (varIdx i)))) :=
  ⟨_, if_pos hm, fun move => terms_value order ho energy alpha _ varIdx move⟩

/-- C27: every term lists its variables in ascending order; there is at least one, at most the
order of the factor, and all are variables of the factor. -/
theorem terms_sorted (order : Nat) (energy : List L → R) (alpha : L) (cur : Nat → L)
    (node : Nat → Nat) (t : R × List Nat) (ht : t ∈ terms order energy alpha cur node) :
    t.2.Pairwise (· ≤ ·) ∧ t.2 ≠ [] ∧ t.2.length ≤ order ∧ ∀ v ∈ t.2, ∃ i, i < order ∧ v = node i := by
  unfold terms at ht
  rw [List.mem_map] at ht
  obtain ⟨s, hs, rfl⟩ := ht
  rw [List.mem_range'_1] at hs
  refine ⟨List.pairwise_insertionSort _ _, ?_, ?_, ?_⟩
  · intro h
    have hl : (termVars order node s).length = 0 := by rw [show termVars order node s = [] from h]; rfl
    unfold termVars at hl
    rw [List.length_insertionSort, List.length_map, List.length_eq_zero_iff,
      List.filter_eq_nil_iff] at hl
    have : s = 0 := by
      apply Nat.eq_of_testBit_eq
      intro i
      rw [Nat.zero_testBit]
      by_cases hi : i < order
      · have := hl i (List.mem_range.mpr hi)
        rw [bit_eq] at this
        simpa using this
      · exact Nat.testBit_lt_two_pow (Nat.lt_of_lt_of_le (by omega)
          (Nat.pow_le_pow_right (by omega) (Nat.le_of_not_lt hi)))
    omega
  · show (termVars order node s).length ≤ order
    unfold termVars
    rw [List.length_insertionSort, List.length_map]
    refine Nat.le_trans (List.length_filter_le _ _) ?_
    rw [List.length_range]
  · intro v hv
    change v ∈ termVars order node s at hv
    unfold termVars at hv
    rw [List.mem_insertionSort, List.mem_map] at hv
    obtain ⟨i, hi, rfl⟩ := hv
    rw [List.mem_filter, List.mem_range] at hi
    exact ⟨i, hi.1, rfl⟩

/-- a factor over three variables (graph nodes 7, 2, 5) with labels 0, 1, 0, expanding label 1;
the energy counts differing neighbours -/
def demo : List (Int × List Nat) :=
  reduceClique true 3 (fun l : List Nat => match l with
    | [a, b, c] => (if a = b then 0 else 3) + (if b = c then 0 else 5) + (a : Int) * c
    | _ => 0) 1 (fun i => [0, 1, 0].getD i 0) id (fun i => [7, 2, 5].getD i 0)

example : demo = [(-3, [7]), (0, [2]), (0, [2, 7]), (-5, [5]), (1, [5, 7]), (0, [2, 5]),
    (0, [2, 5, 7])] ∧ value demo (fun v => v == 7 || v == 5) = -7 := by decide +kernel

end Litiv.Reducer
