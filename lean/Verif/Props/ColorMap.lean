import Verif.Lemmas.ColorMap
import Mathlib.Data.Finset.Card
import Mathlib.Data.List.Sort

/-!
# C82: unique colour maps
-/

namespace Litiv.Color

theorem colors_spec (n : Nat) (h2 : 2 ≤ n) (hn : n < 720) (start : Nat → Nat) :
    (colors n start).Nodup ∧ (colors n start).length = n := by
  have hdiv : Nat.clog 2 n ≤ 10 := Nat.clog_le_of_le_pow (by omega)
  have hlen : (palette n start (Nat.clog 2 n) 0 0).length = n := by
    have := palette_length n hn start (Nat.clog 2 n) 0 0
    rw [filled_all n hn h2] at this
    omega
  obtain ⟨hnd, -⟩ := palette_spec n hn start (Nat.clog 2 n) 0 0 (by omega)
  have e : colors n start = palette n start (Nat.clog 2 n) 0 0 := by
    unfold colors
    dsimp only
    rw [hlen, Nat.sub_self, List.replicate_zero, List.append_nil]
  rw [e]
  exact ⟨hnd, hlen⟩

theorem unique_spec (m : List Int) :
    (unique m).length = m.toFinset.card ∧ ∀ v, v ∈ unique m ↔ v ∈ m := by
  constructor
  · unfold unique
    rw [List.length_insertionSort, List.card_toFinset]
  · intro v
    unfold unique
    rw [List.mem_insertionSort, List.mem_dedup]

/-- C82: the colour map has one colour per element; whatever the random angles and the shuffle,
two elements get the same colour exactly if they are equal. -/
theorem unique_colors (start : Nat → Nat)
    (shuffle : List (Int × Int × Int) → List (Int × Int × Int)) (hs : ∀ l, (shuffle l).Perm l)
    (m : List Int) (c : List (Int × Int × Int)) (h : uniqueColorMap start shuffle m = some c) :
    c.length = m.length ∧
    ∀ i j, i < m.length → j < m.length → (c[i]? = c[j]? ↔ m[i]? = m[j]?) := by
  obtain ⟨u1, u2⟩ := unique_spec m
  unfold uniqueColorMap at h
  dsimp only at h
  split at h
  · rename_i h1
    injection h with h
    subst h
    refine ⟨by simp, ?_⟩
    intro i j hi hj
    rw [u1, Finset.card_le_one] at h1
    have := h1 m[i] (by simp) m[j] (by simp)
    simp [hi, hj, this]
  · rename_i h1
    split at h
    · rename_i h2
      injection h with h
      subst h
      refine ⟨by simp, ?_⟩
      intro i j hi hj
      obtain ⟨c1, c2⟩ := colors_spec (unique m).length (by omega) h2 start
      have p := hs (colors (unique m).length start)
      have nd : (shuffle (colors (unique m).length start)).Nodup := p.nodup_iff.mpr c1
      have ln : (shuffle (colors (unique m).length start)).length = (unique m).length := by
        rw [p.length_eq, c2]
      generalize shuffle (colors (unique m).length start) = cs at *
      have mem : ∀ i (hi : i < m.length), (unique m).idxOf m[i] < cs.length := by
        intro i hi
        rw [ln]
        exact List.idxOf_lt_length_of_mem ((u2 _).mpr (List.getElem_mem hi))
      have l1 := mem i hi
      have l2 := mem j hj
      simp only [List.getElem?_map, List.getElem?_eq_getElem hi, List.getElem?_eq_getElem hj,
        Option.map_some, Option.some.injEq, List.getD_eq_getElem?_getD, List.getElem?_eq_getElem l1,
        List.getElem?_eq_getElem l2, Option.getD_some]
      rw [List.Nodup.getElem_inj_iff nd]
      rw [List.idxOf_inj ((u2 _).mpr (List.getElem_mem hi))]
    · exact absurd h (by simp)

/-- C82: matrices with 720 or more distinct values are rejected, all others accepted. -/
theorem unique_accepts (start : Nat → Nat)
    (shuffle : List (Int × Int × Int) → List (Int × Int × Int)) (m : List Int) :
    uniqueColorMap start shuffle m = none ↔ 720 ≤ m.toFinset.card := by
  obtain ⟨u1, -⟩ := unique_spec m
  unfold uniqueColorMap
  dsimp only
  rw [u1]
  split
  · simp; omega
  · split
    · simp; omega
    · simp; omega

/-- C82: a constant matrix is white. -/
theorem unique_constant (start : Nat → Nat)
    (shuffle : List (Int × Int × Int) → List (Int × Int × Int)) (m : List Int)
    (h : ∀ v ∈ m, ∀ w ∈ m, v = w) :
    uniqueColorMap start shuffle m = some (List.replicate m.length (255, 255, 255)) := by
  obtain ⟨u1, -⟩ := unique_spec m
  unfold uniqueColorMap
  dsimp only
  rw [u1, if_pos (by
    rw [Finset.card_le_one]
    intro a ha b hb
    exact h a (List.mem_toFinset.mp ha) b (List.mem_toFinset.mp hb)), List.map_const']

/-- non-vacuity: three values, reversed palette -/
example : uniqueColorMap (fun _ => 7) List.reverse [4, -1, 4, 9] =
    some [(30, 255, 0), (255, 0, 30), (30, 255, 0), (0, 30, 255)] := by decide +kernel

end Litiv.Color
