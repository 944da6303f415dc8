import Verif.Model.ShapeDist
import Verif.Spec.ShapeDist
import Mathlib.Tactic.Linarith
import Mathlib.Tactic.NormNum
import Mathlib.Tactic.Positivity

namespace Litiv.ShapeDist

theorem mem_pixels (rows cols : Nat) (q : Nat × Nat) : q ∈ pixels rows cols ↔ q.1 < rows ∧ q.2 < cols := by
  obtain ⟨r, k⟩ := q
  simp only [pixels, List.mem_flatMap, List.mem_range, List.mem_map, Prod.mk.injEq]
  constructor
  · rintro ⟨a, ha, b, hb, rfl, rfl⟩; exact ⟨ha, hb⟩
  · rintro ⟨ha, hb⟩; exact ⟨r, ha, k, hb, rfl, rfl⟩

theorem fold_some (l : List ℝ) (m : ℝ) : ∃ d, l.foldl (fun m d => some (m.elim d (min d))) (some m) = some d ∧
    (d = m ∨ d ∈ l) ∧ d ≤ m ∧ ∀ x ∈ l, d ≤ x := by
  induction l generalizing m with
  | nil => exact ⟨m, rfl, .inl rfl, le_rfl, by simp⟩
  | cons a l ih =>
    obtain ⟨d, h1, h2, h3, h4⟩ := ih (min a m)
    refine ⟨d, h1, ?_, h3.trans (min_le_right _ _), ?_⟩
    · rcases h2 with h2 | h2
      · rcases min_choice a m with h | h
        · right; rw [h2, h]; exact List.mem_cons_self
        · left; rw [h2, h]
      · exact .inr (List.mem_cons_of_mem _ h2)
    · intro x hx
      rcases List.mem_cons.1 hx with rfl | hx
      · exact h3.trans (min_le_left _ _)
      · exact h4 x hx

theorem fold_none (l : List ℝ) : (l = [] ∧ l.foldl (fun m d => some (m.elim d (min d))) none = none) ∨
    ∃ d, l.foldl (fun m d => some (m.elim d (min d))) none = some d ∧ d ∈ l ∧ ∀ x ∈ l, d ≤ x := by
  cases l with
  | nil => exact .inl ⟨rfl, rfl⟩
  | cons a l =>
    right
    obtain ⟨d, h1, h2, h3, h4⟩ := fold_some l a
    refine ⟨d, h1, ?_, ?_⟩
    · rcases h2 with h2 | h2
      · rw [h2]; exact List.mem_cons_self
      · exact List.mem_cons_of_mem _ h2
    · intro x hx
      rcases List.mem_cons.1 hx with rfl | hx
      · exact h3
      · exact h4 x hx

theorem transform_cases (rows cols : Nat) (zero : Nat × Nat → Bool) (s : Nat → Nat → Prop) (hs : ∀ r k, zero (r, k) = true ↔ s r k)
    (p : Nat × Nat) :
    ((∀ r < rows, ∀ k < cols, ¬ s r k) ∧ transform rows cols zero p = none) ∨
    ∃ d, transform rows cols zero p = some d ∧ Nearest rows cols s p d := by
  rcases fold_none (((pixels rows cols).filter zero).map (dist p)) with ⟨h1, h2⟩ | ⟨d, h1, h2, h3⟩
  · left
    refine ⟨?_, h2⟩
    intro r hr k hk hsk
    have : dist p (r, k) ∈ ((pixels rows cols).filter zero).map (dist p) :=
      List.mem_map.2 ⟨(r, k), List.mem_filter.2 ⟨(mem_pixels _ _ _).2 ⟨hr, hk⟩, (hs r k).2 hsk⟩, rfl⟩
    rw [h1] at this
    cases this
  · right
    refine ⟨d, h1, ?_, ?_⟩
    · obtain ⟨⟨r, k⟩, hq, rfl⟩ := List.mem_map.1 h2
      have hq := List.mem_filter.1 hq
      have hi := (mem_pixels _ _ _).1 hq.1
      exact ⟨r, k, hi.1, hi.2, (hs r k).1 hq.2, rfl⟩
    · intro r k hr hk hsk
      exact h3 _ (List.mem_map.2 ⟨(r, k), List.mem_filter.2 ⟨(mem_pixels _ _ _).2 ⟨hr, hk⟩, (hs r k).2 hsk⟩, rfl⟩)

theorem nearest_unique {rows cols : Nat} {s : Nat → Nat → Prop} {p : Nat × Nat} {d e : ℝ} (h : Nearest rows cols s p d)
    (h' : Nearest rows cols s p e) : d = e := by
  obtain ⟨⟨r, k, a, b, c, hd⟩, h2⟩ := h
  obtain ⟨⟨r', k', a', b', c', he⟩, h2'⟩ := h'
  apply le_antisymm
  · rw [he]; exact h2 r' k' a' b' c'
  · rw [hd]; exact h2' r k a b c

theorem nearest_nonneg {rows cols : Nat} {s : Nat → Nat → Prop} {p : Nat × Nat} {d : ℝ} (h : Nearest rows cols s p d) : 0 ≤ d := by
  obtain ⟨⟨r, k, _, _, _, rfl⟩, _⟩ := h
  exact Real.sqrt_nonneg _

theorem feature_none : feature none = 10 := by
  simp only [feature, maxDist, Option.elim]
  norm_num

theorem feature_some {d : ℝ} (h : 0 ≤ d) : feature (some d) = min (Real.exp (d / 10) - 1) 10 := by
  have h1 : -1 / maxDist * d = -(d / 10) := by rw [maxDist]; ring
  have h2 : 1 / Real.exp (-(d / 10)) = Real.exp (d / 10) := by rw [Real.exp_neg, one_div, inv_inv]
  have h3 : 1 ≤ Real.exp (d / 10) := Real.one_le_exp (by positivity)
  simp only [feature, Option.elim, h1]
  rw [if_neg (Real.exp_ne_zero _), h2, maxDist, if_neg]
  rw [not_lt]
  exact le_min (by linarith) (by norm_num)

end Litiv.ShapeDist
