import Verif.Spec.GMInfo
import Mathlib.Data.List.Basic

namespace Litiv.GMInfo

open Spec

/-- Keys increase and all are above `lo`. -/
def Sorted (h : List (Nat × Nat)) : Prop := (h.map fun b => b.1).Pairwise (· < ·)

theorem bump_keys (k : Nat) : ∀ (h : List (Nat × Nat)) (x : Nat),
    x ∈ (bump k h).map (fun b => b.1) ↔ x = k ∨ x ∈ h.map fun b => b.1
  | [], x => by simp [bump]
  | (a, c) :: t, x => by
    unfold bump
    by_cases h1 : k < a
    · rw [if_pos h1]
      simp
    · rw [if_neg h1]
      by_cases h2 : a < k
      · rw [if_pos h2]
        have ih := bump_keys k t x
        simp only [List.map_cons, List.mem_cons]
        rw [ih]
        tauto
      · rw [if_neg h2]
        have : k = a := by omega
        simp only [List.map_cons, List.mem_cons, this]
        tauto

theorem bump_sorted (k : Nat) : ∀ h : List (Nat × Nat), Sorted h → Sorted (bump k h)
  | [], _ => by simp [bump, Sorted]
  | (a, c) :: t, hs => by
    unfold Sorted at hs ⊢
    simp only [List.map_cons, List.pairwise_cons] at hs
    unfold bump
    by_cases h1 : k < a
    · rw [if_pos h1]
      simp only [List.map_cons, List.pairwise_cons]
      refine ⟨?_, hs⟩
      intro x hx
      rcases List.mem_cons.mp hx with rfl | hx
      · exact h1
      · have := hs.1 x hx
        omega
    · rw [if_neg h1]
      by_cases h2 : a < k
      · rw [if_pos h2]
        simp only [List.map_cons, List.pairwise_cons]
        refine ⟨?_, bump_sorted k t hs.2⟩
        intro x hx
        rcases (bump_keys k t x).mp hx with rfl | hx
        · exact h2
        · exact hs.1 x hx
      · rw [if_neg h2]
        simp only [List.map_cons, List.pairwise_cons]
        exact hs

/-- Number kept for a key. -/
def val (k : Nat) : List (Nat × Nat) → Nat
  | [] => 0
  | (a, c) :: t => if k = a then c else val k t

theorem val_none {k : Nat} : ∀ {h : List (Nat × Nat)}, (∀ x ∈ h.map (fun b => b.1), k < x) → val k h = 0
  | [], _ => rfl
  | (a, c) :: t, hh => by
    unfold val
    have := hh a (by simp)
    rw [if_neg (by omega)]
    exact val_none fun x hx => hh x (by simp only [List.map_cons, List.mem_cons]; exact Or.inr hx)

theorem val_bump (k j : Nat) : ∀ h : List (Nat × Nat), Sorted h →
    val j (bump k h) = val j h + if j = k then 1 else 0
  | [], _ => by
    unfold bump
    by_cases hj : j = k
    · simp [val, hj]
    · simp [val, hj]
  | (a, c) :: t, hs => by
    unfold Sorted at hs
    simp only [List.map_cons, List.pairwise_cons] at hs
    unfold bump
    by_cases h1 : k < a
    · rw [if_pos h1]
      by_cases hj : j = k
      · subst hj
        have : val j ((a, c) :: t) = 0 := by
          apply val_none
          intro x hx
          rcases List.mem_cons.mp hx with rfl | hx
          · exact h1
          · have := hs.1 x hx
            omega
        rw [this]
        simp [val]
      · rw [if_neg hj]
        conv_lhs => unfold val
        rw [if_neg hj]
        rfl
    · rw [if_neg h1]
      by_cases h2 : a < k
      · rw [if_pos h2]
        have ih := val_bump k j t hs.2
        unfold val
        by_cases hja : j = a
        · rw [if_pos hja, if_pos hja, if_neg (by omega)]
          rfl
        · rw [if_neg hja, if_neg hja, ih]
      · rw [if_neg h2]
        have : k = a := by omega
        subst this
        unfold val
        by_cases hja : j = k
        · rw [if_pos hja, if_pos hja, if_pos hja]
        · rw [if_neg hja, if_neg hja, if_neg hja]
          rfl

theorem mem_val : ∀ (h : List (Nat × Nat)), Sorted h → ∀ k c, (k, c) ∈ h ↔ (k ∈ h.map (fun b => b.1) ∧ c = val k h)
  | [], _, k, c => by simp
  | (a, d) :: t, hs, k, c => by
    unfold Sorted at hs
    simp only [List.map_cons, List.pairwise_cons] at hs
    have ih := mem_val t hs.2 k c
    simp only [List.mem_cons, List.map_cons, Prod.mk.injEq]
    unfold val
    by_cases hk : k = a
    · subst hk
      rw [if_pos rfl]
      constructor
      · rintro (⟨_, rfl⟩ | h)
        · exact ⟨Or.inl rfl, rfl⟩
        · have := hs.1 k (ih.mp h).1
          omega
      · rintro ⟨_, rfl⟩
        exact Or.inl ⟨rfl, rfl⟩
    · rw [if_neg hk, ih]
      tauto

theorem bump_total (k : Nat) : ∀ h : List (Nat × Nat), ((bump k h).map fun b => b.2).sum = (h.map fun b => b.2).sum + 1
  | [] => by simp [bump]
  | (a, c) :: t => by
    unfold bump
    by_cases h1 : k < a
    · rw [if_pos h1]
      simp only [List.map_cons, List.sum_cons]
      omega
    · rw [if_neg h1]
      by_cases h2 : a < k
      · rw [if_pos h2]
        simp only [List.map_cons, List.sum_cons]
        rw [bump_total k t]
        omega
      · rw [if_neg h2]
        simp only [List.map_cons, List.sum_cons]
        omega

theorem fold_spec : ∀ (orders : List Nat) (h : List (Nat × Nat)), Sorted h →
    Sorted (orders.foldl (fun h k => bump k h) h) ∧
    (∀ k, val k (orders.foldl (fun h k => bump k h) h) = val k h + orders.count k) ∧
    (∀ x, x ∈ (orders.foldl (fun h k => bump k h) h).map (fun b => b.1) ↔
      x ∈ orders ∨ x ∈ h.map fun b => b.1) ∧
    ((orders.foldl (fun h k => bump k h) h).map fun b => b.2).sum = (h.map fun b => b.2).sum + orders.length
  | [], h, hs => by simp [hs]
  | a :: t, h, hs => by
    have ih := fold_spec t (bump a h) (bump_sorted a h hs)
    simp only [List.foldl_cons]
    refine ⟨ih.1, ?_, ?_, ?_⟩
    · intro k
      rw [ih.2.1 k, val_bump a k h hs, List.count_cons]
      by_cases hk : k = a
      · subst hk
        simp
        omega
      · have : (a == k) = false := by simp; omega
        rw [this, if_neg hk]
        simp
    · intro x
      rw [ih.2.2.1 x, bump_keys]
      simp only [List.mem_cons]
      tauto
    · rw [ih.2.2.2, bump_total]
      simp only [List.length_cons]
      omega

theorem foldl_sum : ∀ (h : List (Nat × Nat)) (n : Nat),
    h.foldl (fun n p => n + p.2) n = n + (h.map fun b => b.2).sum
  | [], n => by simp
  | p :: t, n => by
    simp only [List.foldl_cons, List.map_cons, List.sum_cons]
    rw [foldl_sum t]
    omega

theorem range_fold : ∀ (labels : List Nat) (a : Nat × Nat),
    let r := labels.foldl (fun (a : Nat × Nat) n => (min n a.1, max n a.2)) a
    (r.1 = a.1 ∨ r.1 ∈ labels) ∧ (r.2 = a.2 ∨ r.2 ∈ labels) ∧ r.1 ≤ a.1 ∧ a.2 ≤ r.2 ∧
      ∀ l ∈ labels, r.1 ≤ l ∧ l ≤ r.2
  | [], a => by simp
  | n :: t, a => by
    have ih := range_fold t (min n a.1, max n a.2)
    dsimp only at ih ⊢
    simp only [List.foldl_cons]
    obtain ⟨h1, h2, h3, h4, h5⟩ := ih
    refine ⟨?_, ?_, by omega, by omega, ?_⟩
    · rcases h1 with h1 | h1
      · rw [h1]
        by_cases hn : n ≤ a.1
        · right
          rw [Nat.min_eq_left hn]
          simp
        · left
          exact Nat.min_eq_right (by omega)
      · exact Or.inr (List.mem_cons_of_mem _ h1)
    · rcases h2 with h2 | h2
      · rw [h2]
        by_cases hn : a.2 ≤ n
        · right
          rw [Nat.max_eq_left hn]
          simp
        · left
          exact Nat.max_eq_right (by omega)
      · exact Or.inr (List.mem_cons_of_mem _ h2)
    · intro l hl
      rcases List.mem_cons.mp hl with rfl | hl
      · omega
      · exact h5 l hl

end Litiv.GMInfo
