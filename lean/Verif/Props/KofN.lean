import Verif.Lemmas.KofN

/-!
# Property C179: random selection of k integers out of n
-/

namespace Litiv.KofN
open Spec

/-- C179: with draws in `[0, 1)`, the selection returns `k` different integers of `[0, n)` in increasing order, for every
`0 ≤ k ≤ n`, every state of the generators and every random draw. -/
theorem kofn_choice_partial (ri : Nat → Nat) (rr : Nat → ℚ) (h : HalfOpen rr) (k n : Nat) (hk : k ≤ n) (s : Nat × Nat) :
    ∃ l s', kOfN ri rr k n s = some (l, s') ∧ Choice k n l := by
  unfold kOfN
  by_cases h0 : k = 0
  · subst h0
    exact ⟨[], s, rfl, nil_choice n⟩
  · rw [if_neg h0]
    by_cases hs : k ^ k < 2 ^ (n / 2)
    · rw [if_pos hs]
      obtain ⟨l, s', e, c⟩ := smallK_choice ri n k s.1 (by omega) hk
      rw [e]
      exact ⟨l, _, rfl, c⟩
    · rw [if_neg hs, largeK, if_pos ⟨by omega, hk⟩]
      obtain ⟨l, e, a, b, c⟩ := largeLoop_choice rr h n s.2 n k (le_refl _) hk
      rw [e]
      exact ⟨l, _, rfl, (choice_iff _ _ _).2 ⟨a, fun x hx => (b x hx).2, c⟩⟩

example : HalfOpen (fun _ => 1 / 2) := fun _ => by norm_num

/-- C179: every increasing list of `k` different integers of `[0, n)` is returned for some random draws in `[0, 1)`, from every
position in the streams. -/
theorem kofn_every (k n : Nat) (l : List Nat) (hc : Choice k n l) (s : Nat × Nat) :
    ∃ ri rr s', HalfOpen rr ∧ kOfN ri rr k n s = some (l, s') := by
  unfold kOfN
  have hc' := (choice_iff _ _ _).1 hc
  by_cases h0 : k = 0
  · subst h0
    refine ⟨fun _ => 0, fun _ => 0, s, fun _ => by norm_num, ?_⟩
    rw [if_pos rfl, List.length_eq_zero_iff.1 hc'.1]
  · simp only [if_neg h0]
    by_cases hs : k ^ k < 2 ^ (n / 2)
    · simp only [if_pos hs]
      obtain ⟨L, hL⟩ := smallK_reach n k l (by omega) hc
      refine ⟨fun t => L.getD (t - s.1) 0, fun _ => 0, (s.1 + L.length, s.2), fun _ => by norm_num, ?_⟩
      rw [hL _ s.1 (by intro i x hx; simp [hx])]
      rfl
    · simp only [if_neg hs]
      refine ⟨fun _ => 0, keepDraws n s.2 l, (s.1, s.2 + n), keepDraws_halfOpen n s.2 l, ?_⟩
      have hkn : k ≤ n := by
        have h1 : l.Nodup := hc'.2.2.imp (fun h => Nat.ne_of_lt h)
        have h2 : l ⊆ List.range n := fun x hx => List.mem_range.2 (hc'.2.1 x hx)
        have h3 := (List.Nodup.subperm h1 h2).length_le
        rw [List.length_range] at h3
        omega
      have e := largeLoop_reach n s.2 l n l (le_refl _) (fun x hx => ⟨by omega, hc'.2.1 x hx⟩) hc'.2.2 (fun _ _ => Iff.rfl)
      rw [hc'.1] at e
      rw [largeK, if_pos ⟨by omega, hkn⟩, e]
      rfl

example : Choice 2 9 [3, 8] := by rw [choice_iff]; decide

/-- C179 fails as the generator is set up: its interval is `[0, 1 + ε)`, so that a draw may be exactly 1, and then the only
index left is not taken although it is needed (the assertion on the number of values fails; without assertions the
caller reads a value that was never written). -/
theorem kofn_closed_refuted :
    ¬ ∀ (ri : Nat → Nat) (rr : Nat → ℚ), Closed rr → ∀ k n, k ≤ n → ∀ s, ∃ l s', kOfN ri rr k n s = some (l, s') ∧ Choice k n l := by
  intro h
  obtain ⟨l, s', e, _⟩ := h (fun _ => 0) (fun _ => 1) (fun _ => by norm_num) 1 1 (le_refl _) (0, 0)
  have : kOfN (fun _ => 0) (fun _ => 1) 1 1 (0, 0) = none := by decide +kernel
  rw [this] at e
  cases e

end Litiv.KofN
