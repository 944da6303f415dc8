import Verif.Model.Pretrain
import Verif.Spec.Pretrain

/-!
# Lemmas about the pretraining
-/

namespace Litiv.Pretrain

/-- `run` ends with the visits `v`, with at most `n` passes. -/
def Ends (c : Cfg) (s : St) (n : Nat) (v : List (Nat × Option Nat)) : Prop := ∀ extra, run c (n + extra) s = some v

theorem ends_step (c : Cfg) (s : St) (n : Nat) (v : List (Nat × Option Nat)) (h : s.idx < c.total)
    (hv : Ends c (next c s) n v) : Ends c s (n + 1) ((s.idx, progress c s) :: v) := by
  intro extra
  have e : n + 1 + extra = (n + extra) + 1 := by omega
  rw [e]
  unfold run
  rw [if_pos h, hv extra]
  rfl

theorem ends_stop (c : Cfg) (s : St) (h : ¬ s.idx < c.total) : Ends c s 1 [] := by
  intro extra
  have e : 1 + extra = extra + 1 := by omega
  rw [e]
  unfold run
  rw [if_neg h]

/-- After the pretraining. -/
theorem ends_final (c : Cfg) (l : Nat) (hl : ¬ l < c.loops) (up : Bool) : ∀ (k i : Nat), c.total = i + k →
    Ends c ⟨l, i, up⟩ (k + 1) ((List.range' i k).map fun j => (j, none))
  | 0, i, h => ends_stop c _ (by dsimp only; omega)
  | k + 1, i, h => by
    have hn : next c ⟨l, i, up⟩ = ⟨l, i + 1, up⟩ := by unfold next; rw [if_neg hl]
    have := ends_step c ⟨l, i, up⟩ (k + 1) _ (by dsimp only; omega) (hn ▸ ends_final c l hl up k (i + 1) (by omega))
    rw [List.range'_succ, List.map_cons]
    have hp : progress c ⟨l, i, up⟩ = none := by unfold progress; rw [if_neg hl]
    rw [hp] at this
    exact this

/-- Backwards from `i` to zero. -/
theorem ends_down (c : Cfg) (l : Nat) (hl : l < c.loops) (n : Nat) (v : List (Nat × Option Nat))
    (hv : Ends c ⟨l + 1, 0, true⟩ n v) : ∀ (i : Nat), i ≤ c.top → i < c.total →
    Ends c ⟨l, i, false⟩ (n + (i + 1))
      ((List.range (i + 1)).reverse.map (fun j => (j, some (l * (c.top + 1) * 2 + (2 * (c.top + 1) - j)))) ++ v)
  | 0, _, ht => by
    have hn : next c ⟨l, 0, false⟩ = ⟨l + 1, 0, true⟩ := by unfold next; simp [hl]
    have := ends_step c ⟨l, 0, false⟩ n v ht (hn ▸ hv)
    have hp : progress c ⟨l, 0, false⟩ = some (l * (c.top + 1) * 2 + (2 * (c.top + 1) - 0)) := by
      unfold progress; simp [hl]
    rw [hp] at this
    exact this
  | i + 1, hi, ht => by
    have hn : next c ⟨l, i + 1, false⟩ = ⟨l, i, false⟩ := by unfold next; simp [hl]
    have := ends_step c ⟨l, i + 1, false⟩ _ _ ht (hn ▸ ends_down c l hl n v hv i (by omega) (by omega))
    have hp : progress c ⟨l, i + 1, false⟩ = some (l * (c.top + 1) * 2 + (2 * (c.top + 1) - (i + 1))) := by
      unfold progress; simp [hl]
    rw [hp] at this
    rw [List.range_succ, List.reverse_append, List.map_append, List.append_assoc]
    exact this

/-- Forwards from `i` to the last index of the pretraining. -/
theorem ends_up (c : Cfg) (l : Nat) (hl : l < c.loops) (ht : c.top < c.total) (n : Nat) (v : List (Nat × Option Nat))
    (hv : Ends c ⟨l, c.top, false⟩ n v) : ∀ (k i : Nat), i + k = c.top →
    Ends c ⟨l, i, true⟩ (n + (k + 1))
      ((List.range' i (k + 1)).map (fun j => (j, some (l * (c.top + 1) * 2 + (j + 1)))) ++ v)
  | 0, i, h => by
    have hi : i = c.top := by omega
    subst hi
    have hn : next c ⟨l, c.top, true⟩ = ⟨l, c.top, false⟩ := by unfold next; simp [hl]
    have := ends_step c ⟨l, c.top, true⟩ n v ht (hn ▸ hv)
    have hp : progress c ⟨l, c.top, true⟩ = some (l * (c.top + 1) * 2 + (c.top + 1)) := by
      unfold progress; simp [hl]
    rw [hp] at this
    exact this
  | k + 1, i, h => by
    have hi : i ≠ c.top := by omega
    have hn : next c ⟨l, i, true⟩ = ⟨l, i + 1, true⟩ := by unfold next; simp [hl, hi]
    have := ends_step c ⟨l, i, true⟩ _ _ (by dsimp only; omega) (hn ▸ ends_up c l hl ht n v hv k (i + 1) (by omega))
    have hp : progress c ⟨l, i, true⟩ = some (l * (c.top + 1) * 2 + (i + 1)) := by
      unfold progress; simp [hl]
    rw [hp] at this
    rw [List.range'_succ, List.map_cons, List.cons_append]
    exact this

theorem range_double (a n : Nat) : (List.range' (a + 1) (2 * n)) =
    (List.range n).map (fun j => a + (j + 1)) ++ (List.range n).reverse.map fun j => a + (2 * n - j) := by
  apply List.ext_getElem
  · simp; omega
  · intro i h1 h2
    simp only [List.length_range'] at h1
    by_cases hi : i < n
    · rw [List.getElem_append_left (by simpa using hi)]
      simp
      omega
    · rw [List.getElem_append_right (by simpa using hi)]
      simp
      omega

/-- The visits from the start of a pass of the pretraining. -/
theorem ends_passes (c : Cfg) (ht : c.top < c.total) : ∀ (k l : Nat), l + k = c.loops →
    ∃ n v, Ends c ⟨l, 0, true⟩ n v ∧ v.map Prod.fst = order k (c.top + 1) c.total ∧
      v.map Prod.snd = (List.range' (l * (2 * (c.top + 1)) + 1) (k * (2 * (c.top + 1)))).map some ++
        List.replicate c.total none
  | 0, l, h => by
    refine ⟨_, _, ends_final c l (by omega) true c.total 0 (by omega), ?_, ?_⟩
    · simp [order, List.range_eq_range', Function.comp_def]
    · rw [Nat.zero_mul, List.map_map]
      simp [Function.comp_def, List.map_const']
  | k + 1, l, h => by
    obtain ⟨n, v, hv, h1, h2⟩ := ends_passes c ht k (l + 1) (by omega)
    have hd := ends_down c l (by omega) n v hv c.top (Nat.le_refl _) ht
    have hu := ends_up c l (by omega) ht _ _ hd c.top 0 (by omega)
    refine ⟨_, _, hu, ?_, ?_⟩
    · rw [List.map_append, List.map_append, h1]
      simp [order, backAndForth, List.range_eq_range', List.replicate_succ, Function.comp_def]
    · rw [List.map_append, List.map_append, h2, ← List.append_assoc, ← List.append_assoc]
      congr 1
      have e : (k + 1) * (2 * (c.top + 1)) = 2 * (c.top + 1) + k * (2 * (c.top + 1)) := by
        rw [Nat.add_mul, Nat.one_mul, Nat.add_comm]
      have e2 : (l + 1) * (2 * (c.top + 1)) + 1 = l * (2 * (c.top + 1)) + 1 + 2 * (c.top + 1) := by
        rw [Nat.add_mul, Nat.one_mul]; omega
      have e3 : l * (c.top + 1) * 2 = l * (2 * (c.top + 1)) := by
        rw [Nat.mul_assoc, Nat.mul_comm 2]
      have e4 := List.range'_append_1 (s := l * (2 * (c.top + 1)) + 1) (m := 2 * (c.top + 1)) (n := k * (2 * (c.top + 1)))
      rw [e, e2, ← e4, List.map_append, range_double, e3]
      simp [List.range_eq_range', Function.comp_def]

/-- Forwards to the end of a video that is too short. -/
theorem ends_short (c : Cfg) (hl : 0 < c.loops) (ht : c.total ≤ c.top) : ∀ (k i : Nat), c.total = i + k →
    Ends c ⟨0, i, true⟩ (k + 1) ((List.range' i k).map fun j => (j, some (j + 1)))
  | 0, i, h => ends_stop c _ (by dsimp only; omega)
  | k + 1, i, h => by
    have hi : i ≠ c.top := by omega
    have hn : next c ⟨0, i, true⟩ = ⟨0, i + 1, true⟩ := by unfold next; simp [hl, hi]
    have := ends_step c ⟨0, i, true⟩ _ _ (by dsimp only; omega) (hn ▸ ends_short c hl ht k (i + 1) (by omega))
    have hp : progress c ⟨0, i, true⟩ = some (i + 1) := by unfold progress; simp [hl]
    rw [hp] at this
    exact this

end Litiv.Pretrain
