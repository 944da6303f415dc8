import Verif.Spec.VidReg
import Mathlib.Data.List.Basic
import Mathlib.Tactic.Ring
import Mathlib.Tactic.Linarith
import Mathlib.Tactic.FieldSimp

namespace Litiv.VidReg

open Spec

theorem step_none (n i : Nat) (f : Frame) (s : St) (h : f.reg = none) : step n i f s = s := by
  unfold step; rw [h]

theorem step_some (n i : Nat) (f : Frame) (s : St) (e : Err) (h : f.reg = some e) :
    step n i f s = ⟨if s.first = n then i else s.first, add s.sum e, s.blob, s.rows ++ [(i, e)]⟩ := by
  unfold step; rw [h]

/-- The state after some registered rows. -/
def after (n : Nat) (s : St) (l : List (Nat × Err)) : St :=
  ⟨if s.first = n then (l.head?.map fun p => p.1).getD n else s.first,
    ⟨s.sum.x + (l.map fun p => p.2.x).sum, s.sum.y + (l.map fun p => p.2.y).sum, s.sum.o + (l.map fun p => p.2.o).sum⟩,
    s.blob, s.rows ++ l⟩

theorem after_nil (n : Nat) (s : St) : after n s [] = s := by
  unfold after
  by_cases h : s.first = n
  · simp [h]
    rw [← h]
  · simp [h]

theorem after_cons (n i : Nat) (s : St) (e : Err) (l : List (Nat × Err)) (hi : i < n) :
    after n s ((i, e) :: l) =
      after n ⟨if s.first = n then i else s.first, add s.sum e, s.blob, s.rows ++ [(i, e)]⟩ l := by
  unfold after add
  by_cases h : s.first = n
  · have : i ≠ n := by omega
    simp [h, this, add_assoc]
  · simp [h, add_assoc]

theorem loop_after (n : Nat) : ∀ (rem i : Nat) (fs : List Frame) (s : St), i + rem ≤ n →
    loop n rem i fs s = after n s (registered i (processed (fs.take rem)))
  | 0, i, fs, s, _ => by simp [loop, processed, registered, after_nil]
  | rem + 1, i, [], s, _ => by simp [loop, processed, registered, after_nil]
  | rem + 1, i, f :: t, s, h => by
    unfold loop
    rw [List.take_succ_cons]
    unfold processed
    by_cases hq : f.quit = true
    · rw [if_pos hq, if_pos hq]
      unfold registered
      cases hr : f.reg with
      | none => rw [step_none n i f s hr]; simp [registered, after_nil]
      | some e =>
        rw [step_some n i f s e hr]
        dsimp only
        rw [after_cons n i s e _ (by omega)]
        simp [registered, after_nil]
    · rw [if_neg hq, if_neg hq, loop_after n rem (i + 1) t _ (by omega)]
      conv_rhs => unfold registered
      cases hr : f.reg with
      | none => rw [step_none n i f s hr]
      | some e =>
        rw [step_some n i f s e hr]
        dsimp only
        rw [after_cons n i s e _ (by omega)]

theorem run_after (n : Nat) (fs : List Frame) :
    run n fs = finish n (after n (start n) (registered 0 (processed (fs.take n)))) := by
  unfold run
  rw [loop_after n n 0 fs _ (by omega)]

theorem registered_length : ∀ (i : Nat) (l : List Frame), (registered i l).length ≤ l.length
  | _, [] => by simp [registered]
  | i, f :: t => by
    unfold registered
    have := registered_length (i + 1) t
    cases f.reg with
    | none => simp; omega
    | some e => simp; omega

theorem registered_head : ∀ (i : Nat) (l : List Frame) (p : Nat × Err) (r : List (Nat × Err)),
    registered i l = p :: r → r.length + 1 + p.1 ≤ i + l.length
  | _, [], p, r, h => by simp [registered] at h
  | i, f :: t, p, r, h => by
    unfold registered at h
    cases hr : f.reg with
    | none =>
      rw [hr] at h
      have := registered_head (i + 1) t p r h
      simp; omega
    | some e =>
      rw [hr] at h
      dsimp only at h
      rw [List.cons.injEq] at h
      obtain ⟨rfl, rfl⟩ := h
      have := registered_length (i + 1) t
      simp; omega

theorem registered_all : ∀ (i : Nat) (l : List Frame), (∀ f ∈ l, f.reg.isSome = true) →
    (registered i l).length = l.length
  | _, [], _ => by simp [registered]
  | i, f :: t, h => by
    have hf := h f (by simp)
    obtain ⟨e, he⟩ := Option.isSome_iff_exists.mp hf
    unfold registered
    rw [he]
    simp [registered_all (i + 1) t fun g hg => h g (by simp [hg])]

theorem registered_kept : ∀ (i : Nat) (l : List Frame) (p : Nat × Err) (r : List (Nat × Err)),
    l.Pairwise (fun f g => f.reg.isSome = true → g.reg.isSome = true) →
    registered i l = p :: r → r.length + 1 + p.1 = i + l.length
  | _, [], p, r, _, h => by simp [registered] at h
  | i, f :: t, p, r, hk, h => by
    rw [List.pairwise_cons] at hk
    unfold registered at h
    cases hr : f.reg with
    | none =>
      rw [hr] at h
      have := registered_kept (i + 1) t p r hk.2 h
      simp; omega
    | some e =>
      rw [hr] at h
      dsimp only at h
      rw [List.cons.injEq] at h
      obtain ⟨rfl, rfl⟩ := h
      have := registered_all (i + 1) t fun g hg => hk.1 g hg (by rw [hr]; rfl)
      simp; omega

theorem processed_length : ∀ l : List Frame, (processed l).length ≤ l.length
  | [] => by simp [processed]
  | f :: t => by
    unfold processed
    have := processed_length t
    by_cases hq : f.quit = true
    · rw [if_pos hq]; simp
    · rw [if_neg hq]; simp; omega

theorem processed_full : ∀ l : List Frame, (∀ f ∈ l, f.quit = false) → processed l = l
  | [], _ => rfl
  | f :: t, h => by
    unfold processed
    rw [if_neg (by simp [h f]), processed_full t fun g hg => h g (by simp [hg])]

/-- The result in closed form. -/
theorem run_form (n : Nat) (fs : List Frame) (l : List (Nat × Err)) (hl : registered 0 (processed (fs.take n)) = l) :
    (run n fs).rows = l ∧ (run n fs).first = (l.head?.map fun p => p.1).getD n ∧
    (∀ p r, l = p :: r → r.length + 1 + p.1 ≤ n ∧
      (run n fs).avg = some ⟨(l.map fun q => q.2.x).sum / ((n - p.1 : Nat) : ℚ),
        (l.map fun q => q.2.y).sum / ((n - p.1 : Nat) : ℚ), (l.map fun q => q.2.o).sum / ((n - p.1 : Nat) : ℚ)⟩ ∧
      (run n fs).blobAvg = some 0) ∧
    (l = [] → (run n fs).avg = none ∧ (run n fs).blobAvg = none) := by
  rw [run_after, hl]
  refine ⟨by simp [finish, after, start], by simp [finish, after, start], ?_, ?_⟩
  · intro p r hp
    have h1 := registered_head 0 _ p r (hl.trans hp)
    have h2 := processed_length (fs.take n)
    have h3 : (fs.take n).length ≤ n := by simp
    have h4 : p.1 < n := by omega
    have hd : (((n : Int) - (p.1 : Int) : Int) : ℚ) = ((n - p.1 : Nat) : ℚ) := by
      have : ((n : Int) - (p.1 : Int)) = ((n - p.1 : Nat) : Int) := by omega
      rw [this]; norm_cast
    have hne : ((n - p.1 : Nat) : ℚ) ≠ 0 := by
      have : n - p.1 ≠ 0 := by omega
      exact_mod_cast this
    refine ⟨by omega, ?_, ?_⟩
    · subst hp
      unfold finish after start
      simp only [if_true, List.head?_cons, Option.map_some, Option.getD_some, zero_add]
      rw [hd, if_neg hne]
    · subst hp
      unfold finish after start
      simp only [if_true, List.head?_cons, Option.map_some, Option.getD_some]
      rw [hd, if_neg hne, zero_div]
  · rintro rfl
    simp [finish, after, start]

theorem sum_map_nonneg (g : Nat × Err → ℚ) : ∀ l : List (Nat × Err), (∀ q ∈ l, 0 ≤ g q) → 0 ≤ (l.map g).sum
  | [], _ => by simp
  | q :: t, h => by
    have h1 := h q (by simp)
    have h2 := sum_map_nonneg g t fun r hr => h r (by simp [hr])
    simp only [List.map_cons, List.sum_cons]
    linarith

end Litiv.VidReg
