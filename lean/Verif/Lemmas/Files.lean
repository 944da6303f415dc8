import Verif.Spec.Files

namespace Litiv.Files

theorem replicate_sum (cs : List Nat) : (cs.flatMap fun c => List.replicate c (0 : Nat)) = List.replicate cs.sum 0 := by
  induction cs with
  | nil => rfl
  | cons c cs ih => rw [List.flatMap_cons, ih, List.sum_cons, List.replicate_append_replicate]

theorem chunks_sum (x64 : Bool) (n left : Nat) (h : left ≤ n) : (chunks x64 n left).sum = left := by
  induction n generalizing left with
  | zero => simp [chunks]; omega
  | succ n ih =>
    unfold chunks
    by_cases h0 : left > 0
    · rw [if_pos h0]
      dsimp only
      generalize hs : (if x64 then left else min (250 * 1024 * 1024) left) = size
      have h1 : 0 < size ∧ size ≤ left := by
        rw [← hs]
        split <;> omega
      rw [List.sum_cons, ih (left - size) (by omega)]
      omega
    · rw [if_neg h0]
      simp
      omega

theorem take_sum_le (cs : List Nat) (i j : Nat) : (cs.take i).sum + min j (cs.getD i 0) ≤ cs.sum := by
  induction cs generalizing i with
  | nil => simp
  | cons c cs ih =>
    cases i with
    | zero => simp; omega
    | succ i =>
      have := ih i
      simp only [List.take_succ_cons, List.sum_cons, List.getD_cons_succ]
      omega

theorem missing_eq (f : File) (n : Nat) : missing f n = n - f.bytes.length := by
  unfold missing
  split <;> omega

theorem opened_usable (s : Slot) (h : s.Usable) :
    ∃ f, opened s = some f ∧ f.bytes = s.content ∧ f.readable = true ∧ f.writable = true := by
  cases s with
  | absent c =>
    have : c = true := h
    subst this
    exact ⟨_, rfl, rfl, rfl, rfl⟩
  | file f =>
    obtain ⟨a, b⟩ : f.readable = true ∧ f.writable = true := h
    refine ⟨f, ?_, rfl, a, b⟩
    simp [opened, openUpdate, a, b]

end Litiv.Files
