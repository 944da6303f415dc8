import Verif.Model.Semaphore

/-! # Invariants of the semaphore model -/

namespace Litiv.Semaphore

def isWaiting : Pc → Bool
  | .waiting _ => true
  | _ => false

def isWoken : Pc → Bool
  | .woken _ => true
  | _ => false

/-- Inductive invariant: conservation, and permits never outnumber the released threads while somebody is blocked. -/
structure Inv (c : Nat) (s : St) : Prop where
  cons : s.count + s.acquired.length = c + s.notified
  wake : 0 < s.threads.countP isWaiting → s.count ≤ s.threads.countP isWoken

theorem inv_init (c n : Nat) : Inv c (init c n) := by
  refine ⟨by simp [init], ?_⟩
  intro h
  exfalso
  rw [List.countP_pos_iff] at h
  obtain ⟨p, hp, h⟩ := h
  simp only [init, List.mem_replicate] at hp
  rw [hp.2] at h
  simp [isWaiting] at h

theorem countP_set' {p : Pc → Bool} {l : List Pc} {i : Nat} {a b : Pc} (h : l[i]? = some a) :
    (l.set i b).countP p + (if p a then 1 else 0) = l.countP p + (if p b then 1 else 0) := by
  obtain ⟨hi, ha⟩ := List.getElem?_eq_some_iff.mp h
  rw [List.countP_set hi, ha]
  have : p a = true → 0 < l.countP p := fun hp =>
    List.countP_pos_iff.mpr ⟨a, ha ▸ List.getElem_mem hi, hp⟩
  by_cases hp : p a
  · have := this hp
    simp only [hp, if_true]
    split <;> omega
  · simp [hp]

theorem inv_take {c : Nat} {s : St} {t : Nat} {p : Pc} (h : Inv c s) (hp : s.threads[t]? = some p) (hc : 0 < s.count) :
    Inv c (take s t) := by
  refine ⟨?_, ?_⟩
  · have := h.cons
    simp only [take, List.length_append, List.length_cons, List.length_nil]
    omega
  · intro hw
    have e1 := countP_set' (p := isWaiting) (b := .idle) hp
    have e2 := countP_set' (p := isWoken) (b := .idle) hp
    simp only [take] at hw ⊢
    have := h.wake
    cases p <;> simp [isWaiting, isWoken] at e1 e2 <;> omega

theorem inv_step {c : Nat} {s s' : St} (h : Inv c s) (a : Act) (hs : step s a = some s') : Inv c s' := by
  have hcons := h.cons
  have hwake := h.wake
  cases a with
  | notify t =>
    simp only [step] at hs
    split at hs
    · split at hs
      · rename_i b hb
        cases hs
        have e1 := countP_set' (p := isWaiting) (b := .woken b) hb
        have e2 := countP_set' (p := isWoken) (b := .woken b) hb
        refine ⟨by simp only; omega, ?_⟩
        intro hw
        simp [isWaiting, isWoken] at e1 e2 hw ⊢
        omega
      · cases hs
    · rename_i hno
      cases hs
      refine ⟨by simp only; omega, ?_⟩
      intro hw
      exfalso; apply hno
      rw [List.countP_pos_iff] at hw
      obtain ⟨p, hp, hw⟩ := hw
      rw [List.any_eq_true]
      refine ⟨p, hp, ?_⟩
      cases p with
      | waiting b => cases b <;> simp
      | idle => simp [isWaiting] at hw
      | woken b => simp [isWaiting] at hw
  | wait t b =>
    simp only [step] at hs
    split at hs
    · rename_i hb
      split at hs
      · rename_i hc
        cases hs; exact inv_take h hb hc
      · rename_i hc
        cases hs
        refine ⟨hcons, ?_⟩
        intro _
        simp only; omega
    · cases hs
  | tryWait t =>
    simp only [step] at hs
    split at hs
    · rename_i hb
      split at hs
      · rename_i hc
        cases hs; exact inv_take h hb hc
      · cases hs
        exact ⟨hcons, hwake⟩
    · cases hs
  | spurious t =>
    simp only [step] at hs
    split at hs
    · rename_i b hb
      cases hs
      have e1 := countP_set' (p := isWaiting) (b := .woken b) hb
      have e2 := countP_set' (p := isWoken) (b := .woken b) hb
      refine ⟨hcons, ?_⟩
      intro hw
      simp [isWaiting, isWoken] at e1 e2 hw ⊢
      omega
    · cases hs
  | recheck t =>
    simp only [step] at hs
    split at hs
    · rename_i b hb
      split at hs
      · rename_i hc
        cases hs; exact inv_take h hb hc
      · rename_i hc
        cases hs
        refine ⟨hcons, ?_⟩
        intro _
        simp only; omega
    · cases hs
  | timeout t =>
    simp only [step] at hs
    split at hs
    · rename_i hb
      split at hs
      · rename_i hc
        cases hs
        rcases hb with hb | hb
        · exact inv_take h hb hc
        · exact inv_take h hb hc
      · rename_i hc
        cases hs
        refine ⟨hcons, ?_⟩
        intro _
        simp only; omega
    · cases hs

theorem inv_exec {c : Nat} {s s' : St} (h : Inv c s) (as : List Act) (hs : exec s as = some s') : Inv c s' := by
  induction as generalizing s with
  | nil => cases hs; exact h
  | cons a as ih =>
    simp only [exec, Option.bind_eq_some_iff] at hs
    obtain ⟨t, ht, hs⟩ := hs
    exact ih (inv_step h a ht) hs

theorem reachable_inv {c n : Nat} {s : St} (h : Reachable c n s) : Inv c s := by
  obtain ⟨as, hs⟩ := h
  exact inv_exec (inv_init c n) as hs

end Litiv.Semaphore
