import Verif.Lemmas.WorkerPool

/-!
# C03: `WorkerPool` runs every accepted task exactly once, in order, and drains before destruction

`accepted` is the list of tasks in the order in which `queueTask` inserted them, `started` the order in which workers
took them, `finished` the order in which they returned. `Reachable true n s`: `s` is reached from a fresh pool of `n`
workers by some schedule in which clients respect the lifetime of the pool (the destructor does not start while a
thread outside the pool is inside `queueTask`). `Reachable false n s` drops this assumption.
-/

namespace Litiv.WorkerPool

/-- **C03 (order, at most once).** In every reachable state, under every schedule and even for misbehaving clients, the
tasks started so far are a prefix of the tasks accepted so far: tasks start in acceptance order, none twice, none that
was not accepted. -/
theorem started_prefix_of_accepted {strict : Bool} {n : Nat} {s : St} (h : Reachable strict n s) :
    s.started <+: s.accepted ∧ s.accepted = s.started ++ s.queue :=
  ⟨⟨s.queue, (reachable_inv h).fifo.symm⟩, (reachable_inv h).fifo⟩

/-- **C03 (each execution is finished at most once).** A task never finishes more often than it was accepted. -/
theorem finished_le_accepted {strict : Bool} {n : Nat} {s : St} (h : Reachable strict n s) (t : Nat) :
    s.finished.count t ≤ s.accepted.count t := by
  have hi := reachable_inv h
  have := hi.cnt t
  rw [hi.fifo, List.count_append]
  omega

/-- **C03 (drain, exactly once).** When all joins of the destructor have returned, every accepted task has been executed
to completion exactly as many times as it was accepted, tasks were started in acceptance order, and none is left. -/
theorem drained_when_joined {n : Nat} (hn : 0 < n) {s : St} (h : Reachable true n s) (hj : Joined s) :
    s.queue = [] ∧ s.started = s.accepted ∧ s.finished.Perm s.accepted := by
  have hi := reachable_inv h
  have hst := reachable_invStrict hn h
  have hne : s.workers ≠ [] := by
    intro he
    have := hi.len
    rw [he] at this; simp at this; omega
  obtain ⟨p, hp⟩ := List.exists_mem_of_ne_nil _ hne
  have hex : Pc.exited ∈ s.workers := by rw [← hj p hp]; exact hp
  have hact := hi.exitInactive hex
  have hq : s.queue = [] := by
    apply Classical.byContradiction
    intro hq
    obtain ⟨q, hq1, hq2⟩ := hst.live hq hact
    exact hq2 (hj q hq1)
  have hsa : s.started = s.accepted := by rw [hi.fifo, hq]; simp
  refine ⟨hq, hsa, ?_⟩
  rw [List.perm_iff_count]
  intro t
  have h0 : s.workers.countP (fun p => decide (p = Pc.running t)) = 0 := by
    rw [List.countP_eq_zero]
    intro p hp
    rw [hj p hp]; simp
  have := hi.cnt t
  rw [h0] at this
  rw [← hsa]; omega

/-- **C03 (the destructor terminates).** Once the destructor has deactivated the pool, every schedule is finite — its
length is bounded by a number that depends only on the state — and as long as some worker has not returned, some thread
can make a step. Hence no schedule can block the joins forever (tasks terminate, by assumption). -/
theorem destructor_terminates {n : Nat} {s : St} (h : Reachable true n s) (hact : s.active = false) :
    (∃ bound, ∀ as s', exec true s as = some s' → as.length ≤ bound) ∧
    (∀ as s', exec true s as = some s' → ¬ Joined s' → ∃ a s'', step true s' a = some s'') := by
  have hi := reachable_inv h
  refine ⟨⟨weight s, ?_⟩, ?_⟩
  · intro as s' hs
    have := weight_exec hi hact as hs
    omega
  · intro as s' hs hne
    have hi' := inv_exec hi as hs
    have hact' : s'.active = false := by
      clear hne hi'
      induction as generalizing s with
      | nil => cases hs; exact hact
      | cons a as ih =>
        simp only [exec, Option.bind_eq_some_iff] at hs
        obtain ⟨t, ht, hs⟩ := hs
        have hrt : Reachable true n t := by
          obtain ⟨bs, hbs⟩ := h
          refine ⟨bs ++ [a], ?_⟩
          clear ih hi hact hs
          generalize init n = s0 at hbs
          induction bs generalizing s0 with
          | nil => simp only [exec, Option.some.injEq] at hbs; subst hbs; simp [exec, ht]
          | cons b bs ih =>
            simp only [exec, List.cons_append, Option.bind_eq_some_iff] at hbs ⊢
            obtain ⟨u, hu, hbs⟩ := hbs
            exact ⟨u, hu, ih u hbs⟩
        exact ih hrt (weight_step hi hact a ht).2 (reachable_inv hrt) hs
    exact progress_inactive hi' hact' hne

/-- **C03 (no lost wake-up).** While the pool is active, a non-empty queue is never left with all workers asleep and no
notification under way: some worker is awake, or some `queueTask` call is about to notify. -/
theorem no_lost_wakeup {strict : Bool} {n : Nat} (hn : 0 < n) {s : St} (h : Reachable strict n s)
    (hact : s.active = true) (hq : s.queue ≠ []) :
    (∃ p ∈ s.workers, p = .head ∨ p = .woken ∨ ∃ t, p = .running t) ∨ (∃ c ∈ s.calls, ∃ o, c = .toNotify o) := by
  rcases (reachable_inv h).wake hact hq hn with ⟨p, hp, h1, h2⟩ | h
  · left
    refine ⟨p, hp, ?_⟩
    cases p with
    | head => exact Or.inl rfl
    | waiting => exact absurd rfl h1
    | woken => exact Or.inr (Or.inl rfl)
    | running t => exact Or.inr (Or.inr ⟨t, rfl⟩)
    | exited => exact absurd rfl h2
  · exact Or.inr h

/-- Non-vacuity of `drained_when_joined`: two workers, three tasks, one of them queued by a task, then destruction. -/
example : ∃ s, Reachable true 2 s ∧ Joined s ∧ s.accepted = [7, 8, 9] ∧ s.finished = [8, 7, 9] := by
  let sched : List Act :=
    [.head 0, .call none 7, .enqueue 0, .notify 0 0, .call none 8, .enqueue 0, .notify 0 0,
     .recheck 0, .head 1, .finish 1, .call (some 0) 9, .destroy, .enqueue 0, .notify 0 0, .head 1, .finish 0, .finish 1,
     .head 0, .head 1]
  refine ⟨(exec true (init 2) sched).get (by decide +kernel), ⟨sched, by simp⟩, ?_, by decide +kernel, by decide +kernel⟩
  unfold Joined
  decide +kernel

/-- Non-vacuity of `destructor_terminates` and `no_lost_wakeup`. -/
example : ∃ s, Reachable true 1 s ∧ s.active = true ∧ s.queue ≠ [] :=
  ⟨_, ⟨[.call none 7, .enqueue 0], rfl⟩, by decide, by decide⟩
example : ∃ s, Reachable true 1 s ∧ s.active = false ∧ s.queue ≠ [] :=
  ⟨_, ⟨[.call none 7, .enqueue 0, .notify 0 0, .destroy], rfl⟩, by decide, by decide⟩

/-- The lifetime assumption of `drained_when_joined` is needed: `queueTask` tests the flag outside the lock, so a call
from another thread that overlaps the destructor can be accepted and never executed. -/
theorem overlapping_destruction_loses_task :
    ∃ s, Reachable false 1 s ∧ Joined s ∧ s.accepted = [7] ∧ s.finished = [] := by
  refine ⟨_, ⟨[.call none 7, .destroy, .head 0, .enqueue 0], rfl⟩, ?_, by decide, by decide⟩
  unfold Joined
  decide

end Litiv.WorkerPool
