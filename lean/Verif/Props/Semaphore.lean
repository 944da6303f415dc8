import Verif.Lemmas.Semaphore

/-!
# C04: `Semaphore` conserves permits and never strands a waiter
-/

namespace Litiv.Semaphore

/-- **C04 (conservation).** In every reachable state the count is the initial value plus the completed notifications
minus the permits handed out. -/
theorem count_conserved {c n : Nat} {s : St} (h : Reachable c n s) :
    s.count = c + s.notified - s.acquired.length ∧ s.acquired.length ≤ c + s.notified := by
  have := (reachable_inv h).cons
  omega

/-- **C04 (a permit is only obtained from a positive count).** If a step adds an acquisition, the count was positive and
drops by one, and exactly one thread acquires; a notification adds one; every other step keeps the count. -/
theorem step_accounting {s s' : St} (a : Act) (hs : step s a = some s') :
    (s'.count = s.count + 1 ∧ s'.notified = s.notified + 1 ∧ s'.acquired = s.acquired) ∨
    (0 < s.count ∧ s'.count + 1 = s.count ∧ s'.notified = s.notified ∧ ∃ t, s'.acquired = s.acquired ++ [t]) ∨
    (s'.count = s.count ∧ s'.notified = s.notified ∧ s'.acquired = s.acquired) := by
  have tk : ∀ t, 0 < s.count → some (take s t) = some s' →
      (0 < s.count ∧ s'.count + 1 = s.count ∧ s'.notified = s.notified ∧ ∃ t, s'.acquired = s.acquired ++ [t]) := by
    intro t hc h
    cases h
    refine ⟨hc, ?_, rfl, t, rfl⟩
    simp only [take]; omega
  cases a with
  | notify t =>
    left
    simp only [step] at hs
    split at hs
    · split at hs <;> cases hs
      exact ⟨rfl, rfl, rfl⟩
    · cases hs; exact ⟨rfl, rfl, rfl⟩
  | wait t b =>
    right
    simp only [step] at hs
    split at hs
    · split at hs
      · rename_i hc; exact Or.inl (tk t hc hs)
      · cases hs; exact Or.inr ⟨rfl, rfl, rfl⟩
    · cases hs
  | tryWait t =>
    right
    simp only [step] at hs
    split at hs
    · split at hs
      · rename_i hc; exact Or.inl (tk t hc hs)
      · cases hs; exact Or.inr ⟨rfl, rfl, rfl⟩
    · cases hs
  | spurious t =>
    right; right
    simp only [step] at hs
    split at hs <;> cases hs
    exact ⟨rfl, rfl, rfl⟩
  | recheck t =>
    right
    simp only [step] at hs
    split at hs
    · split at hs
      · rename_i hc; exact Or.inl (tk t hc hs)
      · cases hs; exact Or.inr ⟨rfl, rfl, rfl⟩
    · cases hs
  | timeout t =>
    right
    simp only [step] at hs
    split at hs
    · split at hs
      · rename_i hc; exact Or.inl (tk t hc hs)
      · cases hs; exact Or.inr ⟨rfl, rfl, rfl⟩
    · cases hs

/-- **C04 (a waiter can proceed).** Whenever a thread is blocked although the count is positive, some released thread is
about to look at the count, and its next step succeeds in taking a permit: no permit is left over while threads sleep. -/
theorem waiter_can_proceed {c n : Nat} {s : St} (h : Reachable c n s) (hc : 0 < s.count) {t : Nat} {b : Bool}
    (hw : s.threads[t]? = some (.waiting b)) :
    ∃ u s', (∃ b', s.threads[u]? = some (.woken b')) ∧ step s (.recheck u) = some s' ∧
      s'.acquired = s.acquired ++ [u] := by
  have hpos : 0 < s.threads.countP isWaiting :=
    List.countP_pos_iff.mpr ⟨_, List.mem_of_getElem? hw, rfl⟩
  have hk := (reachable_inv h).wake hpos
  have : 0 < s.threads.countP isWoken := by omega
  rw [List.countP_pos_iff] at this
  obtain ⟨p, hp, hwk⟩ := this
  cases p with
  | woken b' =>
    obtain ⟨u, hu⟩ := List.getElem?_of_mem hp
    refine ⟨u, take s u, ⟨b', hu⟩, ?_, rfl⟩
    simp only [step, hu]
    rw [if_pos hc]
  | idle => simp [isWoken] at hwk
  | waiting b => simp [isWoken] at hwk

/-- **C04 (no blocking with permits).** A call that starts while the count is positive returns at once with a permit. -/
theorem call_succeeds_when_positive {s : St} {t : Nat} (hc : 0 < s.count) (ht : s.threads[t]? = some .idle) (b : Bool) :
    step s (.wait t b) = some (take s t) ∧ step s (.tryWait t) = some (take s t) := by
  simp [step, ht, hc]

/-- Non-vacuity: three threads; one permit, contended; a notify reaches a blocked thread, another thread takes the
permit first, and a second notify releases it again. -/
example : ∃ s, Reachable 1 3 s ∧ 0 < s.count ∧ s.threads[1]? = some (.waiting false) ∧ s.acquired = [0, 0] := by
  refine ⟨(exec (init 1 3) [.wait 0 false, .wait 1 false, .wait 2 true, .notify 1, .tryWait 0, .recheck 1,
    .notify 2]).get (by decide), ⟨_, (Option.some_get _).symm⟩, by decide, by decide, by decide⟩

end Litiv.Semaphore
