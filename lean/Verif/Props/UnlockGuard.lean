import Verif.Lemmas.UnlockGuard

/-! # Theorems about the scoped release of mutexes -/

namespace Litiv.UnlockGuard

open Spec

/-- No thread is in a destructor. -/
def Calm (s : St) : Prop := ∀ u, s.phase u = .out

theorem calm_held {s : St} (h : Calm s) : HeldOwned s := by
  intro u held todo ms hp
  rw [h u] at hp
  simp at hp

/-- A thread that owns distinct mutexes and makes guards on them: whatever the other threads do and whenever, it
owns none of them in the scope of a guard and all of them outside. -/
theorem scope (t : Nat) (ms : List Nat) (hn : ms.Nodup) (s s' : St) (hc : Calm s)
    (ho : ∀ m ∈ ms, s.owner m = some t) (tr : List (Nat × Act)) (hd : ∀ e ∈ tr, Disciplined t ms e)
    (h : run s tr = some s') : Scope t ms s' := by
  have hi : Inv t ms s := by
    unfold Inv
    rw [hc t]
    exact ho
  have := (inv_run hn tr s s' (calm_held hc) hi hd h).2
  unfold Inv at this
  unfold Scope
  cases hp : s'.phase t with
  | out => rw [hp] at this; exact this
  | inside l => rw [hp] at this; exact this.2
  | ctor _ _ => trivial
  | dtor _ _ _ => trivial

/-- The guards of such a thread never unlock a mutex that it does not own, nor lock one that it owns. -/
theorem defined (t : Nat) (ms : List Nat) (hn : ms.Nodup) (s s' : St) (hc : Calm s)
    (ho : ∀ m ∈ ms, s.owner m = some t) (tr : List (Nat × Act)) (hd : ∀ e ∈ tr, Disciplined t ms e)
    (h : run s tr = some s') :
    step s' t .tick ≠ none ∧ step s' t .leave ≠ none ∧ step s' t (.enter ms) ≠ none := by
  have hi : Inv t ms s := by
    unfold Inv
    rw [hc t]
    exact ho
  have hi' := (inv_run hn tr s s' (calm_held hc) hi hd h).2
  refine ⟨?_, ?_, ?_⟩
  · unfold step
    dsimp only
    unfold Inv at hi'
    cases hp : s'.phase t with
    | out => simp
    | inside _ => simp
    | ctor todo l =>
      rw [hp] at hi'
      obtain ⟨_, _, _, h3, _⟩ := hi'
      dsimp only
      unfold ctorTick
      cases todo with
      | nil => simp
      | cons k r =>
        dsimp only
        rw [if_pos (h3 k (by simp))]
        simp
    | dtor held todo l =>
      rw [hp] at hi'
      obtain ⟨_, _, _, h4⟩ := hi'
      dsimp only
      unfold dtorTick
      cases todo with
      | nil => simp
      | cons k r =>
        dsimp only
        cases hk : s'.owner k with
        | none => simp
        | some v =>
          dsimp only
          rw [if_neg]
          · simp
          · intro hv
            exact h4 k (by simp) (by rw [hk, hv])
  · unfold step
    dsimp only
    cases s'.phase t <;> simp
  · unfold step
    dsimp only
    by_cases hp : s'.phase t = .out
    · rw [if_pos hp]; simp
    · rw [if_neg hp]; simp

/-- The guards of a thread never touch what another thread owns, nor its own other mutexes. -/
theorem others_kept (t : Nat) (ms : List Nat) (hn : ms.Nodup) (s s' s'' : St) (hc : Calm s)
    (ho : ∀ m ∈ ms, s.owner m = some t) (tr : List (Nat × Act)) (hd : ∀ e ∈ tr, Disciplined t ms e)
    (h : run s tr = some s') (h' : step s' t .tick = some s'') :
    (∀ m u, u ≠ t → s'.owner m = some u → s''.owner m = some u) ∧
    (∀ m, m ∉ ms → s''.owner m = s'.owner m) ∧ ∀ u, u ≠ t → s''.phase u = s'.phase u := by
  have hi : Inv t ms s := by
    unfold Inv
    rw [hc t]
    exact ho
  obtain ⟨hh, hi'⟩ := inv_run hn tr s s' (calm_held hc) hi hd h
  have hf := step_frame (hh t) h'
  refine ⟨?_, ?_, fun u hu => hf.1 u hu⟩
  · intro m u hu hm
    rcases hf.2 m with h1 | ⟨h1, _⟩
    · rw [h1]; exact hm
    · rcases h1 with h1 | h1
      · rw [h1] at hm; simp at hm
      · rw [h1] at hm
        simp only [Option.some.injEq] at hm
        exact absurd hm.symm hu
  · intro m hm
    unfold step at h'
    dsimp only at h'
    unfold Inv at hi'
    cases hp : s'.phase t with
    | out => rw [hp] at h'; simp only [Option.some.injEq] at h'; subst h'; rfl
    | inside _ => rw [hp] at h'; simp only [Option.some.injEq] at h'; subst h'; rfl
    | ctor todo l =>
      rw [hp] at h' hi'
      obtain ⟨_, done, hms, h3, _⟩ := hi'
      dsimp only at h'
      unfold ctorTick at h'
      cases todo with
      | nil => simp only [Option.some.injEq] at h'; subst h'; rfl
      | cons k r =>
        dsimp only at h'
        rw [if_pos (h3 k (by simp))] at h'
        simp only [Option.some.injEq] at h'
        subst h'
        unfold St.goto St.own
        dsimp only
        rw [if_neg]
        rintro rfl
        exact hm (by rw [hms]; simp)
    | dtor held todo l =>
      rw [hp] at h' hi'
      obtain ⟨_, hms, _, h4⟩ := hi'
      dsimp only at h'
      unfold dtorTick at h'
      cases todo with
      | nil => simp only [Option.some.injEq] at h'; subst h'; rfl
      | cons k r =>
        dsimp only at h'
        cases hk : s'.owner k with
        | none =>
          rw [hk] at h'
          simp only [Option.some.injEq] at h'
          subst h'
          unfold St.goto St.own
          dsimp only
          rw [if_neg]
          rintro rfl
          exact hm (by rw [hms]; simp)
        | some v =>
          rw [hk] at h'
          dsimp only at h'
          by_cases hv : v = t
          · rw [if_pos hv] at h'; simp at h'
          · rw [if_neg hv] at h'
            simp only [Option.some.injEq] at h'
            subst h'
            unfold St.goto St.freeAll
            dsimp only
            rw [if_neg]
            intro hc
            exact hm (by rw [hms]; simp [hc])

/-- While it waits for a mutex at the end of the scope, the thread holds none of the mutexes of the guard: it cannot
be part of a deadlock among them. -/
theorem waits_empty (t : Nat) (ms : List Nat) (hn : ms.Nodup) (s s' s'' : St) (hc : Calm s)
    (ho : ∀ m ∈ ms, s.owner m = some t) (tr : List (Nat × Act)) (hd : ∀ e ∈ tr, Disciplined t ms e)
    (h : run s tr = some s') (held r l : List Nat) (k u : Nat) (hp : s'.phase t = .dtor held (k :: r) l)
    (hk : s'.owner k = some u) (h' : step s' t .tick = some s'') : ∀ m ∈ ms, s''.owner m ≠ some t := by
  have hi : Inv t ms s := by
    unfold Inv
    rw [hc t]
    exact ho
  obtain ⟨hh, hi'⟩ := inv_run hn tr s s' (calm_held hc) hi hd h
  have hi2 := inv_step hn hh hi' (u := t) (a := .tick) trivial h'
  have hph : s''.phase t = .dtor [] l l := by
    unfold step at h'
    dsimp only at h'
    rw [hp] at h'
    dsimp only at h'
    unfold dtorTick at h'
    dsimp only at h'
    rw [hk] at h'
    dsimp only at h'
    by_cases hv : u = t
    · rw [if_pos hv] at h'; simp at h'
    · rw [if_neg hv] at h'
      simp only [Option.some.injEq] at h'
      subst h'
      exact goto_self _ _ _
  unfold Inv at hi2
  rw [hph] at hi2
  obtain ⟨rfl, _, _, h4⟩ := hi2
  exact h4

/-- A thread left alone finishes its destructor when the mutexes it lacks are free. -/
theorem finishes (t : Nat) : ∀ (todo : List Nat) (s : St) (held ms : List Nat), todo.Nodup →
    s.phase t = .dtor held todo ms → (∀ m ∈ todo, s.owner m = none) →
    ∃ s', run s (List.replicate (todo.length + 1) (t, .tick)) = some s' ∧ s'.phase t = .out ∧
      ∀ m ∈ todo, s'.owner m = some t := by
  suffices H : ∀ (todo : List Nat) (s : St) (held ms : List Nat), todo.Nodup →
      s.phase t = .dtor held todo ms → (∀ m ∈ todo, s.owner m = none) →
      ∃ s', run s (List.replicate (todo.length + 1) (t, .tick)) = some s' ∧ s'.phase t = .out ∧
        (∀ m ∈ todo, s'.owner m = some t) ∧ ∀ m, m ∉ todo → s'.owner m = s.owner m by
    intro todo s held ms h1 h2 h3
    obtain ⟨s', h4, h5, h6, _⟩ := H todo s held ms h1 h2 h3
    exact ⟨s', h4, h5, h6⟩
  intro todo
  induction todo with
  | nil =>
    intro s held ms _ hp _
    refine ⟨s.goto t .out, ?_, goto_self _ _ _, by simp, fun m _ => rfl⟩
    simp [run, step, hp, dtorTick]
  | cons k r ih =>
    intro s held ms hn hp hfree
    have hn' := List.nodup_cons.mp hn
    obtain ⟨s', h1, h2, h3, h4⟩ := ih ((s.own k (some t)).goto t (.dtor (held ++ [k]) r ms)) (held ++ [k]) ms hn'.2
      (goto_self _ _ _) (by
        intro m hm
        unfold St.goto St.own
        dsimp only
        rw [if_neg (fun (hc : m = k) => hn'.1 (hc ▸ hm))]
        exact hfree m (by simp [hm]))
    have hstep : step s t .tick = some ((s.own k (some t)).goto t (.dtor (held ++ [k]) r ms)) := by
      unfold step
      dsimp only
      rw [hp]
      dsimp only
      unfold dtorTick
      dsimp only
      rw [hfree k (by simp)]
    refine ⟨s', ?_, h2, ?_, ?_⟩
    · rw [List.length_cons, List.replicate_succ]
      unfold run
      rw [hstep]
      exact h1
    · intro m hm
      by_cases hk : m = k
      · subst hk
        rw [h4 m hn'.1]
        unfold St.goto St.own
        simp
      · exact h3 m ((List.mem_cons.mp hm).resolve_left hk)
    · intro m hm
      rw [h4 m (fun hc => hm (by simp [hc]))]
      unfold St.goto St.own
      dsimp only
      rw [if_neg (fun (hc : m = k) => hm (by simp [hc]))]

/-- The mutexes must be distinct: a guard given the same mutex twice unlocks it twice. -/
theorem distinct_needed : ∃ s : St, Calm s ∧ s.owner 7 = some 0 ∧
    run s [(0, .enter [7, 7]), (0, .tick), (0, .tick)] = none := by
  refine ⟨⟨fun m => if m = 7 then some 0 else none, fun _ => .out⟩, fun _ => rfl, rfl, ?_⟩
  simp [run, step, ctorTick, St.goto, St.own]

/-! Concrete case: thread 0 owns mutexes 3 and 5, thread 1 takes 5 in the scope and keeps it for a while. -/

/-- Thread 0 owns 3 and 5. -/
def demo : St := ⟨fun m => if m = 3 ∨ m = 5 then some 0 else none, fun _ => .out⟩

/-- The schedule. -/
def demoRun : List (Nat × Act) :=
  [(0, .enter [3, 5]), (0, .tick), (1, .lock 3), (0, .tick), (0, .tick), (1, .lock 5), (1, .unlock 3), (0, .leave),
   (0, .tick), (0, .tick), (1, .unlock 5), (0, .tick), (0, .tick), (0, .tick)]

example : Calm demo := fun _ => rfl

example : ∀ e ∈ demoRun, Disciplined 0 [3, 5] e := by
  intro e he
  simp only [demoRun, List.mem_cons, List.not_mem_nil, or_false] at he
  rcases he with rfl | rfl | rfl | rfl | rfl | rfl | rfl | rfl | rfl | rfl | rfl | rfl | rfl | rfl <;>
    simp [Disciplined]

example : (run demo demoRun).map (fun s => (s.phase 0, s.owner 3, s.owner 5)) = some (.out, some 0, some 0) := by
  decide +kernel

example : (run demo (demoRun.take 10)).map (fun s => (s.phase 0, s.owner 3, s.owner 5)) =
    some (.dtor [] [3, 5] [3, 5], none, some 1) := by decide +kernel

end Litiv.UnlockGuard
