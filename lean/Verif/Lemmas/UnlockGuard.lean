import Verif.Spec.UnlockGuard
import Mathlib.Data.List.Basic

namespace Litiv.UnlockGuard

open Spec

/-- The invariant of a thread that uses guards on `ms`. -/
def Inv (t : Nat) (ms : List Nat) (s : St) : Prop :=
  match s.phase t with
  | .out => ∀ m ∈ ms, s.owner m = some t
  | .inside l => l = ms ∧ ∀ m ∈ ms, s.owner m ≠ some t
  | .ctor todo l => l = ms ∧ ∃ done, ms = done ++ todo ∧ (∀ m ∈ todo, s.owner m = some t) ∧
      ∀ m ∈ done, s.owner m ≠ some t
  | .dtor held todo l => l = ms ∧ ms = held ++ todo ∧ (∀ m ∈ held, s.owner m = some t) ∧
      ∀ m ∈ todo, s.owner m ≠ some t

/-- The invariant only looks at the phase of the thread and at who of `t` or not owns the mutexes. -/
theorem inv_congr {t : Nat} {ms : List Nat} {s s' : St} (hp : s'.phase t = s.phase t)
    (ho : ∀ m ∈ ms, s'.owner m = some t ↔ s.owner m = some t) (h : Inv t ms s) : Inv t ms s' := by
  unfold Inv at h ⊢
  rw [hp]
  cases hh : s.phase t with
  | out =>
    rw [hh] at h
    exact fun m hm => (ho m hm).mpr (h m hm)
  | inside l =>
    rw [hh] at h
    exact ⟨h.1, fun m hm hc => h.2 m hm ((ho m hm).mp hc)⟩
  | ctor todo l =>
    rw [hh] at h
    obtain ⟨h1, done, h2, h3, h4⟩ := h
    subst h2
    exact ⟨h1, done, rfl, fun m hm => (ho m (by simp [hm])).mpr (h3 m hm),
      fun m hm hc => h4 m hm ((ho m (by simp [hm])).mp hc)⟩
  | dtor held todo l =>
    rw [hh] at h
    obtain ⟨h1, h2, h3, h4⟩ := h
    subst h2
    exact ⟨h1, rfl, fun m hm => (ho m (by simp [hm])).mpr (h3 m hm),
      fun m hm hc => h4 m hm ((ho m (by simp [hm])).mp hc)⟩

/-- Changes of one step of `u`: no other phase, and owners only between nobody and `u`. -/
theorem step_frame {s s' : St} {u : Nat} {a : Act} (hheld : ∀ held todo ms, s.phase u = .dtor held todo ms →
      ∀ m ∈ held, s.owner m = some u) (h : step s u a = some s') :
    (∀ t, t ≠ u → s'.phase t = s.phase t) ∧
    ∀ m, s'.owner m = s.owner m ∨
      ((s.owner m = none ∨ s.owner m = some u) ∧ (s'.owner m = none ∨ s'.owner m = some u)) := by
  cases a with
  | lock m =>
    unfold step at h
    dsimp only at h
    by_cases hr : running (s.phase u) = true
    · rw [if_pos hr] at h
      cases ho : s.owner m with
      | none =>
        rw [ho] at h
        simp only [Option.some.injEq] at h
        subst h
        refine ⟨fun _ _ => rfl, fun k => ?_⟩
        unfold St.own
        dsimp only
        by_cases hk : k = m
        · subst hk
          rw [if_pos rfl]
          exact Or.inr ⟨Or.inl ho, Or.inr rfl⟩
        · rw [if_neg hk]
          exact Or.inl rfl
      | some v =>
        rw [ho] at h
        dsimp only at h
        by_cases hv : v = u
        · rw [if_pos hv] at h
          simp at h
        · rw [if_neg hv] at h
          simp only [Option.some.injEq] at h
          subst h
          exact ⟨fun _ _ => rfl, fun k => Or.inl rfl⟩
    · rw [if_neg hr] at h
      simp only [Option.some.injEq] at h
      subst h
      exact ⟨fun _ _ => rfl, fun k => Or.inl rfl⟩
  | unlock m =>
    unfold step at h
    dsimp only at h
    by_cases hr : running (s.phase u) = true
    · rw [if_pos hr] at h
      by_cases ho : s.owner m = some u
      · rw [if_pos ho] at h
        simp only [Option.some.injEq] at h
        subst h
        refine ⟨fun _ _ => rfl, fun k => ?_⟩
        unfold St.own
        dsimp only
        by_cases hk : k = m
        · subst hk
          rw [if_pos rfl]
          exact Or.inr ⟨Or.inr ho, Or.inl rfl⟩
        · rw [if_neg hk]
          exact Or.inl rfl
      · rw [if_neg ho] at h
        simp at h
    · rw [if_neg hr] at h
      simp only [Option.some.injEq] at h
      subst h
      exact ⟨fun _ _ => rfl, fun k => Or.inl rfl⟩
  | enter ms =>
    unfold step at h
    dsimp only at h
    by_cases hp : s.phase u = .out
    · rw [if_pos hp] at h
      simp only [Option.some.injEq] at h
      subst h
      refine ⟨fun t ht => ?_, fun k => Or.inl rfl⟩
      unfold St.goto
      dsimp only
      rw [if_neg ht]
    · rw [if_neg hp] at h
      simp only [Option.some.injEq] at h
      subst h
      exact ⟨fun _ _ => rfl, fun k => Or.inl rfl⟩
  | leave =>
    unfold step at h
    dsimp only at h
    cases hp : s.phase u with
    | inside ms =>
      rw [hp] at h
      simp only [Option.some.injEq] at h
      subst h
      refine ⟨fun t ht => ?_, fun k => Or.inl rfl⟩
      unfold St.goto
      dsimp only
      rw [if_neg ht]
    | out => rw [hp] at h; simp only [Option.some.injEq] at h; subst h; exact ⟨fun _ _ => rfl, fun k => Or.inl rfl⟩
    | ctor _ _ => rw [hp] at h; simp only [Option.some.injEq] at h; subst h; exact ⟨fun _ _ => rfl, fun k => Or.inl rfl⟩
    | dtor _ _ _ => rw [hp] at h; simp only [Option.some.injEq] at h; subst h; exact ⟨fun _ _ => rfl, fun k => Or.inl rfl⟩
  | tick =>
    unfold step at h
    dsimp only at h
    cases hp : s.phase u with
    | inside ms => rw [hp] at h; simp only [Option.some.injEq] at h; subst h; exact ⟨fun _ _ => rfl, fun k => Or.inl rfl⟩
    | out => rw [hp] at h; simp only [Option.some.injEq] at h; subst h; exact ⟨fun _ _ => rfl, fun k => Or.inl rfl⟩
    | ctor todo ms =>
      rw [hp] at h
      dsimp only at h
      unfold ctorTick at h
      cases todo with
      | nil =>
        simp only [Option.some.injEq] at h
        subst h
        refine ⟨fun t ht => ?_, fun k => Or.inl rfl⟩
        unfold St.goto
        dsimp only
        rw [if_neg ht]
      | cons m r =>
        dsimp only at h
        by_cases ho : s.owner m = some u
        · rw [if_pos ho] at h
          simp only [Option.some.injEq] at h
          subst h
          refine ⟨fun t ht => ?_, fun k => ?_⟩
          · unfold St.goto St.own
            dsimp only
            rw [if_neg ht]
          · unfold St.goto St.own
            dsimp only
            by_cases hk : k = m
            · subst hk
              rw [if_pos rfl]
              exact Or.inr ⟨Or.inr ho, Or.inl rfl⟩
            · rw [if_neg hk]
              exact Or.inl rfl
        · rw [if_neg ho] at h
          simp at h
    | dtor held todo ms =>
      rw [hp] at h
      dsimp only at h
      unfold dtorTick at h
      cases todo with
      | nil =>
        simp only [Option.some.injEq] at h
        subst h
        refine ⟨fun t ht => ?_, fun k => Or.inl rfl⟩
        unfold St.goto
        dsimp only
        rw [if_neg ht]
      | cons m r =>
        dsimp only at h
        cases ho : s.owner m with
        | none =>
          rw [ho] at h
          simp only [Option.some.injEq] at h
          subst h
          refine ⟨fun t ht => ?_, fun k => ?_⟩
          · unfold St.goto St.own
            dsimp only
            rw [if_neg ht]
          · unfold St.goto St.own
            dsimp only
            by_cases hk : k = m
            · subst hk
              rw [if_pos rfl]
              exact Or.inr ⟨Or.inl ho, Or.inr rfl⟩
            · rw [if_neg hk]
              exact Or.inl rfl
        | some v =>
          rw [ho] at h
          dsimp only at h
          by_cases hv : v = u
          · rw [if_pos hv] at h
            simp at h
          · rw [if_neg hv] at h
            simp only [Option.some.injEq] at h
            subst h
            refine ⟨fun t ht => ?_, fun k => ?_⟩
            · unfold St.goto St.freeAll
              dsimp only
              rw [if_neg ht]
            · unfold St.goto St.freeAll
              dsimp only
              by_cases hk : k ∈ held
              · rw [if_pos hk]
                exact Or.inr ⟨Or.inr (hheld _ _ _ hp k hk), Or.inl rfl⟩
              · rw [if_neg hk]
                exact Or.inl rfl

/-- What the destructor of any thread holds is owned by that thread. -/
def HeldOwned (s : St) : Prop := ∀ u held todo ms, s.phase u = .dtor held todo ms → ∀ m ∈ held, s.owner m = some u

theorem goto_self (s : St) (t : Nat) (p : Phase) : (s.goto t p).phase t = p := by
  unfold St.goto
  simp

theorem held_step {s s' : St} {u : Nat} {a : Act} (hi : HeldOwned s) (h : step s u a = some s') :
    HeldOwned s' := by
  have hf := step_frame (hi u) h
  intro t held todo ms hp m hm
  by_cases ht : t = u
  · subst ht
    by_cases hsame : s'.phase t = s.phase t ∧ s'.owner = s.owner
    · rw [hsame.2]
      exact hi t held todo ms (by rw [← hsame.1]; exact hp) m hm
    · unfold step at h
      cases a with
      | lock k =>
        dsimp only at h
        by_cases hr : running (s.phase t) = true
        · have : s'.phase t = s.phase t := by
            rw [if_pos hr] at h
            cases ho : s.owner k with
            | none => rw [ho] at h; simp only [Option.some.injEq] at h; subst h; rfl
            | some v =>
              rw [ho] at h
              dsimp only at h
              by_cases hv : v = t
              · rw [if_pos hv] at h; simp at h
              · rw [if_neg hv] at h; simp only [Option.some.injEq] at h; subst h; rfl
          rw [← this, hp] at hr
          simp [running] at hr
        · rw [if_neg hr] at h
          simp only [Option.some.injEq] at h
          subst h
          exact absurd ⟨rfl, rfl⟩ hsame
      | unlock k =>
        dsimp only at h
        by_cases hr : running (s.phase t) = true
        · have : s'.phase t = s.phase t := by
            rw [if_pos hr] at h
            by_cases hv : s.owner k = some t
            · rw [if_pos hv] at h; simp only [Option.some.injEq] at h; subst h; rfl
            · rw [if_neg hv] at h; simp at h
          rw [← this, hp] at hr
          simp [running] at hr
        · rw [if_neg hr] at h
          simp only [Option.some.injEq] at h
          subst h
          exact absurd ⟨rfl, rfl⟩ hsame
      | enter l =>
        dsimp only at h
        by_cases ho : s.phase t = .out
        · rw [if_pos ho] at h
          simp only [Option.some.injEq] at h
          subst h
          rw [goto_self] at hp
          simp at hp
        · rw [if_neg ho] at h
          simp only [Option.some.injEq] at h
          subst h
          exact absurd ⟨rfl, rfl⟩ hsame
      | leave =>
        dsimp only at h
        cases hq : s.phase t with
        | inside l =>
          rw [hq] at h
          simp only [Option.some.injEq] at h
          subst h
          rw [goto_self] at hp
          simp only [Phase.dtor.injEq] at hp
          rw [← hp.1] at hm
          simp at hm
        | out => rw [hq] at h; simp only [Option.some.injEq] at h; subst h; exact absurd ⟨rfl, rfl⟩ hsame
        | ctor _ _ => rw [hq] at h; simp only [Option.some.injEq] at h; subst h; exact absurd ⟨rfl, rfl⟩ hsame
        | dtor _ _ _ => rw [hq] at h; simp only [Option.some.injEq] at h; subst h; exact absurd ⟨rfl, rfl⟩ hsame
      | tick =>
        dsimp only at h
        cases hq : s.phase t with
        | out => rw [hq] at h; simp only [Option.some.injEq] at h; subst h; exact absurd ⟨rfl, rfl⟩ hsame
        | inside _ => rw [hq] at h; simp only [Option.some.injEq] at h; subst h; exact absurd ⟨rfl, rfl⟩ hsame
        | ctor todo0 l =>
          rw [hq] at h
          dsimp only at h
          unfold ctorTick at h
          cases todo0 with
          | nil =>
            simp only [Option.some.injEq] at h
            subst h
            rw [goto_self] at hp
            simp at hp
          | cons k r =>
            dsimp only at h
            by_cases ho : s.owner k = some t
            · rw [if_pos ho] at h
              simp only [Option.some.injEq] at h
              subst h
              rw [goto_self] at hp
              simp at hp
            · rw [if_neg ho] at h
              simp at h
        | dtor held0 todo0 l =>
          rw [hq] at h
          dsimp only at h
          unfold dtorTick at h
          cases todo0 with
          | nil =>
            simp only [Option.some.injEq] at h
            subst h
            rw [goto_self] at hp
            simp at hp
          | cons k r =>
            dsimp only at h
            cases ho : s.owner k with
            | none =>
              rw [ho] at h
              simp only [Option.some.injEq] at h
              subst h
              rw [goto_self] at hp
              simp only [Phase.dtor.injEq] at hp
              rw [← hp.1] at hm
              unfold St.goto St.own
              dsimp only
              by_cases hk : m = k
              · rw [if_pos hk]
              · rw [if_neg hk]
                rcases List.mem_append.mp hm with hm | hm
                · exact hi t held0 _ _ hq m hm
                · exact absurd (List.mem_singleton.mp hm) hk
            | some v =>
              rw [ho] at h
              dsimp only at h
              by_cases hv : v = t
              · rw [if_pos hv] at h; simp at h
              · rw [if_neg hv] at h
                simp only [Option.some.injEq] at h
                subst h
                rw [goto_self] at hp
                simp only [Phase.dtor.injEq] at hp
                rw [← hp.1] at hm
                simp at hm
  · have hph := hf.1 t ht
    rw [hph] at hp
    have ho := hi t held todo ms hp m hm
    rcases hf.2 m with h1 | ⟨h1, _⟩
    · rw [h1]; exact ho
    · rcases h1 with h1 | h1
      · rw [h1] at ho; simp at ho
      · rw [h1] at ho
        simp only [Option.some.injEq] at ho
        exact absurd ho.symm ht

theorem inv_step {s s' : St} {t u : Nat} {a : Act} {ms : List Nat} (hn : ms.Nodup) (hh : HeldOwned s)
    (hi : Inv t ms s) (hd : Disciplined t ms (u, a)) (h : step s u a = some s') : Inv t ms s' := by
  have hf := step_frame (hh u) h
  by_cases ht : t = u
  · subst ht
    cases a with
    | lock k =>
      have hk : k ∉ ms := hd rfl
      unfold step at h
      dsimp only at h
      by_cases hr : running (s.phase t) = true
      · rw [if_pos hr] at h
        cases ho : s.owner k with
        | none =>
          rw [ho] at h; simp only [Option.some.injEq] at h; subst h
          refine inv_congr (s := s) rfl (fun m hm => ?_) hi
          unfold St.own
          dsimp only
          rw [if_neg (fun (hc : m = k) => hk (hc ▸ hm))]
        | some v =>
          rw [ho] at h
          dsimp only at h
          by_cases hv : v = t
          · rw [if_pos hv] at h; simp at h
          · rw [if_neg hv] at h; simp only [Option.some.injEq] at h; subst h; exact hi
      · rw [if_neg hr] at h; simp only [Option.some.injEq] at h; subst h; exact hi
    | unlock k =>
      have hk : k ∉ ms := hd rfl
      unfold step at h
      dsimp only at h
      by_cases hr : running (s.phase t) = true
      · rw [if_pos hr] at h
        by_cases hv : s.owner k = some t
        · rw [if_pos hv] at h; simp only [Option.some.injEq] at h; subst h
          refine inv_congr (s := s) rfl (fun m hm => ?_) hi
          unfold St.own
          dsimp only
          rw [if_neg (fun (hc : m = k) => hk (hc ▸ hm))]
        · rw [if_neg hv] at h; simp at h
      · rw [if_neg hr] at h; simp only [Option.some.injEq] at h; subst h; exact hi
    | enter l =>
      have hl : l = ms := hd rfl
      subst hl
      unfold step at h
      dsimp only at h
      by_cases ho : s.phase t = .out
      · rw [if_pos ho] at h
        simp only [Option.some.injEq] at h
        subst h
        unfold Inv at hi ⊢
        rw [ho] at hi
        rw [goto_self]
        exact ⟨rfl, [], rfl, hi, by simp⟩
      · rw [if_neg ho] at h; simp only [Option.some.injEq] at h; subst h; exact hi
    | leave =>
      unfold step at h
      dsimp only at h
      cases hq : s.phase t with
      | inside l =>
        rw [hq] at h
        simp only [Option.some.injEq] at h
        subst h
        unfold Inv at hi ⊢
        rw [hq] at hi
        rw [goto_self]
        obtain ⟨rfl, h2⟩ := hi
        exact ⟨rfl, rfl, by simp, h2⟩
      | out => rw [hq] at h; simp only [Option.some.injEq] at h; subst h; exact hi
      | ctor _ _ => rw [hq] at h; simp only [Option.some.injEq] at h; subst h; exact hi
      | dtor _ _ _ => rw [hq] at h; simp only [Option.some.injEq] at h; subst h; exact hi
    | tick =>
      unfold step at h
      dsimp only at h
      cases hq : s.phase t with
      | out => rw [hq] at h; simp only [Option.some.injEq] at h; subst h; exact hi
      | inside _ => rw [hq] at h; simp only [Option.some.injEq] at h; subst h; exact hi
      | ctor todo l =>
        rw [hq] at h
        unfold Inv at hi ⊢
        rw [hq] at hi
        obtain ⟨rfl, done, hms, h3, h4⟩ := hi
        dsimp only at h
        unfold ctorTick at h
        cases todo with
        | nil =>
          simp only [Option.some.injEq] at h
          subst h
          rw [goto_self]
          refine ⟨rfl, ?_⟩
          rw [hms]
          simp only [List.append_nil]
          exact h4
        | cons k r =>
          dsimp only at h
          rw [if_pos (h3 k (by simp))] at h
          simp only [Option.some.injEq] at h
          subst h
          rw [goto_self]
          refine ⟨rfl, done ++ [k], by simp [hms], ?_, ?_⟩
          · intro m hm
            unfold St.goto St.own
            dsimp only
            rw [hms] at hn
            have hkr : k ∉ r := (List.nodup_cons.mp (List.nodup_append.mp hn).2.1).1
            rw [if_neg (fun (hc : m = k) => hkr (hc ▸ hm))]
            exact h3 m (by simp [hm])
          · intro m hm
            unfold St.goto St.own
            dsimp only
            by_cases hk : m = k
            · rw [if_pos hk]; simp
            · rw [if_neg hk]
              rcases List.mem_append.mp hm with hm | hm
              · exact h4 m hm
              · exact absurd (List.mem_singleton.mp hm) hk
      | dtor held todo l =>
        rw [hq] at h
        unfold Inv at hi ⊢
        rw [hq] at hi
        obtain ⟨rfl, hms, h3, h4⟩ := hi
        dsimp only at h
        unfold dtorTick at h
        cases todo with
        | nil =>
          simp only [Option.some.injEq] at h
          subst h
          rw [goto_self]
          dsimp only
          intro m hm
          rw [hms] at hm
          exact h3 m (by simpa using hm)
        | cons k r =>
          dsimp only at h
          cases ho : s.owner k with
          | none =>
            rw [ho] at h
            simp only [Option.some.injEq] at h
            subst h
            rw [goto_self]
            refine ⟨rfl, by simp [hms], ?_, ?_⟩
            · intro m hm
              unfold St.goto St.own
              dsimp only
              by_cases hk : m = k
              · rw [if_pos hk]
              · rw [if_neg hk]
                rcases List.mem_append.mp hm with hm | hm
                · exact h3 m hm
                · exact absurd (List.mem_singleton.mp hm) hk
            · intro m hm
              unfold St.goto St.own
              dsimp only
              rw [hms] at hn
              have hkr : k ∉ r := (List.nodup_cons.mp (List.nodup_append.mp hn).2.1).1
              rw [if_neg (fun (hc : m = k) => hkr (hc ▸ hm))]
              exact h4 m (by simp [hm])
          | some v =>
            rw [ho] at h
            dsimp only at h
            by_cases hv : v = t
            · rw [if_pos hv] at h; simp at h
            · rw [if_neg hv] at h
              simp only [Option.some.injEq] at h
              subst h
              rw [goto_self]
              refine ⟨rfl, rfl, by simp, ?_⟩
              intro m hm
              unfold St.goto St.freeAll
              dsimp only
              by_cases hk : m ∈ held
              · rw [if_pos hk]; simp
              · rw [if_neg hk]
                rw [hms] at hm
                rcases List.mem_append.mp hm with hm | hm
                · exact absurd hm hk
                · exact h4 m hm
  · refine inv_congr (hf.1 t ht) (fun m _ => ?_) hi
    rcases hf.2 m with h1 | ⟨h1, h2⟩
    · rw [h1]
    · have hne : ∀ o : Option Nat, (o = none ∨ o = some u) → o ≠ some t := by
        rintro o (rfl | rfl)
        · simp
        · simp only [ne_eq, Option.some.injEq]
          exact fun hc => ht hc.symm
      exact ⟨fun hc => absurd hc (hne _ h2), fun hc => absurd hc (hne _ h1)⟩

theorem inv_run {t : Nat} {ms : List Nat} (hn : ms.Nodup) : ∀ (tr : List (Nat × Act)) (s s' : St), HeldOwned s →
    Inv t ms s → (∀ e ∈ tr, Disciplined t ms e) → run s tr = some s' → HeldOwned s' ∧ Inv t ms s'
  | [], s, s', hh, hi, _, h => by
    simp only [run, Option.some.injEq] at h
    subst h
    exact ⟨hh, hi⟩
  | (u, a) :: r, s, s', hh, hi, hd, h => by
    unfold run at h
    cases h1 : step s u a with
    | none => rw [h1] at h; simp at h
    | some s1 =>
      rw [h1] at h
      exact inv_run hn r s1 s' (held_step hh h1) (inv_step hn hh hi (hd _ (by simp)) h1)
        (fun e he => hd e (by simp [he])) h

end Litiv.UnlockGuard
