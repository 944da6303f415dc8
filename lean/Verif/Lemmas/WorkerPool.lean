import Verif.Model.WorkerPool

/-! Helper lemmas for the worker pool: invariants of every reachable state. -/

namespace Litiv.WorkerPool

/-- Invariant of every reachable state, for well-behaved and misbehaving clients alike. -/
structure Inv (n : Nat) (s : St) : Prop where
  len : s.workers.length = n
  fifo : s.accepted = s.started ++ s.queue
  cnt : ∀ t, s.started.count t = s.finished.count t + s.workers.countP (fun p => p = .running t)
  noWait : s.active = false → Pc.waiting ∉ s.workers
  exitInactive : Pc.exited ∈ s.workers → s.active = false
  owned : ∀ c ∈ s.calls, ∀ w, c.owner = some w → ∃ t, s.workers[w]? = some (.running t)
  wake : s.active = true → s.queue ≠ [] → 0 < n →
    (∃ p ∈ s.workers, p ≠ .waiting ∧ p ≠ .exited) ∨ (∃ c ∈ s.calls, ∃ o, c = .toNotify o)

/-- Additional invariant when the client respects the lifetime of the pool. -/
structure InvStrict (s : St) : Prop where
  noExternal : s.active = false → ∀ c ∈ s.calls, c.owner ≠ none
  live : s.queue ≠ [] → s.active = false → ∃ p ∈ s.workers, p ≠ .exited

theorem getElem?_lt {α : Type} {l : List α} {i : Nat} {a : α} (h : l[i]? = some a) : i < l.length := by
  rcases Nat.lt_or_ge i l.length with h1 | h1
  · exact h1
  · rw [List.getElem?_eq_none h1] at h; cases h

theorem countP_set_running {ws : List Pc} {w : Nat} {p q : Pc} (t : Nat) (h : ws[w]? = some p) :
    (ws.set w q).countP (fun x => decide (x = Pc.running t)) + (if p = .running t then 1 else 0)
      = ws.countP (fun x => decide (x = Pc.running t)) + (if q = .running t then 1 else 0) := by
  have hlt := getElem?_lt h
  have hp : ws[w] = p := by
    rw [List.getElem?_eq_getElem hlt] at h; exact Option.some.inj h
  rw [List.countP_set hlt]
  simp only [hp, decide_eq_true_eq]
  have : p = .running t → 0 < ws.countP (fun x => decide (x = Pc.running t)) := by
    intro he
    apply List.countP_pos_iff.mpr
    exact ⟨p, List.mem_of_getElem? (i := w) h, by simp [he]⟩
  by_cases he : p = .running t
  · have := this he
    rw [if_pos he]; omega
  · rw [if_neg he]; omega

theorem set_same_getElem? {ws : List Pc} {w : Nat} {p q : Pc} (h : ws[w]? = some p) :
    (ws.set w q)[w]? = some q := by
  rw [List.getElem?_set]; simp [getElem?_lt h]

theorem mem_set_self {ws : List Pc} {w : Nat} {p q : Pc} (h : ws[w]? = some p) : q ∈ ws.set w q :=
  List.mem_of_getElem? (set_same_getElem? h)

theorem mem_set_of_ne {ws : List Pc} {w : Nat} {p q r : Pc} (h : ws[w]? = some p) (hr : r ∈ ws) (hne : r ≠ p) :
    r ∈ ws.set w q := by
  obtain ⟨i, hi⟩ := List.getElem?_of_mem hr
  apply List.mem_of_getElem? (i := i)
  rw [List.getElem?_set]
  have : w ≠ i := by
    rintro rfl
    rw [h] at hi
    exact hne (Option.some.inj hi).symm
  simp [this, hi]

theorem owned_set {ws : List Pc} {w : Nat} {p q : Pc} (h : ws[w]? = some p) (hp : ∀ t, p ≠ .running t) {w' : Nat}
    (hw : ∃ t, ws[w']? = some (Pc.running t)) : ∃ t, (ws.set w q)[w']? = some (Pc.running t) := by
  obtain ⟨t, ht⟩ := hw
  refine ⟨t, ?_⟩
  rw [List.getElem?_set]
  have : w ≠ w' := by
    rintro rfl
    rw [h] at ht
    exact hp t (Option.some.inj ht)
  simp [this, ht]

theorem countP_wakeAll (ws : List Pc) (t : Nat) :
    (wakeAll ws).countP (fun p => decide (p = Pc.running t)) = ws.countP (fun p => decide (p = Pc.running t)) := by
  unfold wakeAll
  rw [List.countP_map]
  apply List.countP_congr
  intro p _
  simp only [Function.comp]
  split
  · rename_i h; subst h; simp
  · rfl

theorem wakeAll_getElem? (ws : List Pc) (w t : Nat) (h : ws[w]? = some (.running t)) :
    (wakeAll ws)[w]? = some (.running t) := by
  unfold wakeAll; rw [List.getElem?_map, h]; rfl

theorem inv_init (n : Nat) : Inv n (init n) where
  len := by simp [init]
  fifo := rfl
  cnt := by
    intro t
    simp only [init, List.count_nil, Nat.zero_add]
    rw [List.countP_replicate]; simp
  noWait := by intro h; cases h
  exitInactive := by
    intro h
    have := List.eq_of_mem_replicate h
    cases this
  owned := by intro c hc; cases hc
  wake := by intro _ h; exact absurd rfl h

/-- Replacing a non-running worker state by another one with the same queue. -/
theorem inv_set_plain {n : Nat} {s : St} (hi : Inv n s) {w : Nat} {p q : Pc} (h : s.workers[w]? = some p)
    (hp : ∀ t, p ≠ .running t) (hq : ∀ t, q ≠ .running t)
    (hqw : q = .waiting → s.active = true ∧ s.queue = [])
    (hqe : q = .exited → s.active = false) :
    Inv n { s with workers := s.workers.set w q } where
  len := by simp [hi.len]
  fifo := hi.fifo
  cnt := by
    intro t
    have := countP_set_running (q := q) t h
    rw [if_neg (hp t), if_neg (hq t)] at this
    simp only [Nat.add_zero] at this
    rw [this]
    exact hi.cnt t
  noWait := by
    intro ha hm
    rcases List.mem_or_eq_of_mem_set hm with hm | hm
    · exact hi.noWait ha hm
    · have := (hqw hm.symm).1
      simp only at ha
      rw [ha] at this; cases this
  exitInactive := by
    intro hm
    rcases List.mem_or_eq_of_mem_set hm with hm | hm
    · exact hi.exitInactive hm
    · exact hqe hm.symm
  owned := by
    intro c hc w' hw'
    exact owned_set h hp (hi.owned c hc w' hw')
  wake := by
    intro ha hne hn
    rcases hi.wake ha hne hn with ⟨r, hr, hr1, hr2⟩ | hc
    · left
      by_cases hqq : q = .waiting
      · exact absurd (hqw hqq).2 hne
      · by_cases hqq2 : q = .exited
        · have := hqe hqq2
          simp only at ha
          rw [ha] at this; cases this
        · exact ⟨q, mem_set_self h, hqq, hqq2⟩
    · exact Or.inr hc

theorem inv_afterWait {n : Nat} {s : St} (hi : Inv n s) {w : Nat} {p : Pc} (h : s.workers[w]? = some p)
    (hp : ∀ t, p ≠ .running t) : Inv n (afterWait s w) := by
  unfold afterWait
  cases hq : s.queue with
  | nil => 
    have := inv_set_plain hi (q := .head) h hp (by simp) (by simp) (by simp)
    simpa [hq] using this
  | cons t q =>
    exact {
      len := by simp [hi.len]
      fifo := by simp [hi.fifo, hq]
      cnt := by
        intro u
        have h1 := countP_set_running (q := .running t) u h
        rw [if_neg (hp u)] at h1
        simp only [Nat.add_zero] at h1
        have h2 := hi.cnt u
        simp only [List.count_append, List.count_singleton, h1]
        have : (if Pc.running t = Pc.running u then 1 else 0) = (if (t == u) = true then 1 else 0) := by
          by_cases htu : t = u
          · simp [htu]
          · simp [htu]
        rw [this]; omega
      noWait := by
        intro ha hm
        rcases List.mem_or_eq_of_mem_set hm with hm | hm
        · exact hi.noWait ha hm
        · cases hm
      exitInactive := by
        intro hm
        rcases List.mem_or_eq_of_mem_set hm with hm | hm
        · exact hi.exitInactive hm
        · cases hm
      owned := by
        intro c hc w' hw'
        exact owned_set h hp (hi.owned c hc w' hw')
      wake := by
        intro _ _ _
        exact Or.inl ⟨.running t, mem_set_self h, by simp, by simp⟩ }

theorem inv_step {strict : Bool} {n : Nat} {s s' : St} (hi : Inv n s) (a : Act)
    (hs : step strict s a = some s') : Inv n s' := by
  cases a with
  | call owner t =>
    simp only [step] at hs
    split at hs
    · cases hs
    · rename_i hact
      split at hs
      · cases hs
        exact { hi with
          owned := by
            intro c hc w hw
            rcases List.mem_append.mp hc with hc | hc
            · exact hi.owned c hc w hw
            · simp only [List.mem_singleton] at hc
              subst hc; cases hw
          wake := by
            intro h1 h2 h3
            rcases hi.wake h1 h2 h3 with h | ⟨c, hc, o, ho⟩
            · exact Or.inl h
            · exact Or.inr ⟨c, List.mem_append_left _ hc, o, ho⟩ }
      · split at hs
        · rename_i w u hw0
          cases hs
          exact { hi with
            owned := by
              intro c hc w' hw'
              rcases List.mem_append.mp hc with hc | hc
              · exact hi.owned c hc w' hw'
              · simp only [List.mem_singleton] at hc
                subst hc
                simp only [Call.owner, Option.some.injEq] at hw'
                subst hw'
                exact ⟨_, hw0⟩
            wake := by
              intro h1 h2 h3
              rcases hi.wake h1 h2 h3 with h | ⟨c, hc, o, ho⟩
              · exact Or.inl h
              · exact Or.inr ⟨c, List.mem_append_left _ hc, o, ho⟩ }
        · cases hs
  | enqueue i =>
    simp only [step] at hs
    split at hs
    · rename_i o t hc
      cases hs
      exact { hi with
        fifo := by simp [hi.fifo]
        owned := by
          intro c hc' w hw
          rcases List.mem_or_eq_of_mem_set hc' with hm | hm
          · exact hi.owned c hm w hw
          · subst hm
            exact hi.owned _ (List.mem_of_getElem? hc) w hw
        wake := by
          intro h1 _ _
          right
          refine ⟨.toNotify o, ?_, o, rfl⟩
          apply List.mem_of_getElem? (i := i)
          rw [List.getElem?_set]; simp [getElem?_lt hc] }
    · cases hs
  | notify i w =>
    simp only [step] at hs
    split at hs
    · rename_i o hc
      split at hs
      · split at hs
        · rename_i hmem hw
          cases hs
          have hi' := inv_set_plain hi (q := .woken) hw (by simp) (by simp) (by simp) (by simp)
          exact { hi' with
            owned := by
              intro c hc' w' hw'
              exact hi'.owned c (List.mem_of_mem_eraseIdx hc') w' hw'
            wake := by
              intro _ _ _
              exact Or.inl ⟨.woken, mem_set_self hw, by simp, by simp⟩ }
        · cases hs
      · rename_i hmem
        cases hs
        exact { hi with
          owned := by
            intro c hc' w' hw'
            exact hi.owned c (List.mem_of_mem_eraseIdx hc') w' hw'
          wake := by
            intro h1 h2 h3
            left
            have hlen := hi.len
            have hne : s.workers ≠ [] := by
              intro he; rw [he] at hlen; simp at hlen; omega
            obtain ⟨p, hp⟩ := List.exists_mem_of_ne_nil _ hne
            refine ⟨p, hp, ?_, ?_⟩
            · rintro rfl; exact hmem hp
            · rintro rfl
              have := hi.exitInactive hp
              simp only at h1
              rw [h1] at this; cases this }
    · cases hs
  | destroy =>
    simp only [step] at hs
    split at hs
    · cases hs
      exact {
        len := by simp [wakeAll, hi.len]
        fifo := hi.fifo
        cnt := by intro t; simp only [countP_wakeAll]; exact hi.cnt t
        noWait := by
          intro _ hm
          unfold wakeAll at hm
          obtain ⟨p, _, hp⟩ := List.mem_map.mp hm
          split at hp
          · cases hp
          · rename_i h; exact h hp
        exitInactive := by intro _; rfl
        owned := by
          intro c hc w hw
          obtain ⟨t, ht⟩ := hi.owned c hc w hw
          exact ⟨t, wakeAll_getElem? _ _ _ ht⟩
        wake := by intro h; cases h }
    · cases hs
  | head w =>
    simp only [step] at hs
    split at hs
    · rename_i hw
      split at hs
      · rename_i hc
        cases hs
        refine inv_set_plain hi hw (by simp) (by simp) (by simp) ?_
        intro _
        simp only [Bool.and_eq_true, Bool.not_eq_true'] at hc
        exact hc.1
      · split at hs
        · rename_i hc
          cases hs
          refine inv_set_plain hi hw (by simp) (by simp) ?_ (by simp)
          intro _
          simp only [Bool.and_eq_true, List.isEmpty_iff] at hc
          exact hc
        · cases hs
          exact inv_afterWait hi hw (by simp)
    · cases hs
  | spurious w =>
    simp only [step] at hs
    split at hs
    · rename_i hw
      cases hs
      exact inv_set_plain hi hw (by simp) (by simp) (by simp) (by simp)
    · cases hs
  | recheck w =>
    simp only [step] at hs
    split at hs
    · rename_i hw
      split at hs
      · rename_i hc
        cases hs
        refine inv_set_plain hi hw (by simp) (by simp) ?_ (by simp)
        intro _
        simp only [Bool.and_eq_true, List.isEmpty_iff] at hc
        exact hc
      · cases hs
        exact inv_afterWait hi hw (by simp)
    · cases hs
  | finish w =>
    simp only [step] at hs
    split at hs
    · rename_i t hw
      split at hs
      · cases hs
      · rename_i hno
        cases hs
        exact {
          len := by simp [hi.len]
          fifo := hi.fifo
          cnt := by
            intro u
            have h1 := countP_set_running (q := .head) u hw
            have h2 := hi.cnt u
            rw [if_neg (by simp : ¬ Pc.head = Pc.running u)] at h1
            simp only [List.count_append, List.count_singleton]
            have : (if Pc.running t = Pc.running u then 1 else 0) = (if (t == u) = true then 1 else 0) := by
              by_cases htu : t = u
              · simp [htu]
              · simp [htu]
            rw [this] at h1
            omega
          noWait := by
            intro ha hm
            rcases List.mem_or_eq_of_mem_set hm with hm | hm
            · exact hi.noWait ha hm
            · cases hm
          exitInactive := by
            intro hm
            rcases List.mem_or_eq_of_mem_set hm with hm | hm
            · exact hi.exitInactive hm
            · cases hm
          owned := by
            intro c hc w' hw'
            obtain ⟨u, hu⟩ := hi.owned c hc w' hw'
            refine ⟨u, ?_⟩
            have : w ≠ w' := by
              rintro rfl
              apply hno
              simp only [List.any_eq_true, decide_eq_true_eq]
              exact ⟨c, hc, hw'⟩
            simp only
            rw [List.getElem?_set]
            simp [this, hu]
          wake := by
            intro _ _ _
            exact Or.inl ⟨.head, mem_set_self hw, by simp, by simp⟩ }
    · cases hs

theorem invStrict_init (n : Nat) : InvStrict (init n) where
  noExternal := by intro h; cases h
  live := by intro h; exact absurd rfl h

theorem invStrict_step {n : Nat} (hn : 0 < n) {s s' : St} (hi : Inv n s) (hj : InvStrict s) (a : Act)
    (hs : step true s a = some s') : InvStrict s' := by
  have hset : ∀ (w : Nat) (p q : Pc), s.workers[w]? = some p → q ≠ .exited →
      InvStrict { s with workers := s.workers.set w q } := by
    intro w p q h hq
    exact ⟨hj.noExternal, fun _ _ => ⟨q, mem_set_self h, hq⟩⟩
  have hafter : ∀ (w : Nat) (p : Pc), s.workers[w]? = some p → InvStrict (afterWait s w) := by
    intro w p h
    unfold afterWait
    split
    · exact hset w p .head h (by simp)
    · exact ⟨hj.noExternal, fun _ _ => ⟨_, mem_set_self h, by simp⟩⟩
  cases a with
  | call owner t =>
    simp only [step] at hs
    split at hs
    · cases hs
    · rename_i hact
      have hact' : s.active = true := by simpa using hact
      split at hs
      · cases hs
        exact ⟨fun h => absurd h (by simp [hact']), fun _ h => absurd h (by simp [hact'])⟩
      · split at hs
        · cases hs
          exact ⟨fun h => absurd h (by simp [hact']), fun _ h => absurd h (by simp [hact'])⟩
        · cases hs
  | enqueue i =>
    simp only [step] at hs
    split at hs
    · rename_i o t hc
      cases hs
      refine ⟨?_, ?_⟩
      · intro h c hc'
        rcases List.mem_or_eq_of_mem_set hc' with hm | hm
        · exact hj.noExternal h c hm
        · subst hm
          exact hj.noExternal h (.checked o t) (List.mem_of_getElem? hc)
      · intro _ h
        have h1 := hj.noExternal h _ (List.mem_of_getElem? hc)
        simp only [Call.owner] at h1
        cases o with
        | none => exact absurd rfl h1
        | some w =>
          obtain ⟨u, hu⟩ := hi.owned _ (List.mem_of_getElem? hc) w rfl
          exact ⟨_, List.mem_of_getElem? hu, by simp⟩
    · cases hs
  | notify i w =>
    simp only [step] at hs
    split at hs
    · split at hs
      · split at hs
        · rename_i hw
          cases hs
          exact ⟨fun h c hc => hj.noExternal h c (List.mem_of_mem_eraseIdx hc),
            fun _ _ => ⟨_, mem_set_self hw, by simp⟩⟩
        · cases hs
      · cases hs
        exact ⟨fun h c hc => hj.noExternal h c (List.mem_of_mem_eraseIdx hc), hj.live⟩
    · cases hs
  | destroy =>
    simp only [step] at hs
    split at hs
    · rename_i hc
      cases hs
      simp only [Bool.not_true, Bool.false_or, Bool.and_eq_true, List.all_eq_true] at hc
      obtain ⟨hact, hcalls⟩ := hc
      refine ⟨?_, ?_⟩
      · intro _ c hc'
        have := hcalls c hc'
        intro hn; rw [hn] at this; cases this
      · intro hq _
        rcases hi.wake hact hq hn with ⟨p, hp, h1, h2⟩ | ⟨c, hc', o, rfl⟩
        · refine ⟨p, ?_, h2⟩
          unfold wakeAll
          apply List.mem_map.mpr
          exact ⟨p, hp, by rw [if_neg h1]⟩
        · have := hcalls _ hc'
          simp only [Call.owner] at this
          cases o with
          | none => cases this
          | some w =>
            obtain ⟨u, hu⟩ := hi.owned _ hc' w rfl
            exact ⟨_, List.mem_of_getElem? (wakeAll_getElem? _ _ _ hu), by simp⟩
    · cases hs
  | head w =>
    simp only [step] at hs
    split at hs
    · rename_i hw
      split at hs
      · rename_i hc
        cases hs
        refine ⟨hj.noExternal, ?_⟩
        intro hq
        simp only [Bool.and_eq_true, List.isEmpty_iff] at hc
        exact absurd hc.2 hq
      · split at hs
        · cases hs; exact hset w _ _ hw (by simp)
        · cases hs; exact hafter w _ hw
    · cases hs
  | spurious w =>
    simp only [step] at hs
    split at hs
    · rename_i hw; cases hs; exact hset w _ _ hw (by simp)
    · cases hs
  | recheck w =>
    simp only [step] at hs
    split at hs
    · rename_i hw
      split at hs
      · cases hs; exact hset w _ _ hw (by simp)
      · cases hs; exact hafter w _ hw
    · cases hs
  | finish w =>
    simp only [step] at hs
    split at hs
    · rename_i t hw
      split at hs
      · cases hs
      · cases hs
        exact ⟨hj.noExternal, fun _ _ => ⟨_, mem_set_self hw, by simp⟩⟩
    · cases hs

theorem inv_exec {strict : Bool} {n : Nat} {s s' : St} (hi : Inv n s) (as : List Act)
    (hs : exec strict s as = some s') : Inv n s' := by
  induction as generalizing s with
  | nil => cases hs; exact hi
  | cons a as ih =>
    simp only [exec, Option.bind_eq_some_iff] at hs
    obtain ⟨t, ht, hs⟩ := hs
    exact ih (inv_step hi a ht) hs

theorem invStrict_exec {n : Nat} (hn : 0 < n) {s s' : St} (hi : Inv n s) (hj : InvStrict s) (as : List Act)
    (hs : exec true s as = some s') : InvStrict s' := by
  induction as generalizing s with
  | nil => cases hs; exact hj
  | cons a as ih =>
    simp only [exec, Option.bind_eq_some_iff] at hs
    obtain ⟨t, ht, hs⟩ := hs
    exact ih (inv_step hi a ht) (invStrict_step hn hi hj a ht) hs

theorem reachable_inv {strict : Bool} {n : Nat} {s : St} (h : Reachable strict n s) : Inv n s := by
  obtain ⟨as, has⟩ := h
  exact inv_exec (inv_init n) as has

theorem reachable_invStrict {n : Nat} (hn : 0 < n) {s : St} (h : Reachable true n s) : InvStrict s := by
  obtain ⟨as, has⟩ := h
  exact invStrict_exec hn (inv_init n) (invStrict_init n) as has

/-! Termination of the destructor: a measure that every step of a deactivated pool decreases. -/

def Pc.weight : Pc → Nat
  | .head => 1
  | .waiting => 0
  | .woken => 2
  | .running _ => 2
  | .exited => 0

def Call.weight : Call → Nat
  | .checked _ _ => 4
  | .toNotify _ => 1

def weight (s : St) : Nat :=
  (s.workers.map Pc.weight).sum + 2 * s.queue.length + (s.calls.map Call.weight).sum

theorem sum_map_set {α : Type} (f : α → Nat) {l : List α} {i : Nat} {p : α} (q : α) (h : l[i]? = some p) :
    ((l.set i q).map f).sum + f p = (l.map f).sum + f q := by
  induction l generalizing i with
  | nil => simp at h
  | cons x xs ih =>
    cases i with
    | zero => simp at h; subst h; simp; omega
    | succ i =>
      simp at h
      have := ih h
      simp only [List.set_cons_succ, List.map_cons, List.sum_cons]; omega

theorem sum_map_eraseIdx {α : Type} (f : α → Nat) {l : List α} {i : Nat} {p : α} (h : l[i]? = some p) :
    ((l.eraseIdx i).map f).sum + f p = (l.map f).sum := by
  induction l generalizing i with
  | nil => simp at h
  | cons x xs ih =>
    cases i with
    | zero => simp at h; subst h; simp; omega
    | succ i =>
      simp at h
      have := ih h
      simp only [List.eraseIdx_cons_succ, List.map_cons, List.sum_cons]; omega

theorem weight_afterWait (s : St) (w : Nat) (p : Pc) (h : s.workers[w]? = some p)
    (hp : p = .woken ∨ (p = .head ∧ s.queue ≠ [])) : weight (afterWait s w) < weight s := by
  unfold afterWait weight
  cases hq : s.queue with
  | nil =>
    have := sum_map_set Pc.weight .head h
    rcases hp with rfl | ⟨rfl, hp⟩
    · simp only [Pc.weight] at this; simp only; omega
    · exact absurd hq hp
  | cons t q =>
    have := sum_map_set Pc.weight (.running t) h
    rcases hp with rfl | ⟨rfl, _⟩ <;> simp only [Pc.weight] at this <;>
      simp only [List.length_cons] <;> omega

/-- Every action possible in a deactivated pool strictly decreases the measure and keeps the pool deactivated. -/
theorem weight_step {strict : Bool} {n : Nat} {s s' : St} (hi : Inv n s) (hact : s.active = false) (a : Act)
    (hs : step strict s a = some s') : weight s' < weight s ∧ s'.active = false := by
  have hnw := hi.noWait hact
  cases a with
  | call owner t => simp [step, hact] at hs
  | enqueue i =>
    simp only [step] at hs
    split at hs
    · rename_i o t hc
      cases hs
      refine ⟨?_, hact⟩
      have := sum_map_set Call.weight (.toNotify o) hc
      simp only [Call.weight] at this
      simp only [weight, List.length_append, List.length_singleton]
      omega
    · cases hs
  | notify i w =>
    simp only [step] at hs
    split at hs
    · rename_i o hc
      rw [if_neg hnw] at hs
      cases hs
      refine ⟨?_, hact⟩
      have := sum_map_eraseIdx Call.weight hc
      simp only [Call.weight] at this
      simp only [weight]
      omega
    · cases hs
  | destroy => simp [step, hact] at hs
  | head w =>
    simp only [step] at hs
    split at hs
    · rename_i hw
      split at hs
      · cases hs
        refine ⟨?_, hact⟩
        have := sum_map_set Pc.weight .exited hw
        simp only [Pc.weight] at this
        simp only [weight]; omega
      · rename_i hne
        simp only [hact, Bool.false_and, Bool.false_eq_true, if_false] at hs
        cases hs
        simp only [hact, Bool.not_false, Bool.true_and, List.isEmpty_iff] at hne
        refine ⟨weight_afterWait s w _ hw (Or.inr ⟨rfl, hne⟩), ?_⟩
        unfold afterWait; split <;> exact hact
    · cases hs
  | spurious w =>
    simp only [step] at hs
    split at hs
    · rename_i hw
      exact absurd (List.mem_of_getElem? hw) hnw
    · cases hs
  | recheck w =>
    simp only [step] at hs
    split at hs
    · rename_i hw
      simp only [hact, Bool.false_and, Bool.false_eq_true, if_false] at hs
      cases hs
      refine ⟨weight_afterWait s w _ hw (Or.inl rfl), ?_⟩
      unfold afterWait; split <;> exact hact
    · cases hs
  | finish w =>
    simp only [step] at hs
    split at hs
    · rename_i t hw
      split at hs
      · cases hs
      · cases hs
        refine ⟨?_, hact⟩
        have := sum_map_set Pc.weight .head hw
        simp only [Pc.weight] at this
        simp only [weight]; omega
    · cases hs

theorem weight_exec {strict : Bool} {n : Nat} {s s' : St} (hi : Inv n s) (hact : s.active = false) (as : List Act)
    (hs : exec strict s as = some s') : as.length + weight s' ≤ weight s := by
  induction as generalizing s with
  | nil => cases hs; simp
  | cons a as ih =>
    simp only [exec, Option.bind_eq_some_iff] at hs
    obtain ⟨t, ht, hs⟩ := hs
    obtain ⟨h1, h2⟩ := weight_step hi hact a ht
    have := ih (inv_step hi a ht) h2 hs
    simp only [List.length_cons]; omega

/-- A deactivated pool in which some worker has not returned can always make a step. -/
theorem progress_inactive {strict : Bool} {n : Nat} {s : St} (hi : Inv n s) (hact : s.active = false)
    (hne : ¬ Joined s) : ∃ a s', step strict s a = some s' := by
  unfold Joined at hne
  have hne' : ∃ p ∈ s.workers, p ≠ .exited := by
    apply Classical.byContradiction
    intro h
    apply hne
    intro p hp
    apply Classical.byContradiction
    intro hpe
    exact h ⟨p, hp, hpe⟩
  obtain ⟨p, hp, hpe⟩ := hne'
  obtain ⟨w, hw⟩ := List.getElem?_of_mem hp
  cases p with
  | head =>
    refine ⟨.head w, ?_⟩
    simp only [step, hw, if_true, hact]
    by_cases hq : s.queue.isEmpty <;> simp [hq]
  | waiting => exact absurd hp (hi.noWait hact)
  | woken =>
    refine ⟨.recheck w, ?_⟩
    simp [step, hw, hact]
  | exited => exact absurd rfl hpe
  | running t =>
    by_cases hc : s.calls.any (fun c => c.owner = some w) = true
    · -- the task is inside a `queueTask` call: that call can proceed
      simp only [List.any_eq_true, decide_eq_true_eq] at hc
      obtain ⟨c, hc, _⟩ := hc
      obtain ⟨i, hi'⟩ := List.getElem?_of_mem hc
      cases c with
      | checked o t => exact ⟨.enqueue i, by simp only [step, hi']; exact ⟨_, rfl⟩⟩
      | toNotify o =>
        refine ⟨.notify i 0, { s with calls := s.calls.eraseIdx i }, ?_⟩
        simp only [step, hi']
        rw [if_neg (hi.noWait hact)]
    · refine ⟨.finish w, { s with workers := s.workers.set w .head, finished := s.finished ++ [t] }, ?_⟩
      simp only [step, hw]
      rw [if_neg hc]

end Litiv.WorkerPool
