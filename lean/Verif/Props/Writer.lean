import Verif.Lemmas.Writer

/-! # Properties of the data writer (C30, C69) -/

namespace Litiv.Writer

/-! ### C30: delivery -/

/-- **C30.** At every point of every schedule with one worker, the accounted size is the number of bytes in the queue, the
accounted count is the number of packets in it, the indices are distinct and ordered, and the maximum is respected. -/
theorem accounting {s : St} (h : Reach Proper s) :
    s.size = (s.map.map fun n => n.pkt.size).sum ∧ s.size ≤ s.max ∧ s.count = s.map.length ∧
    (s.map.map Node.idx).Pairwise (· < ·) := by
  refine ⟨h.inv.sizeEq, h.inv.sizeLe, h.inv.count, ?_⟩
  rw [List.pairwise_map]
  exact h.inv.sorted

/-- **C30.** At every point, the packets accepted so far are those given to the callback, those replaced by a later packet of
the same index before they were written, and those waiting in the queue. -/
theorem conservation {s : St} (h : Reach Proper s) :
    s.accepted.Perm (s.written ++ s.replaced ++ waiting s) ∧
    ∀ e ∈ s.replaced, e.1 ∈ (s.written ++ waiting s).map Prod.fst := by
  refine ⟨?_, h.inv.repl⟩
  rw [List.perm_iff_count]
  intro e
  rw [h.inv.perm e, List.count_append, List.count_append]

/-- **C30 (partial).** When the writer is stopped, every accepted packet was given to the callback exactly once, if no index was
queued twice in the session. With repeated indices, the packets not given to the callback are those replaced while they
waited. Shown for one worker and for no calls of `queue` while the writer is stopped or started. Missing: several workers,
and concurrent calls; `two_workers_refuted`, `requeue_refuted` and `concurrent_stop_refuted` show that these fail. -/
theorem delivered_partial {s : St} (h : Reach Proper s) (hi : s.phase = .idle) :
    s.accepted.Perm (s.written ++ s.replaced) ∧
    ((s.accepted.map Prod.fst).Nodup → s.accepted.Perm s.written) := by
  have hw : waiting s = [] := by
    unfold waiting; rw [h.inv.idleEmpty hi]; rfl
  obtain ⟨hp, hr⟩ := conservation h
  rw [hw, List.append_nil] at hp
  rw [hw, List.append_nil] at hr
  refine ⟨hp, fun hnd => ?_⟩
  have hnil : s.replaced = [] := by
    cases hl : s.replaced with
    | nil => rfl
    | cons e l =>
      exfalso
      have h1 := hr e (by rw [hl]; simp)
      have h2 := (hp.map Prod.fst).nodup_iff.1 hnd
      rw [List.map_append, List.nodup_append] at h2
      exact h2.2.2 e.1 h1 e.1 (by rw [hl]; simp) rfl
  rw [hnil, List.append_nil] at hp
  exact hp

/-- **C30.** The packet given to the callback next is the one with the smallest index among those waiting. -/
theorem take_smallest {s s' : St} (h : Reach Proper s) {k : Nat} {r : Ret} (he : enabled s (.take k) = true)
    (hs : step s (.take k) = some (s', r)) :
    ∃ e, s'.written = s.written ++ [e] ∧ e ∈ waiting s ∧ ∀ e' ∈ waiting s, e.1 ≤ e'.1 := by
  simp only [enabled, Bool.and_eq_true, beq_iff_eq] at he
  simp only [step, Option.some.injEq, Prod.mk.injEq] at hs
  have hinv := h.inv
  have hph : s.phase ≠ .idle := by
    intro hi
    have := hinv.wgone hi _ (List.mem_of_getElem? he.1.1)
    cases this
  obtain ⟨w, hw⟩ := hinv.single hph
  have hwi : w = .idle := by
    have := he.1.1
    rw [hw] at this
    cases k with
    | zero => simpa using this
    | succ k => simp at this
  subst hwi
  cases hm : s.map with
  | nil => rw [hm] at he; simp at he
  | cons n rest =>
    have hwait : waiting s = (n.idx, n.pkt) :: rest.map fun n => (n.idx, n.pkt) := by
      unfold waiting wait
      rw [hw, hm, List.filter_eq_self.2 (by simp [Worker.holds])]
      rfl
    refine ⟨(n.idx, n.pkt), ?_, by rw [hwait]; simp, ?_⟩
    · rw [← hs.1]; unfold take; rw [hm]
    · intro e' he'
      rw [hwait] at he'
      rcases List.mem_cons.1 he' with rfl | he'
      · exact Nat.le_refl _
      · obtain ⟨m, hmm, rfl⟩ := List.mem_map.1 he'
        have := hinv.sorted
        rw [hm, List.pairwise_cons] at this
        exact Nat.le_of_lt (this.1 m hmm)

/-- **C30.** No action is undefined, unless a packet is queued again while its predecessor of the same index is being
written. -/
theorem defined {s : St} (h : Reach Proper s) {a : Act} (he : enabled s a = true)
    (hq : ∀ i p, a = .commit i p → ∀ nid sz, Worker.writing nid i sz ∉ s.workers) : step s a ≠ none := by
  cases a with
  | commit i p =>
    simp only [step, queueCommit]
    split_ifs with hf
    · cases hfd : ({ s with pending := s.pending.erase (i, p) } : St).find i with
      | none => simp
      | some n =>
        dsimp only
        rw [if_neg]
        · simp
        · intro hany
          rw [List.any_eq_true] at hany
          obtain ⟨w, hw, hh⟩ := hany
          cases w with
          | idle => cases hh
          | gone => cases hh
          | writing nid idx sz =>
            obtain ⟨m, hm, rfl, rfl, -⟩ := h.inv.writing _ _ _ hw
            have hn := List.mem_of_find?_eq_some hfd
            have hidx : n.idx = i := by simpa using List.find?_some hfd
            have : m.nid = n.nid := by simpa [Worker.holds] using hh
            have hmn : m = n := List.inj_on_of_nodup_map h.inv.nids hm hn this
            subst hmn
            exact hq i p rfl _ _ (by rw [← hidx]; exact hw)
    · simp
  | finish k fail =>
    simp only [enabled] at he
    split at he
    case h_2 => cases he
    case h_1 nid idx sz hk =>
      obtain ⟨t, ht, -⟩ := finish_inv h.inv k fail hk
      simp [step, ht]
  | queue i p => simp [step]
  | start n c d w => simp [step]
  | stop => simp [step]
  | join => simp [step]
  | take k => simp [step]
  | exit k => simp [step]

/-- The result of `queue`: the number of queued packets with a smaller index, or a dropped packet exactly if the queue
has no room for it. -/
theorem queue_result {s s' : St} (h : Reach Proper s) {i : Nat} {p : Pkt} {r : Ret} (hp : (i, p) ∈ s.pending)
    (hs : step s (.commit i p) = some (s', r)) :
    (s.fits i p = true ∧ r = .queued (s'.map.countP fun n => n.idx < i)) ∨
    (s.fits i p = false ∧ r = .dropped ∧ s'.accepted = s.accepted ∧ s'.map = s.map) := by
  have key : ∀ (l : List Node), l.Pairwise (fun a b => a.idx < b.idx) → (∃ n ∈ l, n.idx = i) →
      position l i = l.countP fun n => n.idx < i := by
    intro l hl he
    induction l with
    | nil => obtain ⟨n, hn, -⟩ := he; cases hn
    | cons m l ih =>
      rw [List.pairwise_cons] at hl
      unfold position at *
      rw [List.findIdx_cons]
      by_cases hm : m.idx = i
      · rw [List.countP_cons_of_neg (by simp [hm]), List.countP_eq_zero.2]
        · simp [hm]
        · intro n hn
          have := hl.1 n hn
          simp; omega
      · have hex : ∃ n ∈ l, n.idx = i := by
          obtain ⟨n, hn, e⟩ := he
          rcases List.mem_cons.1 hn with rfl | hn
          · exact absurd e hm
          · exact ⟨n, hn, e⟩
        obtain ⟨n, hn, e⟩ := hex
        have hlt := hl.1 n hn
        rw [List.countP_cons_of_pos (by simp; omega), ← ih hl.2 ⟨n, hn, e⟩]
        have hb : (m.idx == i) = false := by simp [hm]
        rw [hb]; rfl
  have hinv := commit_inv h.inv i p hp hs
  simp only [step, queueCommit] at hs
  split_ifs at hs with hf
  · left
    refine ⟨hf, ?_⟩
    cases hfd : ({ s with pending := s.pending.erase (i, p) } : St).find i with
    | none =>
      rw [hfd] at hs
      dsimp only at hs
      simp only [Option.some.injEq, Prod.mk.injEq] at hs
      obtain ⟨rfl, rfl⟩ := hs
      congr 1
      exact key _ hinv.sorted ⟨⟨i, s.nextNid, p⟩, (insNode_perm _ _).symm.subset (by simp), rfl⟩
    | some n =>
      rw [hfd] at hs
      dsimp only at hs
      split_ifs at hs
      simp only [Option.some.injEq, Prod.mk.injEq] at hs
      obtain ⟨rfl, rfl⟩ := hs
      congr 1
      have hn := List.mem_of_find?_eq_some hfd
      have hidx : n.idx = i := by simpa using List.find?_some hfd
      refine key _ hinv.sorted ⟨{ n with pkt := p }, ?_, hidx⟩
      exact List.mem_map.2 ⟨n, hn, by rw [if_pos hidx]⟩
  · right
    simp only [Option.some.injEq, Prod.mk.injEq] at hs
    obtain ⟨rfl, rfl⟩ := hs
    exact ⟨Bool.eq_false_iff.2 hf, rfl, rfl, rfl⟩

/-- `queue_check` predicts `queue`: when it returns true and nothing happens in between, the packet is accepted or waits for
room; when it returns false, the packet is dropped. -/
theorem check_predicts {s : St} (h : Reach Proper s) (ha : s.phase = .active) {i : Nat} {p : Pkt} (hp : (i, p) ∈ s.pending) {b : Bool}
    (hc : queueCheck s i p = some b) (he : enabled s (.commit i p) = true) {s' : St} {r : Ret}
    (hs : step s (.commit i p) = some (s', r)) : r = .dropped ↔ b = false := by
  have hle : ¬ p.size > s.max := by
    have := h.inv.pendLe _ hp
    exact Nat.not_lt.2 this
  unfold queueCheck at hc
  rw [if_neg (by simp [ha]), if_neg hle] at hc
  simp only [enabled, Bool.and_eq_true, Bool.or_eq_true] at he
  rcases queue_result h hp hs with ⟨hf, rfl⟩ | ⟨hf, rfl, -, -⟩
  · simp only [reduceCtorEq, false_iff]
    split_ifs at hc
    · injection hc with hc; simp [← hc]
    · injection hc with hc; simp [← hc, hf]
  · simp only [true_iff]
    rcases he.2 with hd | hd
    · rw [hd] at hc
      simpa [hf, eq_comm] using hc
    · rw [hf] at hd; cases hd

/-- **C30.** A blocked call of `queue` never waits in vain: whenever a call is in progress, it can complete, or the worker can
take or finish a packet. -/
theorem producer_progress {s : St} (h : Reach Proper s) {i : Nat} {p : Pkt} (hp : (i, p) ∈ s.pending) :
    enabled s (.commit i p) = true ∨ (∃ k, enabled s (.take k) = true) ∨ ∃ k, enabled s (.finish k false) = true := by
  have hinv := h.inv
  have hact : s.phase = .active := by
    by_contra hn
    rw [hinv.pend hn] at hp; cases hp
  obtain ⟨w, hw⟩ := hinv.single (by rw [hact]; simp)
  cases w with
  | gone => exact absurd hact (hinv.gone (by rw [hw]; simp)).1
  | writing nid idx sz => exact Or.inr (Or.inr ⟨0, by simp [enabled, hw]⟩)
  | idle =>
    cases hm : s.map with
    | cons n rest =>
      refine Or.inr (Or.inl ⟨0, ?_⟩)
      have h1 := hinv.count
      have h2 := hinv.sizeEq
      rw [hm, List.length_cons] at h1
      rw [hm, total_cons] at h2
      simp [enabled, hw, hm]
      omega
    | nil =>
      left
      have h2 := hinv.sizeEq
      rw [hm] at h2
      have hle := hinv.pendLe _ hp
      have hfind : s.find i = none := by unfold St.find; rw [hm]; rfl
      have hold : s.oldSize i = 0 := by unfold St.oldSize; rw [hfind]
      have h2 : s.size = 0 := h2
      simp only [enabled, Bool.and_eq_true, Bool.or_eq_true, List.contains_iff_mem]
      refine ⟨hp, Or.inr ?_⟩
      unfold St.fits
      rw [hold, h2]
      simpa using hle

/-- With dropping allowed, a call of `queue` never waits. -/
theorem drop_never_waits {s : St} {i : Nat} {p : Pkt} (hd : s.drop = true) (hp : (i, p) ∈ s.pending) :
    enabled s (.commit i p) = true := by
  simp [enabled, hd, hp]

/-- What remains to be done by the worker. -/
def remaining (s : St) : Nat :=
  3 * s.map.length + (match s.workers with | [.idle] => 1 | _ => 0)

/-- **C30.** `stopAsyncWriting` returns: until all packets were written and the workers have left, some action of a worker is
possible, and each one reduces the remaining work. -/
theorem stop_returns {s : St} (h : Reach Proper s) (hst : s.phase = .stopping) :
    enabled s .join = true ∨
    ∃ a, (a = .take 0 ∨ a = .finish 0 false ∨ a = .exit 0) ∧ enabled s a = true := by
  have hinv := h.inv
  obtain ⟨w, hw⟩ := hinv.single (by rw [hst]; simp)
  cases w with
  | gone => left; simp [enabled, hst, hw]
  | writing nid idx sz => exact Or.inr ⟨.finish 0 false, by simp, by simp [enabled, hw]⟩
  | idle =>
    right
    cases hm : s.map with
    | nil =>
      have h1 := hinv.count
      rw [hm] at h1
      have h1 : s.count = 0 := h1
      exact ⟨.exit 0, by simp, by simp [enabled, hw, hst, h1]⟩
    | cons n rest =>
      have h1 := hinv.count
      have h2 := hinv.sizeEq
      rw [hm, List.length_cons] at h1
      rw [hm, total_cons] at h2
      exact ⟨.take 0, by simp, by simp [enabled, hw, hm]; omega⟩

/-- Each action of a worker reduces the remaining work (see `stop_returns`). -/
theorem worker_decreases {s s' : St} (h : Reach Proper s) {a : Act} {r : Ret} (ha : (∃ k, a = .take k) ∨ (∃ k f, a = .finish k f) ∨ ∃ k, a = .exit k)
    (he : enabled s a = true) (hs : step s a = some (s', r)) : remaining s' < remaining s := by
  have hinv := h.inv
  have idle1 : ∀ k, s.workers[k]? = some .idle → s.workers = [.idle] ∧ k = 0 := by
    intro k hk
    have hph : s.phase ≠ .idle := by
      intro hi
      have := hinv.wgone hi _ (List.mem_of_getElem? hk)
      cases this
    obtain ⟨w, hw⟩ := hinv.single hph
    rw [hw] at hk
    cases k with
    | zero => exact ⟨by rw [hw]; simpa using hk, rfl⟩
    | succ k => simp at hk
  rcases ha with ⟨k, rfl⟩ | ⟨k, f, rfl⟩ | ⟨k, rfl⟩
  · simp only [enabled, Bool.and_eq_true, beq_iff_eq] at he
    obtain ⟨hw, rfl⟩ := idle1 k he.1.1
    simp only [step, Option.some.injEq, Prod.mk.injEq] at hs
    rw [← hs.1]
    unfold take remaining
    cases hm : s.map with
    | nil => rw [hm] at he; simp at he
    | cons n rest => simp [hw]
  · simp only [enabled] at he
    split at he
    case h_2 => cases he
    case h_1 nid idx sz hk =>
      obtain ⟨t, ht, -, hl, hwt, -⟩ := finish_inv hinv k f hk
      simp only [step, ht, Option.map_some, Option.some.injEq, Prod.mk.injEq] at hs
      rw [← hs.1]
      unfold remaining
      rw [hwt]
      dsimp only
      omega
  · simp only [enabled, Bool.and_eq_true, beq_iff_eq] at he
    obtain ⟨hw, rfl⟩ := idle1 k he.1.1
    simp only [step, Option.some.injEq, Prod.mk.injEq] at hs
    rw [← hs.1]
    unfold remaining
    simp [hw]

/-! ### Examples and refutations -/

/-- A session: three packets are queued out of order, one of them is replaced before it is written; all are delivered. -/
example : (run {} [.start 1 1 false 1, .queue 2 ⟨20, 3⟩, .commit 2 ⟨20, 3⟩, .queue 5 ⟨50, 1⟩, .commit 5 ⟨50, 1⟩, .queue 1 ⟨10, 4⟩,
    .commit 1 ⟨10, 4⟩, .queue 5 ⟨51, 2⟩, .commit 5 ⟨51, 2⟩, .take 0, .stop, .finish 0 false, .take 0, .finish 0 true, .take 0,
    .finish 0 false, .exit 0, .join]).map (fun t => (t.1.written, t.1.replaced, t.1.size, t.2)) =
    some ([(1, ⟨10, 4⟩), (2, ⟨20, 3⟩), (5, ⟨51, 2⟩)], [(5, ⟨50, 1⟩)], 0,
      [.nothing, .nothing, .queued 0, .nothing, .queued 1, .nothing, .queued 0, .nothing, .queued 2, .nothing, .nothing, .nothing,
       .nothing, .nothing, .nothing, .nothing, .nothing, .threw]) := by
  decide +kernel

/-- Documented use reaches a state in which a packet is being written, another one waits, and a call is in progress. -/
example : ∃ s, Reach Proper s ∧ s.workers = [.writing 0 4 3] ∧ waiting s = [(9, ⟨90, 1⟩)] ∧ s.pending = [(2, ⟨20, 5⟩)] ∧
    s.phase = .active := by
  refine ⟨_, .step (a := .queue 2 ⟨20, 5⟩) (.step (a := .take 0) (.step (a := .commit 9 ⟨90, 1⟩) (.step (a := .queue 9 ⟨90, 1⟩)
    (.step (a := .commit 4 ⟨40, 3⟩) (.step (a := .queue 4 ⟨40, 3⟩) (.step (a := .start 1 1 false 1) .init ⟨rfl, rfl⟩ rfl rfl) trivial rfl rfl)
      trivial rfl rfl) trivial rfl rfl) trivial rfl rfl) trivial rfl rfl) trivial rfl rfl, ?_⟩
  decide +kernel

/-- **C30 (refuted for several workers).** Two workers both take the first packet: it is given to the callback twice, and the
second worker then erases an iterator which is no longer valid. -/
theorem two_workers_refuted : ∃ (acts : List Act) (s : St) (rs : List Ret),
    run {} (.start 1 1 false 2 :: acts) = some (s, rs) ∧ s.accepted = [(7, ⟨70, 3⟩)] ∧ s.written = [(7, ⟨70, 3⟩), (7, ⟨70, 3⟩)] ∧
    enabled s (.finish 1 false) = true ∧ step s (.finish 1 false) = none := by
  have h : ∃ t, run {} [.start 1 1 false 2, .queue 7 ⟨70, 3⟩, .commit 7 ⟨70, 3⟩, .take 0, .take 1, .finish 0 false] = some t ∧
      t.1.accepted = [(7, ⟨70, 3⟩)] ∧ t.1.written = [(7, ⟨70, 3⟩), (7, ⟨70, 3⟩)] ∧ enabled t.1 (.finish 1 false) = true ∧
      (step t.1 (.finish 1 false)).isNone = true := by
    refine ⟨_, rfl, ?_⟩
    decide +kernel
  obtain ⟨⟨s, rs⟩, e1, e2, e3, e4, e5⟩ := h
  exact ⟨_, s, rs, e1, e2, e3, e4, Option.isNone_iff_eq_none.1 e5⟩

/-- **C30 (refuted for repeated indices).** Even with one worker and one caller, queueing an index again while its first
packet is being written assigns the packet which the callback reads without the lock. -/
theorem requeue_refuted : ∃ (acts : List Act) (s : St) (rs : List Ret),
    run {} (.start 1 1 false 1 :: acts) = some (s, rs) ∧ enabled s (.commit 7 ⟨71, 3⟩) = true ∧ step s (.commit 7 ⟨71, 3⟩) = none := by
  have h : ∃ t, run {} [.start 1 1 false 1, .queue 7 ⟨70, 3⟩, .commit 7 ⟨70, 3⟩, .take 0, .queue 7 ⟨71, 3⟩] = some t ∧
      enabled t.1 (.commit 7 ⟨71, 3⟩) = true ∧ (step t.1 (.commit 7 ⟨71, 3⟩)).isNone = true := by
    refine ⟨_, rfl, ?_⟩
    decide +kernel
  obtain ⟨⟨s, rs⟩, e1, e2, e3⟩ := h
  exact ⟨_, s, rs, e1, e2, Option.isNone_iff_eq_none.1 e3⟩

/-- **C30 (refuted for concurrent calls).** A call of `queue` which has passed the activity test when another thread stops the
writer is accepted, but its packet is never written. -/
theorem concurrent_stop_refuted : ∃ (acts : List Act) (s : St) (rs : List Ret),
    run {} (.start 1 1 false 1 :: acts) = some (s, rs) ∧ s.phase = .idle ∧ rs.getLast? = some (.queued 0) ∧
    s.accepted = [(7, ⟨70, 3⟩)] ∧ s.written = [] ∧ s.workers = [.gone] := by
  have h : ∃ t, run {} [.start 1 1 false 1, .queue 7 ⟨70, 3⟩, .stop, .exit 0, .join, .commit 7 ⟨70, 3⟩] = some t ∧
      t.1.phase = .idle ∧ t.2.getLast? = some (.queued 0) ∧
      t.1.accepted = [(7, ⟨70, 3⟩)] ∧ t.1.written = [] ∧ t.1.workers = [.gone] := by
    refine ⟨_, rfl, ?_⟩
    decide +kernel
  obtain ⟨⟨s, rs⟩, e1, e2⟩ := h
  exact ⟨_, s, rs, e1, e2⟩

/-- **C30 (refuted for no workers).** With zero workers, which the interface accepts, packets are accepted and lost. -/
theorem no_workers_refuted : ∃ (acts : List Act) (s : St) (rs : List Ret),
    run {} (.start 1 1 false 0 :: acts) = some (s, rs) ∧ s.phase = .idle ∧ s.accepted = [(7, ⟨70, 3⟩)] ∧ s.written = [] := by
  have h : ∃ t, run {} [.start 1 1 false 0, .queue 7 ⟨70, 3⟩, .commit 7 ⟨70, 3⟩, .stop, .join] = some t ∧
      t.1.phase = .idle ∧ t.1.accepted = [(7, ⟨70, 3⟩)] ∧ t.1.written = [] := by
    refine ⟨_, rfl, ?_⟩
    decide +kernel
  obtain ⟨⟨s, rs⟩, e1, e2⟩ := h
  exact ⟨_, s, rs, e1, e2⟩

/-! ### C69: failures of the archiving callback -/

/-- An action which ends a failing callback. -/
def isFailure : Act → Bool
  | .finish _ fail => fail
  | _ => false

theorem step_failures {s s' : St} {a : Act} {r : Ret} (he : enabled s a = true) (hs : step s a = some (s', r)) :
    s'.excs + (if r = .threw then 1 else 0) = s.excs + (if isFailure a then 1 else 0) := by
  have hre : ∀ t : St, (rethrow t).1.excs + (if (rethrow t).2 = .threw then 1 else 0) = t.excs := by
    intro t
    unfold rethrow
    split_ifs with h h' h' <;> simp at * <;> omega
  cases a with
  | queue i p =>
    simp only [step, Option.some.injEq, queueStart] at hs
    split_ifs at hs <;> rw [Prod.mk.injEq] at hs <;> obtain ⟨rfl, rfl⟩ := hs <;> simp [isFailure]
  | commit i p =>
    simp only [step, queueCommit] at hs
    split_ifs at hs
    · cases hfd : ({ s with pending := s.pending.erase (i, p) } : St).find i with
      | none =>
        rw [hfd] at hs
        simp only [Option.some.injEq, Prod.mk.injEq] at hs
        obtain ⟨rfl, rfl⟩ := hs
        simp [isFailure]
      | some n =>
        rw [hfd] at hs
        dsimp only at hs
        split_ifs at hs
        simp only [Option.some.injEq, Prod.mk.injEq] at hs
        obtain ⟨rfl, rfl⟩ := hs
        simp [isFailure]
    · simp only [Option.some.injEq, Prod.mk.injEq] at hs
      obtain ⟨rfl, rfl⟩ := hs
      simp [isFailure]
  | start n c d w =>
    simp only [step, Option.some.injEq, start] at hs
    split_ifs at hs
    · have := hre s
      rw [hs] at this
      simpa [isFailure] using this
    · rw [Prod.mk.injEq] at hs; obtain ⟨rfl, rfl⟩ := hs; simp [isFailure]
    · rw [Prod.mk.injEq] at hs; obtain ⟨rfl, rfl⟩ := hs; simp [isFailure]
  | stop =>
    simp only [step, Option.some.injEq, Prod.mk.injEq] at hs
    obtain ⟨rfl, rfl⟩ := hs; simp [isFailure]
  | join =>
    simp only [step, Option.some.injEq] at hs
    have := hre { s with phase := .idle }
    rw [hs] at this
    simpa [isFailure] using this
  | take k =>
    simp only [step, Option.some.injEq, Prod.mk.injEq] at hs
    obtain ⟨rfl, rfl⟩ := hs
    unfold take
    split <;> simp [isFailure]
  | finish k fail =>
    simp only [enabled] at he
    split at he
    case h_2 => cases he
    case h_1 nid idx sz hk =>
      simp only [step, finish, hk] at hs
      by_cases hany : (s.map.any fun n => n.nid == nid) = true
      · rw [if_pos hany] at hs
        simp only [Option.map_some, Option.some.injEq, Prod.mk.injEq] at hs
        obtain ⟨rfl, rfl⟩ := hs
        cases fail <;> simp [isFailure]
      · rw [if_neg hany] at hs
        cases hs
  | exit k =>
    simp only [step, Option.some.injEq, Prod.mk.injEq] at hs
    obtain ⟨rfl, rfl⟩ := hs; simp [isFailure]

/-- **C69.** Every failure of the callback in a worker is reported exactly once, by a later stop or start which throws: over
every schedule, with any number of workers, the number of throwing calls and of failures not yet reported is the number of
failing callbacks. -/
theorem failures_reported (acts : List Act) {s : St} {rs : List Ret} (h : run {} acts = some (s, rs)) :
    rs.count .threw + s.excs = acts.countP isFailure := by
  have gen : ∀ (acts : List Act) (s₀ s : St) (rs : List Ret), run s₀ acts = some (s, rs) →
      rs.count .threw + s.excs = acts.countP isFailure + s₀.excs := by
    intro acts
    induction acts with
    | nil =>
      intro s₀ s rs h
      simp only [run, Option.some.injEq, Prod.mk.injEq] at h
      obtain ⟨rfl, rfl⟩ := h
      simp
    | cons a acts ih =>
      intro s₀ s rs h
      unfold run at h
      split_ifs at h with he
      cases hst : step s₀ a with
      | none => rw [hst] at h; cases h
      | some t =>
        obtain ⟨t, r⟩ := t
        rw [hst] at h
        simp only [Option.map_eq_some_iff] at h
        obtain ⟨⟨u, rs'⟩, hrun, hu⟩ := h
        simp only [Prod.mk.injEq] at hu
        obtain ⟨rfl, rfl⟩ := hu
        have h1 := ih t _ _ hrun
        have h2 := step_failures he hst
        rw [List.count_cons, List.countP_cons]
        by_cases hr : r = .threw
        · subst hr
          simp only [if_true, beq_self_eq_true] at h2 ⊢
          omega
        · have hb : (r == Ret.threw) = false := by simp [hr]
          rw [if_neg hr] at h2
          rw [hb]
          simp only [Bool.false_eq_true, if_false]
          omega
  have := gen acts {} s rs h
  simpa using this

/-- **C69.** A stop or start returns normally only if no failure is left to report. -/
theorem silent_stop {s s' : St} {a : Act} {r : Ret} (ha : a = .join ∨ ∃ n c d w, a = .start n c d w) (hs : step s a = some (s', r)) :
    (r = .threw ↔ 0 < s.excs) := by
  have hre : ∀ t : St, (rethrow t).2 = .threw ↔ 0 < t.excs := by
    intro t
    unfold rethrow
    split_ifs with h <;> simp <;> omega
  rcases ha with rfl | ⟨n, c, d, w, rfl⟩
  · simp only [step, Option.some.injEq] at hs
    have := hre { s with phase := .idle }
    rw [hs] at this
    exact this
  · simp only [step, Option.some.injEq, start] at hs
    split_ifs at hs with h1
    · have := hre s
      rw [hs] at this
      exact this
    · rw [Prod.mk.injEq] at hs; obtain ⟨rfl, rfl⟩ := hs; simp; omega
    · rw [Prod.mk.injEq] at hs; obtain ⟨rfl, rfl⟩ := hs; simp; omega

end Litiv.Writer
