import Verif.Lemmas.Precacher

/-! # Properties of the data precacher (C28, C29, C68) -/

namespace Litiv.Precacher

/-- A loader for the examples: packets 0, 1 and 2 hold data, the stream ends after them. -/
def exLoader (i : Nat) : Option Pkt :=
  if i < 3 then some ⟨7, [UInt8.ofNat i, 100]⟩ else some ⟨0, []⟩

/-- A loader which fails on packet 1. -/
def exBroken (i : Nat) : Option Pkt :=
  if i = 1 then none else some ⟨7, [UInt8.ofNat i, 100]⟩

/-! ### C29: the ring buffer -/

/-- **C29.** Under every schedule, no action writes outside of the buffer or takes a packet from an empty cache: every
enabled action is defined. -/
theorem no_undefined {cb : Nat → Option Pkt} {s : St} (h : Reach cb s) {a : Act} (he : enabled s a = true) : step cb s a ≠ none := by
  obtain ⟨s', r, e, -⟩ := step_inv h.inv he
  rw [e]; simp

/-- **C29.** While the worker runs, all cached packets and the packet held by the user lie inside the buffer, and no two of
them overlap. -/
theorem regions_disjoint {cb : Nat → Option Pkt} {s : St} (h : Reach cb s) (ha : s.alive = true) :
    (∀ v ∈ s.cache, v.off + v.len ≤ s.size) ∧
    s.cache.Pairwise (fun v w => v.off + v.len ≤ w.off ∨ w.off + w.len ≤ v.off) ∧
    ∀ v, s.lastPacket = .view s.gen v → v.off + v.len ≤ s.size ∧
      ∀ w ∈ s.cache, v.off + v.len ≤ w.off ∨ w.off + w.len ≤ v.off := by
  have w := h.inv.worker ha
  have hp := w.layout.pairwise
  rw [List.pairwise_append] at hp
  refine ⟨fun v hv => (w.layout.bounds (List.mem_append_right _ hv)).1, hp.2.1, fun v hv => ?_⟩
  rcases w.held with hh | hh | hh
  · exact absurd hv (hh v)
  · have hm := prot_mem (v := v) (by rw [← hh]; exact hv)
    exact ⟨(w.layout.bounds (List.mem_append_left _ hm)).1, fun x hx => hp.2.2 v hm x hx⟩
  · exact hh.2.2 v hv

/-- **C29.** The bytes of every cached packet are those of the loader: the `j`-th cached packet is packet
`nextExp + j`, and the packets up to `nextPre` are exactly the cached ones. -/
theorem cache_contents {cb : Nat → Option Pkt} {s : St} (h : Reach cb s) (ha : s.alive = true) :
    s.nextPre = s.nextExp + s.cache.length ∧
    ∀ (j : Nat) v, s.cache[j]? = some v → cb (s.nextExp + j) = some ⟨v.hdr, readMem s.mem v.off v.len⟩ :=
  ⟨(h.inv.worker ha).count, (h.inv.worker ha).holds⟩

/-- The buffer size: what was asked for, but no more than the build's maximum and no less than 10 MB. -/
theorem buffer_size (s : St) (n : Nat) (hn : 0 < n) (he : s.exc = false) :
    (start s n).1.alive = true ∧ (start s n).1.size = max (min n s.maxSize) cacheMinSize := by
  have : ¬ (stop s).2 = .threw := by unfold stop; simp [he]
  unfold start
  simp only [if_neg this, if_pos (show n > 0 from hn), true_and]

/-- A schedule of the user and the worker: two packets are cached, the first is handed out, and the second stays. -/
example : (run exLoader { maxSize := 100000000 } [.start 1, .fill, .fill, .get 0, .answer, .recv]).map
    (fun t => (t.2, t.1.cache, t.1.lastPacket, t.1.alive)) =
    some ([.nothing, .nothing, .nothing, .nothing, .nothing, .value 0 (some ⟨7, [0, 100]⟩)], [⟨2, 2, 7⟩], .view 1 ⟨0, 2, 7⟩, true) := by
  decide +kernel

/-! ### C28: the precacher is transparent -/

/-- **C28 (partial).** Under every schedule, a packet returned for index `i` has the bytes and the header the loader gives for
`i`, or it refers to a buffer which no longer exists. The latter happens only when the last packet is asked for again after
its worker has gone. Missing: that this exception does not exist; `transparent_refuted` shows that it does. -/
theorem transparent_partial {cb : Nat → Option Pkt} {s s' : St} (h : Reach cb s) {a : Act} (he : enabled s a = true) {i : Nat}
    {p : Option Pkt} (hs : step cb s a = some (s', .value i p)) :
    ((a = .get i ∨ (a = .recv ∧ s.req = some i)) ∧ p = cb i ∧ p ≠ none) ∨
    (a = .get i ∧ p = none ∧ s.lastReq = some i ∧
      ∃ g v, s.lastPacket = .view g v ∧ ¬ (s.alive = true ∧ g = s.gen)) := by
  have hinv := h.inv
  have notnone : ∀ {t : St} {hd : Handle} {i : Nat}, HandleOk cb t hd i → cb i = none →
      ∃ g v, hd = .view g v ∧ ¬ (t.alive = true ∧ g = t.gen) := by
    intro t hd i hh hn
    cases hd with
    | empty => exact hh.elim
    | owned p => rw [show cb i = some p from hh] at hn; cases hn
    | view g v =>
      refine ⟨g, v, rfl, fun ⟨e1, e2⟩ => ?_⟩
      have : cb i = _ := hh e2 e1
      rw [this] at hn; cases hn
  cases a with
  | get j =>
    simp only [step, Option.some.injEq, getStart] at hs
    split_ifs at hs with h1 h2
    · simp only [Prod.mk.injEq, Ret.value.injEq] at hs
      obtain ⟨-, rfl, rfl⟩ := hs
      rcases (hinv.last j h1).read_or with e | ⟨e, hd⟩
      · by_cases hn : cb j = none
        · exact Or.inr ⟨rfl, by rw [e, hn], h1, notnone (hinv.last j h1) hn⟩
        · exact Or.inl ⟨Or.inl rfl, e, by rw [e]; exact hn⟩
      · exact Or.inr ⟨rfl, e, h1, hd⟩
    · cases hc : cb j with
      | none => rw [hc] at hs; simp at hs
      | some q =>
        rw [hc] at hs
        simp only [Prod.mk.injEq, Ret.value.injEq] at hs
        obtain ⟨-, rfl, rfl⟩ := hs
        exact Or.inl ⟨Or.inl rfl, hc.symm, by simp⟩
    · simp at hs
  | recv =>
    simp only [enabled, Bool.and_eq_true, Bool.or_eq_true, beq_iff_eq] at he
    obtain ⟨j, hj⟩ := Option.isSome_iff_exists.1 he.1
    simp only [step, Option.some.injEq, getEnd] at hs
    split_ifs at hs with h1
    · simp at hs
    · simp only [Prod.mk.injEq, Ret.value.injEq, hj, Option.getD_some] at hs
      obtain ⟨-, rfl, hp⟩ := hs
      have hidx : s.answIdx = some j := by
        rcases he.2 with h | h
        · exact absurd h h1
        · rw [h, hj]
      have hal : s.alive = true := by
        rcases hinv.activeAlive (hinv.reqActive (by rw [hj]; simp)) with h | h
        · exact h
        · exact absurd h h1
      have w := (hinv.worker hal).answ
      rw [hidx] at w
      have hgen := hinv.genReq
      have hview : ∀ g v, s.reqPacket = .view g v → s.alive = true ∧ g = s.gen := by
        intro g v e
        exact ⟨hal, w.2.2 g v e⟩
      have e := w.2.1.read hview
      refine Or.inl ⟨Or.inr ⟨rfl, hj⟩, ?_, ?_⟩
      · rw [← hp]; exact e
      · rw [← hp]
        intro hn
        have hn : s.read s.reqPacket = none := hn
        obtain ⟨g, v, e1, e2⟩ := notnone w.2.1 (by rw [← e]; exact hn)
        exact e2 (hview g v e1)
  | start n =>
    simp only [step, Option.some.injEq, start] at hs
    have hstop : (stop s).2 = .threw ∨ (stop s).2 = .nothing := by
      unfold stop; dsimp only; split_ifs <;> simp
    split_ifs at hs with h1
    · have := congrArg Prod.snd hs
      rcases hstop with e | e <;> rw [e] at this <;> cases this
    · simp at hs
    · simp at hs
  | stop =>
    simp only [step, Option.some.injEq] at hs
    have := congrArg Prod.snd hs
    unfold stop at this
    dsimp only at this
    split_ifs at this
  | fill =>
    simp only [step, Option.map_eq_some_iff] at hs
    obtain ⟨_, -, hs⟩ := hs
    simp at hs
  | answer =>
    simp only [step, Option.map_eq_some_iff] at hs
    obtain ⟨_, -, hs⟩ := hs
    simp at hs

/-- A request which is answered from the cache returns the loader's packet. -/
example : (run exLoader { maxSize := 100000000 } [.start 1, .fill, .fill, .fill, .fill, .get 2, .answer, .recv, .get 0, .answer, .recv]).map
    (fun t => t.2) =
    some [.nothing, .nothing, .nothing, .nothing, .nothing, .nothing, .nothing, .value 2 (some ⟨7, [2, 100]⟩), .nothing, .nothing,
      .value 0 (some ⟨7, [0, 100]⟩)] := by
  decide +kernel

/-- **C28 (refuted in general).** The packet asked for last refers to the buffer of the worker. After `stopAsyncPrecaching`
the buffer is gone, but asking for the same packet still returns it: there is a schedule of valid calls, with a
loader which never fails, whose last call returns a packet in freed memory. -/
theorem transparent_refuted : ∃ (cb : Nat → Option Pkt) (acts : List Act) (rs : List Ret) (s : St),
    (∀ i, cb i ≠ none) ∧ run cb { maxSize := 100000000 } acts = some (s, rs ++ [.value 0 none]) := by
  have h : ∃ t, run exLoader { maxSize := 100000000 } [.start 1, .fill, .get 0, .answer, .recv, .stop, .get 0] = some t ∧
      t.2 = [.nothing, .nothing, .nothing, .nothing, .value 0 (some ⟨7, [0, 100]⟩), .nothing] ++ [.value 0 none] := by
    refine ⟨_, rfl, ?_⟩
    decide +kernel
  obtain ⟨⟨s, rs⟩, e1, e2⟩ := h
  dsimp only at e2
  subst e2
  refine ⟨exLoader, _, _, s, ?_, e1⟩
  intro i
  unfold exLoader
  split <;> simp

/-- **C28.** The packet held by the user stays intact: at every point of every schedule it reads as the loader's packet, as
long as its buffer exists. In particular, no precaching overwrites it. -/
theorem held_intact {cb : Nat → Option Pkt} {s : St} (h : Reach cb s) {i : Nat} (hi : s.lastReq = some i)
    (hd : ∀ g v, s.lastPacket = .view g v → s.alive = true ∧ g = s.gen) : s.read s.lastPacket = cb i ∧ cb i ≠ none := by
  have hh := h.inv.last i hi
  have e := hh.read hd
  refine ⟨e, ?_⟩
  cases hp : s.lastPacket with
  | empty => rw [hp] at hh; exact hh.elim
  | owned p => rw [hp] at hh; rw [show cb i = some p from hh]; simp
  | view g v =>
    rw [hp] at hh
    obtain ⟨e1, e2⟩ := hd g v hp
    have : cb i = _ := hh e2 e1
    rw [this]; simp

/-- **C28 (refuted in general).** A failure of the loader on a packet the user has not asked for frees the buffer under the
packet the user holds, while no call of the user is in progress. -/
theorem held_freed_refuted : ∃ (cb : Nat → Option Pkt) (acts : List Act) (rs : List Ret) (s : St),
    cb 0 ≠ none ∧ run cb { maxSize := 100000000 } acts = some (s, rs) ∧ acts.getLast? = some .fill ∧
    s.lastReq = some 0 ∧ s.active = true ∧ s.read s.lastPacket = none := by
  have h : ∃ t, run exBroken { maxSize := 100000000 } [.start 1, .fill, .get 0, .answer, .recv, .fill] = some t ∧
      t.1.lastReq = some 0 ∧ t.1.active = true ∧ t.1.read t.1.lastPacket = none := by
    refine ⟨_, rfl, ?_⟩
    decide +kernel
  obtain ⟨⟨s, rs⟩, e1, e2⟩ := h
  exact ⟨exBroken, _, rs, s, by decide, e1, rfl, e2⟩

/-- **C28.** Every request is served: when the worker looks at it, the answer becomes available to the caller. -/
theorem request_served {cb : Nat → Option Pkt} {s : St} (h : Reach cb s) (hr : s.req ≠ none) :
    enabled s .recv = true ∨
    (enabled s .answer = true ∧ ∃ s', step cb s .answer = some (s', .nothing) ∧ enabled s' .recv = true) := by
  obtain ⟨i, hi⟩ := Option.ne_none_iff_exists'.1 hr
  have hinv := h.inv
  rcases hinv.activeAlive (hinv.reqActive hr) with ha | he
  · refine Or.inr ⟨by simp [enabled, ha, hi], ?_⟩
    obtain ⟨s', e, hi', hx⟩ := answer_inv hinv hi ha
    have hreq : s'.req = some i := by
      unfold answer at e
      split_ifs at e
      · cases e; exact hi
      · rw [(popTo_same _ _ _ _ e).2, hi]
      · cases e; rw [(answerDirect_same _ _ _ _).1, hi]
      · cases e; rw [(answerDirect_same _ _ _ _).1, hi]
    refine ⟨s', by simp [step, hi, e], ?_⟩
    simp only [enabled, hreq, Option.isSome_some, Bool.true_and, Bool.or_eq_true, beq_iff_eq]
    cases hex : s'.exc with
    | true => exact Or.inl rfl
    | false => exact Or.inr (hx hex)
  · left
    simp [enabled, hi, he]

/-- With a loader which never fails, no call ever throws. -/
theorem never_throws {cb : Nat → Option Pkt} (hcb : ∀ i, cb i ≠ none) {s s' : St} (h : Reach cb s) {a : Act} {r : Ret}
    (hs : step cb s a = some (s', r)) : r ≠ .threw := by
  have hexc : s.exc = false := by
    clear hs
    induction h with
    | init m => rfl
    | @step s s' a r _ _ hs ih =>
      cases hx : s'.exc with
      | false => rfl
      | true =>
        rcases (step_clean ih hs).1 hx with h | h
        · exact absurd h.2 (hcb _)
        · exact absurd h.2 (hcb _)
  intro ht
  obtain ⟨i, -, hi⟩ := (step_clean hexc hs).2 ht
  exact hcb i hi

example : ∀ i, exLoader i ≠ none := by
  intro i; unfold exLoader; split <;> simp

/-! ### C68: failures of the loader -/

/-- **C68.** A failure of the loader in the worker is never swallowed: once it has happened, it stays recorded under every
further schedule, the worker never runs again, a pending request fails, and so does every later start or stop. -/
theorem failure_reported {cb : Nat → Option Pkt} {s : St} (h : Reach cb s) (hx : s.exc = true) (acts : List Act) {s' : St} {rs : List Ret}
    (hr : run cb s acts = some (s', rs)) :
    s'.exc = true ∧ s'.alive = false ∧
    ∀ (k : Nat) a, acts[k]? = some a → (a = .recv ∨ a = .stop ∨ ∃ n, a = .start n) → rs[k]? = some .threw := by
  have hal : s.alive = false := by
    cases ha : s.alive with
    | false => rfl
    | true => rw [(h.inv.aliveActive ha).2] at hx; cases hx
  induction acts generalizing s rs with
  | nil =>
    simp only [run, Option.some.injEq, Prod.mk.injEq] at hr
    obtain ⟨rfl, rfl⟩ := hr
    exact ⟨hx, hal, fun k a hk => by simp at hk⟩
  | cons b acts ih =>
    unfold run at hr
    split_ifs at hr with he
    cases hst : step cb s b with
    | none => rw [hst] at hr; cases hr
    | some t =>
      obtain ⟨t, r⟩ := t
      rw [hst] at hr
      simp only [Option.map_eq_some_iff] at hr
      obtain ⟨⟨u, rs'⟩, hrun, hu⟩ := hr
      simp only [Prod.mk.injEq] at hu
      obtain ⟨rfl, rfl⟩ := hu
      have ht := Reach.step h he hst
      have hxt := step_exc hx hst hal he
      have halt : t.alive = false := by
        cases ha : t.alive with
        | false => rfl
        | true => rw [(ht.inv.aliveActive ha).2] at hxt; cases hxt
      obtain ⟨h1, h2, h3⟩ := ih ht hxt hrun halt
      refine ⟨h1, h2, fun k a hk hkind => ?_⟩
      cases k with
      | succ k => exact h3 k a hk hkind
      | zero =>
        have hk : b = a := by simpa using hk
        subst hk
        show some r = some Ret.threw
        have hstop : (stop s).2 = .threw := if_pos hx
        rcases hkind with rfl | rfl | ⟨n, rfl⟩
        · simp only [step, getEnd, if_pos hx, Option.some.injEq, Prod.mk.injEq] at hst
          rw [hst.2]
        · simp only [step, Option.some.injEq] at hst
          rw [← hstop, hst]
        · simp only [step, start, hstop, if_true, Option.some.injEq] at hst
          rw [← hstop, hst]

/-- A failure of the loader is recorded, and the start after it throws. -/
example : (run exBroken { maxSize := 100000000 } [.start 1, .fill, .fill, .get 0, .recv, .start 1, .get 5, .stop]).map (fun t => t.2) =
    some [.nothing, .nothing, .nothing, .nothing, .threw, .threw, .value 5 (some ⟨7, [5, 100]⟩), .threw] := by
  decide +kernel

/-- **C68.** The failure is recorded exactly when the loader fails for the packet being precached or answered: the worker is
gone in the very next state. -/
theorem failure_recorded {cb : Nat → Option Pkt} {s s' : St} {r : Ret} (h : Reach cb s) (ha : s.alive = true) {a : Act}
    (he : enabled s a = true) (hs : step cb s a = some (s', r)) (hx : s'.exc = true) :
    (a = .fill ∧ cb s.nextPre = none) ∨ (a = .answer ∧ ∃ i, s.req = some i ∧ cb i = none) := by
  rcases (step_clean (h.inv.aliveActive ha).2 hs).1 hx with h1 | ⟨rfl, h1⟩
  · exact Or.inl h1
  · simp only [enabled, Bool.and_eq_true] at he
    obtain ⟨i, hi⟩ := Option.isSome_iff_exists.1 he.2
    exact Or.inr ⟨rfl, i, hi, by rw [hi] at h1; exact h1⟩

end Litiv.Precacher
