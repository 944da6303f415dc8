import Verif.Lemmas.Capture

/-! # Theorems about the recording loop of the capture application -/

namespace Litiv.Capture

open Spec

variable {P : Type}

theorem perm_facts (c : Cfg) (hc : c.ord.Perm (List.range c.n)) : c.ord.Nodup ∧ ∀ k, k ∈ c.ord ↔ k < c.n :=
  ⟨hc.nodup_iff.mpr List.nodup_range, fun k => by rw [hc.mem_iff, List.mem_range]⟩

/-- Between two frames and after the end, whatever the speed of the writers and of the disk, all streams got the
packets of the same frames, in the order of the frames: a frame is recorded in all the streams or dropped in all.
The number of these frames is the count of good frames. -/
theorem synchronised (c : Cfg) (hc : c.ord.Perm (List.range c.n)) (max : Nat → Nat) (tr : List (Act P)) (s : St P)
    (h : Reach c max tr s) (hb : Between s) :
    ∃ log : List (Nat × (Nat → Nat × P)), (log.map fun e => e.1).Pairwise (· < ·) ∧ log.length = s.good ∧
      (∀ e ∈ log, (grabs tr)[e.1]? = some (true, e.2)) ∧
      ∀ k < c.n, received (s.ws k) = log.map fun e => (e.1, (e.2 k).2) := by
  obtain ⟨h1, h2⟩ := perm_facts c hc
  obtain ⟨log, hl⟩ := inv_reach c h1 h2 max tr s h
  refine ⟨log, hl.incr, hl.good, hl.real, ?_⟩
  intro k hk
  rw [(hl.wr k hk).2, expect_plain log s k hb]

/-- At all times, the packets saved under the same number in two streams come from the same grab, and the numbers in
each stream are 0, 1, 2, … -/
theorem same_number (c : Cfg) (hc : c.ord.Perm (List.range c.n)) (max : Nat → Nat) (tr : List (Act P)) (s : St P)
    (h : Reach c max tr s) :
    (∀ k < c.n, ((s.ws k).saved.map fun o => o.num) = List.range (s.ws k).saved.length) ∧
    ∀ j < c.n, ∀ k < c.n, ∀ o ∈ (s.ws j).saved, ∀ o' ∈ (s.ws k).saved, o.num = o'.num →
      o.idx = o'.idx ∧ ∃ ps, (grabs tr)[o.idx]? = some (true, ps) ∧ o.val = (ps j).2 ∧ o'.val = (ps k).2 := by
  obtain ⟨h1, h2⟩ := perm_facts c hc
  obtain ⟨log, hl⟩ := inv_reach c h1 h2 max tr s h
  refine ⟨fun k hk => (hl.wr k hk).1.nums, ?_⟩
  -- one list of frames of which every stream got a prefix
  have key : ∃ l : List (Nat × (Nat → Nat × P)), (∀ e ∈ l, (grabs tr)[e.1]? = some (true, e.2)) ∧
      ∀ k < c.n, received (s.ws k) <+: l.map fun e => (e.1, (e.2 k).2) := by
    by_cases hb : Between s
    · exact ⟨log, hl.real, fun k hk => by rw [(hl.wr k hk).2, expect_plain log s k hb]; exact List.prefix_rfl⟩
    · cases hph : s.ph with
      | push ps todo =>
        have hp := hl.phase
        unfold PhaseInv at hp
        rw [hph] at hp
        refine ⟨log ++ [(s.idx, ps)], ?_, ?_⟩
        · intro e he
          rcases List.mem_append.mp he with he | he
          · exact hl.real e he
          · rw [List.mem_singleton] at he
            subst he
            exact hp.2.1
        · intro k hk
          rw [(hl.wr k hk).2]
          unfold expect
          rw [hph]
          dsimp only
          by_cases hm : k ∈ todo
          · rw [if_pos hm]; simp
          · rw [if_neg hm]; simp
      | idle => exact absurd (by unfold Between; rw [hph]; trivial) hb
      | check _ _ _ => exact absurd (by unfold Between; rw [hph]; trivial) hb
      | stopped => exact absurd (by unfold Between; rw [hph]; trivial) hb
      | failed => exact absurd (by unfold Between; rw [hph]; trivial) hb
  obtain ⟨l, hreal, hpre⟩ := key
  have pos : ∀ k < c.n, ∀ o ∈ (s.ws k).saved, ∃ e, l[o.num]? = some e ∧ o.idx = e.1 ∧ o.val = (e.2 k).2 := by
    intro k hk o ho
    obtain ⟨m, hm, hmo⟩ := List.mem_iff_getElem.mp ho
    have hnum : o.num = m := by
      have h3 : ((s.ws k).saved.map fun o => o.num)[m]? = some o.num := by
        rw [List.getElem?_map, List.getElem?_eq_getElem hm, hmo]; rfl
      rw [(hl.wr k hk).1.nums, List.getElem?_range hm] at h3
      exact (Option.some.inj h3).symm
    have h4 : (received (s.ws k))[m]? = some (o.idx, o.val) := by
      unfold received
      rw [List.getElem?_append_left (by simpa using hm), List.getElem?_map, List.getElem?_eq_getElem hm, hmo]
      rfl
    obtain ⟨r, hr⟩ := hpre k hk
    have h5 : (l.map fun e => (e.1, (e.2 k).2))[m]? = some (o.idx, o.val) := by
      rw [← hr, List.getElem?_append_left (List.getElem?_eq_some_iff.mp h4).1]
      exact h4
    rw [List.getElem?_map] at h5
    obtain ⟨e, he, hee⟩ := Option.map_eq_some_iff.mp h5
    rw [Prod.mk.injEq] at hee
    exact ⟨e, by rw [hnum]; exact he, hee.1.symm, hee.2.symm⟩
  intro j hj k hk o ho o' ho' hn
  obtain ⟨e, he, h6, h7⟩ := pos j hj o ho
  obtain ⟨e', he', h8, h9⟩ := pos k hk o' ho'
  rw [← hn, he] at he'
  obtain rfl := Option.some.inj he'
  exact ⟨h6.trans h8.symm, e.2, by rw [h6]; exact hreal e (List.mem_of_getElem? he), h7, h9⟩

/-- The assertions of the writers hold, and the one after each call of `queue` too: the application only fails when
a packet is larger than its whole queue, and then before anything of the frame is queued. -/
theorem asserts_hold (c : Cfg) (hc : c.ord.Perm (List.range c.n)) (max : Nat → Nat) (tr : List (Act P)) (s : St P)
    (h : Reach c max tr s) : (∀ k < c.n, (s.ws k).err = false) ∧
    (s.ph = .failed → ∃ (i : Nat) (ps : Nat → Nat × P) (k : Nat), k < c.n ∧ (grabs tr)[i]? = some (true, ps) ∧ max k < (ps k).1) := by
  obtain ⟨h1, h2⟩ := perm_facts c hc
  obtain ⟨log, hl⟩ := inv_reach c h1 h2 max tr s h
  refine ⟨fun k hk => (hl.wr k hk).1.err, ?_⟩
  intro hf
  have hp := hl.phase
  unfold PhaseInv at hp
  rw [hf] at hp
  obtain ⟨ps, k, hk, hg, hm⟩ := hp
  exact ⟨s.idx, ps, k, hk, hg, by rw [← hl.max]; exact hm⟩

/-- The packets that wait never take more bytes than the size of their queue. -/
theorem memory_bounded (c : Cfg) (hc : c.ord.Perm (List.range c.n)) (max : Nat → Nat) (tr : List (Act P)) (s : St P)
    (h : Reach c max tr s) : ∀ k < c.n, waiting (s.ws k) ≤ max k := by
  have hb : ∀ k, waiting (s.ws k) ≤ (s.ws k).max := by
    induction h with
    | init => intro k; simp [waiting, init]
    | step _ hs ih => exact bounded_step c _ _ _ ih hs
  obtain ⟨h1, h2⟩ := perm_facts c hc
  obtain ⟨log, hl⟩ := inv_reach c h1 h2 max tr s h
  intro k _
  have := hb k
  rw [hl.max] at this
  exact this

/-- A frame for which all queues have room is recorded: it is queued in all the streams, and the loop goes on with
the next index. -/
theorem recorded (c : Cfg) (hc : c.ord.Perm (List.range c.n)) (s : St P) (ps : Nat → Nat × P) (hi : s.ph = .idle)
    (hroom : ∀ j < c.n, waiting (s.ws j) + (ps j).1 ≤ (s.ws j).max) :
    ∃ s', exec c s (.grab true ps false :: List.replicate (2 * c.n + 2) .main) = some s' ∧ s'.ph = .idle ∧
      s'.idx = s.idx + 1 ∧ s'.good = s.good + 1 ∧
      ∀ k < c.n, received (s'.ws k) = received (s.ws k) ++ [(s.idx, (ps k).2)] := by
  obtain ⟨h1, h2⟩ := perm_facts c hc
  have hf : ∀ j < c.n, (s.ws j).fits (ps j).1 = true := fun j hj => (fits_iff _ _).mpr (hroom j hj)
  have hlen : c.ord.length = c.n := by rw [hc.length_eq, List.length_range]
  have hr : List.replicate (2 * c.n + 2) (Act.main (P := P)) =
      List.replicate c.n .main ++ ([.main] ++ (List.replicate c.ord.length .main ++ [.main])) := by
    rw [hlen]
    have : ∀ m : Nat, List.replicate m (Act.main (P := P)) ++ [.main] = List.replicate (m + 1) .main := fun m => by
      rw [List.replicate_succ']
    rw [this, show [Act.main (P := P)] = List.replicate 1 .main from rfl, List.replicate_append_replicate,
      List.replicate_append_replicate]
    congr 1
    omega
  refine ⟨⟨fun k => if k ∈ c.ord then (s.ws k).put s.idx (ps k) else s.ws k, s.idx + 1, s.good + 1, .idle⟩, ?_, rfl,
    rfl, rfl, ?_⟩
  · unfold exec
    have hg : step c s (.grab true ps false) = some { s with ph := .check ps 0 true } := by
      unfold step
      dsimp only
      rw [hi]
      rfl
    rw [hg, Option.bind_some, hr, exec_append, check_run c ps s hf c.n 0 (by omega), Option.bind_some, exec_append]
    have hm : exec c { s with ph := .check ps c.n true } [.main] = some { s with ph := .push ps c.ord } := by
      unfold exec step
      dsimp only
      rw [if_neg (by omega)]
      rfl
    rw [hm, Option.bind_some, exec_append, push_run c ps c.ord s h1 fun j hj => hf j ((h2 j).mp hj), Option.bind_some]
    rfl
  · intro k hk
    dsimp only
    rw [if_pos ((h2 k).mpr hk), received_put]

/-- The order of the code (the last writer, for the colour video, is queued first), with all sensors and both
mappings: eight streams. -/
def eight : Cfg := ⟨8, [7, 0, 1, 2, 3, 4, 5, 6]⟩

example : eight.ord.Perm (List.range eight.n) := by decide +kernel

/-- Two streams, with room for two packets and for one. -/
def two : Cfg := ⟨2, [1, 0]⟩

/-- The packets of a frame: size 1, contents from the number of the frame. -/
def frame (v : Nat) : Nat → Nat × Nat := fun k => (1, 10 * v + k)

/-- A history: the first frame is kept, the second is dropped for both since the second stream is full, the third is
kept after the second stream has saved. -/
def history : List (Act Nat) :=
  [.grab true (frame 1) false, .main, .main, .main, .main, .main, .main,
    .grab true (frame 2) false, .main, .main, .main,
    .save 1, .grab true (frame 3) false, .main, .main, .main, .main, .main, .main, .save 0]

/-- The histories of the theorems exist. -/
example : ∃ s, Reach two (fun k => 2 - k) history s ∧ Between s ∧ received (s.ws 0) = [(0, 10), (2, 30)] ∧
    received (s.ws 1) = [(0, 11), (2, 31)] ∧ s.good = 2 ∧ s.idx = 3 ∧
    ((s.ws 0).saved.map fun o => (o.num, o.val)) = [(0, 10)] :=
  ⟨_, exec_reach two _ history [] _ _ .init rfl, trivial, rfl, rfl, rfl, rfl, rfl⟩

/-- A packet larger than its queue. -/
example : ∃ s, Reach two (fun k => 1 - k) [.grab true (frame 1) false, .main, .main] s ∧ s.ph = .failed ∧
    s.good = 0 := ⟨_, exec_reach two _ _ [] _ _ .init rfl, rfl, rfl⟩

end Litiv.Capture
