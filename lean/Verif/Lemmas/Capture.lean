import Verif.Spec.Capture
import Mathlib.Data.List.Basic
import Mathlib.Data.List.Range

namespace Litiv.Capture

open Spec

variable {P : Type}

theorem grabs_append : ∀ (a b : List (Act P)), grabs (a ++ b) = grabs a ++ grabs b
  | [], b => rfl
  | .grab _ _ _ :: t, b => by simp [grabs, grabs_append t b]
  | .main :: t, b => by simp [grabs, grabs_append t b]
  | .save _ :: t, b => by simp [grabs, grabs_append t b]

/-- Increasing numbers are at least their position. -/
theorem le_of_increasing : ∀ (l : List Nat) (b m v : Nat), l.Pairwise (· < ·) → (∀ x ∈ l, b ≤ x) → l[m]? = some v →
    b + m ≤ v
  | [], _, m, v, _, _, h => by simp at h
  | x :: t, b, 0, v, _, hb, h => by
    simp at h
    subst h
    simpa using hb x (by simp)
  | x :: t, b, m + 1, v, hp, hb, h => by
    rw [List.pairwise_cons] at hp
    have hx := hb x (by simp)
    have := le_of_increasing t (b + 1) m v hp.2 (fun y hy => by have := hp.1 y hy; omega) (by simpa using h)
    omega

/-- What holds of a writer at all times. -/
structure WInv (w : Wr P) : Prop where
  nums : (w.saved.map fun o => o.num) = List.range w.saved.length
  next : w.next = w.saved.length
  err : w.err = false
  incr : ((received w).map fun r => r.1).Pairwise (· < ·)

theorem next_last (w : Wr P) (n : Nat) (h : w.next = n) : ∀ l, w.last = some l → l + 1 = n := by
  intro l hl
  unfold Wr.next at h
  rw [hl] at h
  exact h

theorem save_inv (w : Wr P) (h : WInv w) : WInv w.save ∧ received w.save = received w ∧ w.save.used ≤ w.used ∧
    w.save.max = w.max := by
  unfold Wr.save
  cases hq : w.queue with
  | nil => exact ⟨h, rfl, Nat.le_refl _, rfl⟩
  | cons q t =>
    have hidx : w.saved.length ≤ q.idx := by
      have h1 : ((received w).map fun r => r.1)[w.saved.length]? = some q.idx := by
        unfold received
        rw [hq, List.map_append, List.getElem?_append_right (by simp)]
        simp
      have := le_of_increasing _ 0 _ _ h.incr (by simp) h1
      omega
    have hall : (w.last.all fun l => decide (l < q.idx)) = true := by
      cases hl : w.last with
      | none => rfl
      | some l =>
        have := next_last w _ h.next l hl
        simp
        omega
    dsimp only
    rw [if_pos hall]
    have hrec : received ({ w with queue := t, saved := w.saved ++ [⟨w.next, q.idx, q.val⟩], last := some w.next } : Wr P)
        = received w := by
      unfold received
      rw [hq]
      simp
    refine ⟨⟨?_, ?_, h.err, ?_⟩, hrec, ?_, rfl⟩
    · simp only [List.map_append, List.map_cons, List.map_nil, List.length_append, List.length_cons, List.length_nil,
        Nat.zero_add, List.range_succ]
      rw [h.nums, h.next]
    · simp [Wr.next] at *
      exact h.next
    · rw [hrec]
      exact h.incr
    · unfold Wr.used
      rw [hq]
      simp

theorem fits_save (w : Wr P) (h : WInv w) (n : Nat) (hf : w.fits n = true) : w.save.fits n = true := by
  have hs := save_inv w h
  unfold Wr.fits at *
  rw [decide_eq_true_eq] at *
  rw [hs.2.2.2]
  have := hs.2.2.1
  omega

theorem received_put (w : Wr P) (i : Nat) (p : Nat × P) : received (w.put i p) = received w ++ [(i, p.2)] := by
  simp [received, Wr.put]

theorem put_inv (w : Wr P) (i : Nat) (p : Nat × P) (h : WInv w) (hi : ∀ r ∈ received w, r.1 < i) :
    WInv (w.put i p) := by
  refine ⟨h.nums, h.next, h.err, ?_⟩
  rw [received_put, List.map_append, List.pairwise_append]
  refine ⟨h.incr, by simp, ?_⟩
  intro a ha b hb
  obtain ⟨r, hr, rfl⟩ := List.mem_map.mp ha
  simp at hb
  subst hb
  exact hi r hr

/-- What stream `k` has got of the kept frames, and of the frame in hand when it was already queued. -/
def expect (log : List (Nat × (Nat → Nat × P))) (s : St P) (k : Nat) : List (Nat × P) :=
  (log.map fun e => (e.1, (e.2 k).2)) ++ match s.ph with
    | .push ps todo => if k ∈ todo then [] else [(s.idx, (ps k).2)]
    | _ => []

/-- The phase agrees with the history. -/
def PhaseInv (c : Cfg) (tr : List (Act P)) (s : St P) : Prop := match s.ph with
  | .idle => (grabs tr).length = s.idx
  | .check ps k ok => (grabs tr).length = s.idx + 1 ∧ (grabs tr)[s.idx]? = some (true, ps) ∧ k ≤ c.n ∧
      (∀ j < k, (ps j).1 ≤ (s.ws j).max) ∧ (ok = true → ∀ j < k, (s.ws j).fits (ps j).1 = true)
  | .push ps todo => (grabs tr).length = s.idx + 1 ∧ (grabs tr)[s.idx]? = some (true, ps) ∧ todo.Nodup ∧
      (∀ k ∈ todo, k < c.n ∧ (s.ws k).fits (ps k).1 = true)
  | .stopped => True
  | .failed => ∃ ps k, k < c.n ∧ (grabs tr)[s.idx]? = some (true, ps) ∧ (s.ws k).max < (ps k).1

/-- The invariant. -/
structure Inv (c : Cfg) (max : Nat → Nat) (tr : List (Act P)) (s : St P) (log : List (Nat × (Nat → Nat × P))) : Prop where
  phase : PhaseInv c tr s
  incr : (log.map fun e => e.1).Pairwise (· < ·)
  below : ∀ e ∈ log, e.1 < s.idx
  good : log.length = s.good
  real : ∀ e ∈ log, (grabs tr)[e.1]? = some (true, e.2)
  wr : ∀ k < c.n, WInv (s.ws k) ∧ received (s.ws k) = expect log s k
  max : ∀ k, (s.ws k).max = max k

theorem grabs_mono (tr : List (Act P)) (a : Act P) (i : Nat) (v : Bool × (Nat → Nat × P))
    (h : (grabs tr)[i]? = some v) : (grabs (tr ++ [a]))[i]? = some v := by
  rw [grabs_append, List.getElem?_append_left]
  · exact h
  · exact (List.getElem?_eq_some_iff.mp h).1

theorem grabs_main (tr : List (Act P)) : grabs (tr ++ [.main]) = grabs tr := by simp [grabs_append, grabs]

theorem grabs_save (tr : List (Act P)) (k : Nat) : grabs (tr ++ [.save k]) = grabs tr := by simp [grabs_append, grabs]

theorem inv_init (c : Cfg) (max : Nat → Nat) : Inv (P := P) c max [] (init max) [] := by
  refine ⟨rfl, by simp, by simp, rfl, by simp, ?_, fun _ => rfl⟩
  intro k _
  exact ⟨⟨rfl, rfl, rfl, by simp [received, init]⟩, rfl⟩

theorem inv_save (c : Cfg) (max : Nat → Nat) (tr : List (Act P)) (s : St P) (log : List (Nat × (Nat → Nat × P))) (k : Nat)
    (hk : k < c.n) (h : Inv c max tr s log) :
    Inv c max (tr ++ [.save k]) { s with ws := Function.update s.ws k (s.ws k).save } log := by
  have hw := save_inv _ (h.wr k hk).1
  have hmax : ∀ j, (Function.update s.ws k (s.ws k).save j).max = (s.ws j).max := by
    intro j
    by_cases hj : j = k
    · subst hj; rw [Function.update_self]; exact hw.2.2.2
    · rw [Function.update_of_ne hj]
  have hfit : ∀ j n, (s.ws j).fits n = true → (Function.update s.ws k (s.ws k).save j).fits n = true := by
    intro j n hf
    by_cases hj : j = k
    · subst hj; rw [Function.update_self]; exact fits_save _ (h.wr j hk).1 n hf
    · rw [Function.update_of_ne hj]; exact hf
  refine ⟨?_, h.incr, h.below, h.good, ?_, ?_, fun j => (hmax j).trans (h.max j)⟩
  · have hp := h.phase
    unfold PhaseInv at hp ⊢
    rw [grabs_save]
    dsimp only
    cases hph : s.ph with
    | idle => rw [hph] at hp; exact hp
    | check ps j ok =>
      rw [hph] at hp
      obtain ⟨h1, h2, h3, h4, h5⟩ := hp
      exact ⟨h1, h2, h3, fun i hi => by rw [hmax]; exact h4 i hi, fun ho i hi => hfit i _ (h5 ho i hi)⟩
    | push ps todo =>
      rw [hph] at hp
      obtain ⟨h1, h2, h3, h4⟩ := hp
      exact ⟨h1, h2, h3, fun i hi => ⟨(h4 i hi).1, hfit i _ (h4 i hi).2⟩⟩
    | stopped => trivial
    | failed =>
      rw [hph] at hp
      obtain ⟨ps, i, h1, h2, h3⟩ := hp
      exact ⟨ps, i, h1, h2, by rw [hmax]; exact h3⟩
  · rw [grabs_save]; exact h.real
  · intro j hj
    dsimp only
    have he : expect log ({ s with ws := Function.update s.ws k (s.ws k).save } : St P) j = expect log s j := rfl
    rw [he]
    by_cases hjk : j = k
    · subst hjk
      rw [Function.update_self]
      exact ⟨hw.1, hw.2.1.trans (h.wr j hj).2⟩
    · rw [Function.update_of_ne hjk]
      exact h.wr j hj

theorem expect_plain (log : List (Nat × (Nat → Nat × P))) (s : St P) (k : Nat) (h : Between s) :
    expect log s k = log.map fun e => (e.1, (e.2 k).2) := by
  unfold Between at h
  unfold expect
  cases hph : s.ph with
  | push ps t => rw [hph] at h; exact h.elim
  | idle => simp
  | check ps k ok => simp
  | stopped => simp
  | failed => simp

/-- A step that keeps the writers and stays between frames. -/
theorem inv_move (c : Cfg) (max : Nat → Nat) (tr tr' : List (Act P)) (s s' : St P) (log : List (Nat × (Nat → Nat × P)))
    (h : Inv c max tr s log) (hb : Between s) (hb' : Between s') (hws : s'.ws = s.ws) (hidx : s.idx ≤ s'.idx)
    (hgood : s'.good = s.good) (hg : ∀ (i : Nat) v, (grabs tr)[i]? = some v → (grabs tr')[i]? = some v)
    (hp : PhaseInv c tr' s') : Inv c max tr' s' log := by
  refine ⟨hp, h.incr, fun e he => Nat.lt_of_lt_of_le (h.below e he) hidx, h.good.trans hgood.symm,
    fun e he => hg _ _ (h.real e he), ?_, ?_⟩
  · intro k hk
    rw [hws, expect_plain log s' k hb', ← expect_plain log s k hb]
    exact h.wr k hk
  · rw [hws]
    exact h.max

theorem inv_step (c : Cfg) (hord : c.ord.Nodup) (hmem : ∀ k, k ∈ c.ord ↔ k < c.n) (max : Nat → Nat) (tr : List (Act P))
    (s s' : St P) (a : Act P) (log : List (Nat × (Nat → Nat × P))) (h : Inv c max tr s log)
    (hs : step c s a = some s') : ∃ log', Inv c max (tr ++ [a]) s' log' := by
  have hp := h.phase
  unfold PhaseInv at hp
  cases a with
  | save k =>
    unfold step at hs
    dsimp only at hs
    by_cases hk : k < c.n
    · rw [if_pos hk] at hs
      obtain rfl := Option.some.inj hs
      exact ⟨log, inv_save c max tr s log k hk h⟩
    · rw [if_neg hk] at hs
      simp at hs
  | grab got ps quit =>
    unfold step at hs
    dsimp only at hs
    cases hph : s.ph with
    | idle =>
      rw [hph] at hs hp
      dsimp only at hs hp
      have hb : Between s := by unfold Between; rw [hph]; trivial
      have hlast : (grabs (tr ++ [.grab got ps quit]))[s.idx]? = some (got, ps) := by
        rw [grabs_append, ← hp, List.getElem?_append_right (Nat.le_refl _)]
        simp [grabs]
      have hlen : (grabs (tr ++ [.grab got ps quit])).length = s.idx + 1 := by
        rw [grabs_append, ← hp]
        simp [grabs]
      cases got with
      | true =>
        rw [if_pos rfl] at hs
        by_cases hq : quit = true
        · rw [if_pos hq] at hs
          obtain rfl := Option.some.inj hs
          exact ⟨log, inv_move c max tr _ s _ log h hb trivial rfl (Nat.le_refl _) rfl (fun i v => grabs_mono tr _ i v) trivial⟩
        · rw [if_neg hq] at hs
          obtain rfl := Option.some.inj hs
          exact ⟨log, inv_move c max tr _ s _ log h hb trivial rfl (Nat.le_refl _) rfl (fun i v => grabs_mono tr _ i v)
            ⟨hlen, hlast, Nat.zero_le _, fun j hj => absurd hj (by omega), fun _ j hj => absurd hj (by omega)⟩⟩
      | false =>
        rw [if_neg (by simp)] at hs
        obtain rfl := Option.some.inj hs
        refine ⟨log, inv_move c max tr _ s _ log h hb ?_ rfl (Nat.le_succ _) rfl (fun i v => grabs_mono tr _ i v) ?_⟩
        · trivial
        · exact hlen
    | check _ _ _ => rw [hph] at hs; simp at hs
    | push _ _ => rw [hph] at hs; simp at hs
    | stopped => rw [hph] at hs; simp at hs
    | failed => rw [hph] at hs; simp at hs
  | main =>
    unfold step at hs
    dsimp only at hs
    have hgm : ∀ (i : Nat) v, (grabs tr)[i]? = some v → (grabs (tr ++ [.main]))[i]? = some v := fun i v => grabs_mono tr _ i v
    cases hph : s.ph with
    | idle => rw [hph] at hs; simp at hs
    | stopped => rw [hph] at hs; simp at hs
    | failed => rw [hph] at hs; simp at hs
    | check ps k ok =>
      rw [hph] at hs hp
      dsimp only at hs hp
      obtain ⟨h1, h2, h3, h4, h5⟩ := hp
      have hb : Between s := by unfold Between; rw [hph]; trivial
      by_cases hk : k < c.n
      · rw [if_pos hk] at hs
        by_cases hsz : (ps k).1 ≤ (s.ws k).max
        · rw [if_pos hsz] at hs
          obtain rfl := Option.some.inj hs
          refine ⟨log, inv_move c max tr _ s _ log h hb trivial rfl (Nat.le_refl _) rfl hgm ?_⟩
          unfold PhaseInv
          dsimp only
          rw [grabs_main]
          refine ⟨h1, h2, hk, ?_, ?_⟩
          · intro j hj
            by_cases hjk : j = k
            · rw [hjk]; exact hsz
            · exact h4 j (by omega)
          · intro ho j hj
            rw [Bool.and_eq_true] at ho
            by_cases hjk : j = k
            · rw [hjk]; exact ho.2
            · exact h5 ho.1 j (by omega)
        · rw [if_neg hsz] at hs
          obtain rfl := Option.some.inj hs
          refine ⟨log, inv_move c max tr _ s _ log h hb trivial rfl (Nat.le_refl _) rfl hgm ?_⟩
          unfold PhaseInv
          dsimp only
          rw [grabs_main]
          exact ⟨ps, k, hk, h2, by omega⟩
      · rw [if_neg hk] at hs
        by_cases ho : ok = true
        · rw [if_pos ho] at hs
          obtain rfl := Option.some.inj hs
          refine ⟨log, ?_, h.incr, h.below, h.good, fun e he => hgm _ _ (h.real e he), ?_, h.max⟩
          · unfold PhaseInv
            dsimp only
            rw [grabs_main]
            exact ⟨h1, h2, hord, fun j hj => ⟨(hmem j).mp hj, h5 ho j (by have := (hmem j).mp hj; omega)⟩⟩
          · intro j hj
            have he : expect log ({ s with ph := .push ps c.ord } : St P) j = expect log s j := by
              rw [expect_plain log s j hb]
              unfold expect
              dsimp only
              rw [if_pos ((hmem j).mpr hj), List.append_nil]
            rw [he]
            exact h.wr j hj
        · rw [if_neg ho] at hs
          obtain rfl := Option.some.inj hs
          refine ⟨log, inv_move c max tr _ s _ log h hb trivial rfl (Nat.le_succ _) rfl hgm ?_⟩
          unfold PhaseInv
          dsimp only
          rw [grabs_main]
          exact h1
    | push ps todo =>
      cases todo with
      | nil =>
        rw [hph] at hs hp
        dsimp only at hs hp
        obtain ⟨h1, h2, _, _⟩ := hp
        obtain rfl := Option.some.inj hs
        refine ⟨log ++ [(s.idx, ps)], ?_, ?_, ?_, ?_, ?_, ?_, h.max⟩
        · unfold PhaseInv
          dsimp only
          rw [grabs_main]
          exact h1
        · rw [List.map_append, List.pairwise_append]
          refine ⟨h.incr, by simp, ?_⟩
          intro x hx y hy
          obtain ⟨e, he, rfl⟩ := List.mem_map.mp hx
          simp at hy
          subst hy
          exact h.below e he
        · intro e he
          rcases List.mem_append.mp he with he | he
          · exact Nat.lt_succ_of_lt (h.below e he)
          · rw [List.mem_singleton] at he
            subst he
            exact Nat.lt_succ_self _
        · simp [h.good]
        · intro e he
          rcases List.mem_append.mp he with he | he
          · exact hgm _ _ (h.real e he)
          · rw [List.mem_singleton] at he
            subst he
            exact hgm _ _ h2
        · intro j hj
          refine ⟨(h.wr j hj).1, ?_⟩
          have := (h.wr j hj).2
          unfold expect at this ⊢
          rw [hph] at this
          dsimp only at this ⊢
          rw [this]
          simp
      | cons k t =>
        rw [hph] at hs hp
        dsimp only at hs hp
        obtain ⟨h1, h2, h3, h4⟩ := hp
        rw [List.nodup_cons] at h3
        have hk := h4 k (by simp)
        rw [if_pos hk.2] at hs
        obtain rfl := Option.some.inj hs
        have hrk : received (s.ws k) = log.map fun e => (e.1, (e.2 k).2) := by
          have := (h.wr k hk.1).2
          unfold expect at this
          rw [hph] at this
          simpa using this
        refine ⟨log, ?_, h.incr, h.below, h.good, fun e he => hgm _ _ (h.real e he), ?_, ?_⟩
        · unfold PhaseInv
          dsimp only
          rw [grabs_main]
          refine ⟨h1, h2, h3.2, ?_⟩
          intro j hj
          have hjk : j ≠ k := fun (hc : j = k) => h3.1 (hc ▸ hj)
          rw [Function.update_of_ne hjk]
          exact h4 j (by simp [hj])
        · intro j hj
          dsimp only
          by_cases hjk : j = k
          · subst hjk
            rw [Function.update_self]
            refine ⟨put_inv _ _ _ (h.wr j hj).1 ?_, ?_⟩
            · intro r hr
              rw [hrk] at hr
              obtain ⟨e, he, rfl⟩ := List.mem_map.mp hr
              exact h.below e he
            · rw [received_put, hrk]
              unfold expect
              dsimp only
              rw [if_neg h3.1]
          · rw [Function.update_of_ne hjk]
            refine ⟨(h.wr j hj).1, ?_⟩
            have := (h.wr j hj).2
            unfold expect at this ⊢
            rw [hph] at this
            dsimp only at this ⊢
            rw [this]
            simp [hjk]
        · intro j
          dsimp only
          by_cases hjk : j = k
          · subst hjk
            rw [Function.update_self]
            exact h.max j
          · rw [Function.update_of_ne hjk]
            exact h.max j

theorem inv_reach (c : Cfg) (hord : c.ord.Nodup) (hmem : ∀ k, k ∈ c.ord ↔ k < c.n) (max : Nat → Nat)
    (tr : List (Act P)) (s : St P) (h : Reach c max tr s) : ∃ log, Inv c max tr s log := by
  induction h with
  | init => exact ⟨[], inv_init c max⟩
  | step _ hs ih =>
    obtain ⟨log, hl⟩ := ih
    exact inv_step c hord hmem max _ _ _ _ log hl hs

theorem exec_append (c : Cfg) : ∀ (a b : List (Act P)) (s : St P),
    exec c s (a ++ b) = (exec c s a).bind fun s' => exec c s' b
  | [], b, s => rfl
  | x :: t, b, s => by
    simp only [List.cons_append, exec]
    cases step c s x with
    | none => rfl
    | some s' => simp [exec_append c t b s']

theorem exec_reach (c : Cfg) (max : Nat → Nat) : ∀ (tr tr0 : List (Act P)) (s s' : St P), Reach c max tr0 s →
    exec c s tr = some s' → Reach c max (tr0 ++ tr) s'
  | [], tr0, s, s', h, ha => by
    obtain rfl := Option.some.inj ha
    rw [List.append_nil]; exact h
  | a :: t, tr0, s, s', h, ha => by
    unfold exec at ha
    obtain ⟨s1, h1, h2⟩ := Option.bind_eq_some_iff.mp ha
    have := exec_reach c max t (tr0 ++ [a]) s1 s' (.step h h1) h2
    simpa using this

theorem check_run (c : Cfg) (ps : Nat → Nat × P) (s : St P) (hf : ∀ j < c.n, (s.ws j).fits (ps j).1 = true) :
    ∀ (m k : Nat), k + m = c.n →
    exec c { s with ph := .check ps k true } (List.replicate m .main) = some { s with ph := .check ps c.n true }
  | 0, k, h => by
    have : k = c.n := by omega
    subst this
    rfl
  | m + 1, k, h => by
    have hk := hf k (by omega)
    have hsz : (ps k).1 ≤ (s.ws k).max := by
      unfold Wr.fits at hk
      rw [decide_eq_true_eq] at hk
      omega
    rw [List.replicate_succ]
    unfold exec step
    dsimp only
    rw [if_pos (by omega), if_pos hsz, hk, Option.bind_some]
    exact check_run c ps s hf m (k + 1) (by omega)

theorem push_run (c : Cfg) (ps : Nat → Nat × P) : ∀ (todo : List Nat) (s : St P), todo.Nodup →
    (∀ j ∈ todo, (s.ws j).fits (ps j).1 = true) →
    exec c { s with ph := .push ps todo } (List.replicate todo.length .main) =
      some { s with
        ws := fun k => if k ∈ todo then (s.ws k).put s.idx (ps k) else s.ws k
        ph := .push ps [] }
  | [], s, _, _ => by simp [exec]
  | k :: t, s, hn, hf => by
    rw [List.nodup_cons] at hn
    rw [List.length_cons, List.replicate_succ]
    unfold exec step
    dsimp only
    rw [if_pos (hf k (by simp)), Option.bind_some]
    have h := push_run c ps t { s with ws := Function.update s.ws k ((s.ws k).put s.idx (ps k)) } hn.2 (by
      intro j hj
      have hjk : j ≠ k := fun (hc : j = k) => hn.1 (hc ▸ hj)
      dsimp only
      rw [Function.update_of_ne hjk]
      exact hf j (by simp [hj]))
    dsimp only at h
    rw [h]
    congr 2
    funext j
    by_cases hjk : j = k
    · subst hjk
      rw [if_neg hn.1, Function.update_self, if_pos (by simp)]
    · rw [Function.update_of_ne hjk]
      by_cases hj : j ∈ t
      · rw [if_pos hj, if_pos (by simp [hj])]
      · rw [if_neg hj, if_neg (by simp [hj, hjk])]

theorem fits_iff (w : Wr P) (n : Nat) : w.fits n = true ↔ waiting w + n ≤ w.max := by
  unfold Wr.fits Wr.used waiting
  rw [decide_eq_true_eq]

theorem waiting_put (w : Wr P) (i : Nat) (p : Nat × P) : waiting (w.put i p) = waiting w + p.1 := by
  simp [waiting, Wr.put]

theorem waiting_save (w : Wr P) : waiting w.save ≤ waiting w ∧ w.save.max = w.max := by
  unfold Wr.save waiting
  cases hq : w.queue with
  | nil => simp [hq]
  | cons q t =>
    dsimp only
    by_cases h : (w.last.all fun l => decide (l < q.idx)) = true
    · rw [if_pos h]; simp
    · rw [if_neg h]; simp

/-- A step keeps the queues within their sizes. -/
theorem bounded_step (c : Cfg) (s s' : St P) (a : Act P) (h : ∀ k, waiting (s.ws k) ≤ (s.ws k).max)
    (hs : step c s a = some s') : ∀ k, waiting (s'.ws k) ≤ (s'.ws k).max := by
  intro j
  unfold step at hs
  cases a with
  | save k =>
    dsimp only at hs
    by_cases hk : k < c.n
    · rw [if_pos hk] at hs
      obtain rfl := Option.some.inj hs
      dsimp only
      by_cases hj : j = k
      · subst hj
        rw [Function.update_self]
        have := waiting_save (s.ws j)
        have := h j
        omega
      · rw [Function.update_of_ne hj]
        exact h j
    · rw [if_neg hk] at hs
      simp at hs
  | grab got ps quit =>
    cases hph : s.ph with
    | idle =>
      rw [hph] at hs
      dsimp only at hs
      split at hs
      · split at hs
        · obtain rfl := Option.some.inj hs
          exact h j
        · obtain rfl := Option.some.inj hs
          exact h j
      · obtain rfl := Option.some.inj hs
        exact h j
    | check _ _ _ => rw [hph] at hs; simp at hs
    | push _ _ => rw [hph] at hs; simp at hs
    | stopped => rw [hph] at hs; simp at hs
    | failed => rw [hph] at hs; simp at hs
  | main =>
    cases hph : s.ph with
    | idle => rw [hph] at hs; simp at hs
    | stopped => rw [hph] at hs; simp at hs
    | failed => rw [hph] at hs; simp at hs
    | check ps k ok =>
      rw [hph] at hs
      dsimp only at hs
      split at hs
      · split at hs
        · obtain rfl := Option.some.inj hs
          exact h j
        · obtain rfl := Option.some.inj hs
          exact h j
      · split at hs
        · obtain rfl := Option.some.inj hs
          exact h j
        · obtain rfl := Option.some.inj hs
          exact h j
    | push ps todo =>
      cases todo with
      | nil =>
        rw [hph] at hs
        dsimp only at hs
        obtain rfl := Option.some.inj hs
        exact h j
      | cons k t =>
        rw [hph] at hs
        dsimp only at hs
        by_cases hf : (s.ws k).fits (ps k).1 = true
        · rw [if_pos hf] at hs
          obtain rfl := Option.some.inj hs
          dsimp only
          by_cases hj : j = k
          · subst hj
            rw [Function.update_self, waiting_put]
            exact (fits_iff _ _).mp hf
          · rw [Function.update_of_ne hj]
            exact h j
        · rw [if_neg hf] at hs
          obtain rfl := Option.some.inj hs
          exact h j

end Litiv.Capture
