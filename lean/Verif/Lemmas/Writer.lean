import Verif.Model.Writer
import Mathlib.Data.List.Basic
import Mathlib.Data.List.Nodup
import Mathlib.Data.List.Perm.Basic
import Mathlib.Tactic.Common
import Mathlib.Tactic.SplitIfs

/-! # Invariants of the data writer -/

namespace Litiv.Writer

/-- The packets that wait in the queue: those in the map which no worker is writing. -/
def wait (workers : List Worker) (map : List Node) : List (Nat × Pkt) :=
  (map.filter fun n => !workers.any (Worker.holds n.nid)).map fun n => (n.idx, n.pkt)

/-- The packets that wait in the queue of a state. -/
def waiting (s : St) : List (Nat × Pkt) := wait s.workers s.map

/-- The documented use: one worker per session, and no call of `queue` in progress when the writer is started or
stopped. -/
def Proper (s : St) : Act → Prop
  | .start _ _ _ w => w = 1 ∧ s.pending = []
  | .stop => s.pending = []
  | _ => True

/-- The states reached from a new writer by schedules whose actions satisfy `ok`. -/
inductive Reach (ok : St → Act → Prop) : St → Prop
  | init : Reach ok {}
  | step {s s' : St} {a : Act} {r : Ret} : Reach ok s → ok s a → enabled s a = true → step s a = some (s', r) → Reach ok s'

/-- Total size of the nodes. -/
def total (l : List Node) : Nat := (l.map fun n => n.pkt.size).sum

@[simp] theorem total_nil : total [] = 0 := rfl
@[simp] theorem total_cons (n : Node) (l : List Node) : total (n :: l) = n.pkt.size + total l := rfl
@[simp] theorem total_append (a b : List Node) : total (a ++ b) = total a + total b := by simp [total]

theorem total_perm {a b : List Node} (h : a.Perm b) : total a = total b := by
  unfold total
  exact List.Perm.sum_nat (h.map _)

theorem insNode_perm (n : Node) (l : List Node) : (insNode n l).Perm (n :: l) := by
  induction l with
  | nil => exact List.Perm.refl _
  | cons m l ih =>
    unfold insNode
    split_ifs
    · exact List.Perm.refl _
    · exact (ih.cons m).trans (List.Perm.swap n m l)

theorem insNode_sorted (n : Node) (l : List Node) (h : l.Pairwise fun a b => a.idx < b.idx) (hn : ∀ m ∈ l, m.idx ≠ n.idx) :
    (insNode n l).Pairwise fun a b => a.idx < b.idx := by
  induction l with
  | nil => simp [insNode]
  | cons m l ih =>
    rw [List.pairwise_cons] at h
    unfold insNode
    split_ifs with hlt
    · rw [List.pairwise_cons]
      refine ⟨fun x hx => ?_, List.pairwise_cons.2 h⟩
      rcases List.mem_cons.1 hx with rfl | hx
      · exact hlt
      · exact Nat.lt_trans hlt (h.1 x hx)
    · rw [List.pairwise_cons]
      refine ⟨fun x hx => ?_, ih h.2 fun y hy => hn y (List.mem_cons_of_mem _ hy)⟩
      rcases List.mem_cons.1 ((insNode_perm n l).subset hx) with rfl | hx
      · have := hn m (by simp); omega
      · exact h.1 x hx

/-- The invariant under documented use. -/
structure Inv (s : St) : Prop where
  sorted : s.map.Pairwise fun a b => a.idx < b.idx
  nids : (s.map.map Node.nid).Nodup
  fresh : ∀ n ∈ s.map, n.nid < s.nextNid
  count : s.count = s.map.length
  sizeEq : s.size = total s.map
  sizeLe : s.size ≤ s.max
  single : s.phase ≠ .idle → ∃ w, s.workers = [w]
  wgone : s.phase = .idle → ∀ w ∈ s.workers, w = Worker.gone
  writing : ∀ nid idx sz, Worker.writing nid idx sz ∈ s.workers → ∃ n ∈ s.map, n.nid = nid ∧ n.idx = idx ∧ n.pkt.size = sz
  gone : Worker.gone ∈ s.workers → s.phase ≠ .active ∧ s.map = []
  idleEmpty : s.phase = .idle → s.map = []
  pend : s.phase ≠ .active → s.pending = []
  pendLe : ∀ e ∈ s.pending, e.2.size ≤ s.max
  perm : ∀ e, s.accepted.count e = s.written.count e + s.replaced.count e + (waiting s).count e
  repl : ∀ e ∈ s.replaced, e.1 ∈ (s.written ++ waiting s).map Prod.fst

theorem Inv.init : Inv {} where
  sorted := List.Pairwise.nil
  nids := List.nodup_nil
  fresh := fun n h => by cases h
  count := rfl
  sizeEq := rfl
  sizeLe := Nat.le_refl _
  single h := absurd rfl h
  wgone _ := fun n h => by cases h
  writing _ _ _ h := by cases h
  gone h := by cases h
  idleEmpty _ := rfl
  pend _ := rfl
  pendLe := fun n h => by cases h
  perm _ := rfl
  repl := fun n h => by cases h

theorem queueStart_inv {s : St} (h : Inv s) (i : Nat) (p : Pkt) : Inv (queueStart s i p).1 := by
  unfold queueStart
  split_ifs with h1 h2
  · exact { h with
      perm := fun e => by
        have := h.perm e
        show (s.accepted ++ [(i, p)]).count e = (s.written ++ [(i, p)]).count e + s.replaced.count e + (waiting s).count e
        rw [List.count_append, List.count_append]; omega
      repl := fun e he => by
        have := h.repl e he
        show e.1 ∈ ((s.written ++ [(i, p)]) ++ waiting s).map Prod.fst
        simp only [List.map_append, List.mem_append] at this ⊢
        tauto }
  · exact h
  · have ha : s.phase = .active := by simpa using h1
    exact { h with
      pend := fun hn => absurd ha hn
      pendLe := fun e he => by
        rcases List.mem_cons.1 he with rfl | he
        · exact Nat.le_of_not_lt h2
        · exact h.pendLe e he }

theorem find_split {l : List Node} {i : Nat} {n : Node} (h : l.find? (fun n => n.idx == i) = some n)
    (hs : l.Pairwise fun a b => a.idx < b.idx) :
    ∃ a b, l = a ++ n :: b ∧ n.idx = i ∧ (∀ m ∈ a, m.idx ≠ i) ∧ ∀ m ∈ b, m.idx ≠ i := by
  rw [List.find?_eq_some_iff_append] at h
  obtain ⟨h1, a, b, rfl, h2⟩ := h
  have hi : n.idx = i := by simpa using h1
  refine ⟨a, b, rfl, hi, fun m hm => by simpa using h2 m hm, fun m hm => ?_⟩
  rw [List.pairwise_append] at hs
  have := (List.pairwise_cons.1 hs.2.1).1 m hm
  omega

theorem waiting_count_insert {s : St} (h : Inv s) (i : Nat) (p : Pkt) :
    (wait s.workers (insNode ⟨i, s.nextNid, p⟩ s.map)).Perm ((i, p) :: waiting s) := by
  unfold waiting wait
  have hnh : s.workers.any (Worker.holds s.nextNid) = false := by
    rw [List.any_eq_false]
    intro w hwm
    cases w with
    | idle => simp [Worker.holds]
    | gone => simp [Worker.holds]
    | writing nid idx sz =>
      obtain ⟨n, hn, rfl, -, -⟩ := h.writing _ _ _ hwm
      have := h.fresh n hn
      simp [Worker.holds]; omega
  refine (((insNode_perm _ _).filter _).map _).trans ?_
  rw [List.filter_cons_of_pos (by simp [hnh])]
  exact List.Perm.refl _

theorem commit_inv {s : St} (h : Inv s) (i : Nat) (p : Pkt) (hp : (i, p) ∈ s.pending) {s' : St} {r : Ret}
    (hs : queueCommit s i p = some (s', r)) : Inv s' := by
  have hact : s.phase = .active := by
    by_contra hn
    rw [h.pend hn] at hp; cases hp
  have hpl : ∀ e ∈ s.pending.erase (i, p), e.2.size ≤ s.max := fun e he => h.pendLe e (List.mem_of_mem_erase he)
  unfold queueCommit at hs
  dsimp only at hs
  split_ifs at hs with hfit
  · have hfit' : s.fits i p = true := hfit
    have hfind : ({ s with pending := s.pending.erase (i, p) } : St).find i = s.find i := rfl
    rw [hfind] at hs
    cases hf : s.find i with
    | none =>
      rw [hf] at hs
      dsimp only at hs
      have hne : ∀ m ∈ s.map, m.idx ≠ i := by
        intro m hm
        have := List.find?_eq_none.1 hf m hm
        simpa using this
      have hold : s.oldSize i = 0 := by unfold St.oldSize; rw [hf]
      have hle : s.size + p.size ≤ s.max := by
        unfold St.fits at hfit'
        rw [hold] at hfit'
        simpa using hfit'
      have hperm := insNode_perm ⟨i, s.nextNid, p⟩ s.map
      injection hs with hs
      injection hs with hs _
      subst hs
      have hwp := waiting_count_insert h i p
      exact {
        sorted := insNode_sorted _ _ h.sorted hne
        nids := by
          have := (hperm.map Node.nid).nodup_iff.2 (by
            rw [List.map_cons, List.nodup_cons]
            refine ⟨fun hm => ?_, h.nids⟩
            obtain ⟨m, hm, e⟩ := List.mem_map.1 hm
            have := h.fresh m hm
            have e : m.nid = s.nextNid := e
            omega)
          exact this
        fresh := fun n hn => by
          show n.nid < s.nextNid + 1
          rcases List.mem_cons.1 (hperm.subset hn) with rfl | hn
          · exact Nat.lt_succ_self _
          · have := h.fresh n hn; omega
        count := by
          show s.count + 1 = (insNode _ _).length
          rw [hperm.length_eq, h.count]; rfl
        sizeEq := by
          show s.size + p.size = total (insNode _ _)
          rw [total_perm hperm, total_cons, h.sizeEq]; exact Nat.add_comm _ _
        sizeLe := hle
        single := h.single
        wgone := h.wgone
        writing := fun nid idx sz hw => by
          obtain ⟨n, hn, e⟩ := h.writing nid idx sz hw
          exact ⟨n, hperm.symm.subset (List.mem_cons_of_mem _ hn), e⟩
        gone := fun hg => absurd hact (h.gone hg).1
        idleEmpty := fun hi => by
          rw [show s.phase = _ from hi] at hact; cases hact
        pend := fun hn => absurd hact hn
        pendLe := hpl
        perm := fun e => by
          show (s.accepted ++ [(i, p)]).count e =
            s.written.count e + s.replaced.count e + (wait s.workers (insNode ⟨i, s.nextNid, p⟩ s.map)).count e
          rw [hwp.count_eq, List.count_append, h.perm e, List.count_cons, List.count_cons, List.count_nil]
          omega
        repl := fun e he => by
          have := h.repl e he
          simp only [List.map_append, List.mem_append] at this ⊢
          rcases this with this | this
          · exact Or.inl this
          · right
            exact (hwp.map Prod.fst).symm.subset (List.mem_cons_of_mem _ this) }
    | some n =>
      rw [hf] at hs
      dsimp only at hs
      split_ifs at hs with hrace
      have hold : s.oldSize i = n.pkt.size := by unfold St.oldSize; rw [hf]
      obtain ⟨a, b, hmap, hidx, ha, hb⟩ := find_split hf h.sorted
      have hle : s.size + p.size - n.pkt.size ≤ s.max := by
        unfold St.fits at hfit'
        rw [hold] at hfit'
        simpa using hfit'
      have hnew : (s.map.map fun m => if m.idx = i then { m with pkt := p } else m) = a ++ ({ n with pkt := p } : Node) :: b := by
        rw [hmap, List.map_append, List.map_cons, if_pos hidx]
        congr 1
        · exact (List.map_congr_left fun m hm => if_neg (ha m hm)).trans (List.map_id a)
        · congr 1
          exact (List.map_congr_left fun m hm => if_neg (hb m hm)).trans (List.map_id b)
      rw [hnew] at hs
      injection hs with hs
      injection hs with hs _
      subst hs
      have hnh : s.workers.any (Worker.holds n.nid) = false := by simpa using hrace
      have hw : ∃ u v, waiting s = u ++ (i, n.pkt) :: v ∧
          wait s.workers (a ++ ({ n with pkt := p } : Node) :: b) = u ++ (i, p) :: v := by
        refine ⟨(a.filter fun n => !s.workers.any (Worker.holds n.nid)).map fun n => (n.idx, n.pkt),
          (b.filter fun n => !s.workers.any (Worker.holds n.nid)).map fun n => (n.idx, n.pkt), ?_, ?_⟩
        · unfold waiting wait
          rw [hmap, List.filter_append, List.filter_cons_of_pos (by simp [hnh]), List.map_append, List.map_cons, hidx]
        · unfold wait
          rw [List.filter_append, List.filter_cons_of_pos (by simp [hnh]), List.map_append, List.map_cons]
          dsimp only
          rw [hidx]
      have hsum : s.size = total a + n.pkt.size + total b := by
        rw [h.sizeEq, hmap]; simp; omega
      exact {
        sorted := by
          have := h.sorted
          rw [hmap] at this
          simp only [List.pairwise_append, List.pairwise_cons] at this ⊢
          refine ⟨this.1, ⟨this.2.1.1, this.2.1.2⟩, fun x hx y hy => ?_⟩
          rcases List.mem_cons.1 hy with rfl | hy
          · exact this.2.2 x hx n (by simp)
          · exact this.2.2 x hx y (List.mem_cons_of_mem _ hy)
        nids := by
          have := h.nids
          rw [hmap] at this
          simpa using this
        fresh := fun m hm => by
          show m.nid < s.nextNid
          have hm : m ∈ a ++ ({ n with pkt := p } : Node) :: b := hm
          rcases List.mem_append.1 hm with hm | hm
          · exact h.fresh m (by rw [hmap]; simp [hm])
          · rcases List.mem_cons.1 hm with rfl | hm
            · exact h.fresh n (by rw [hmap]; simp)
            · exact h.fresh m (by rw [hmap]; simp [hm])
        count := by
          show s.count = (a ++ _ :: b).length
          rw [h.count, hmap]; simp
        sizeEq := by
          show s.size + p.size - n.pkt.size = total (a ++ _ :: b)
          rw [total_append, total_cons]
          dsimp only
          omega
        sizeLe := hle
        single := h.single
        wgone := h.wgone
        writing := fun nid idx sz hwm => by
          obtain ⟨m, hm, e⟩ := h.writing nid idx sz hwm
          refine ⟨m, ?_, e⟩
          show m ∈ a ++ ({ n with pkt := p } : Node) :: b
          rw [hmap] at hm
          rcases List.mem_append.1 hm with hm | hm
          · simp [hm]
          · rcases List.mem_cons.1 hm with rfl | hm
            · exfalso
              have := List.any_eq_false.1 hnh _ hwm
              rw [← e.1] at this
              simp [Worker.holds] at this
            · simp [hm]
        gone := fun hg => absurd hact (h.gone hg).1
        idleEmpty := fun hi => by
          rw [show s.phase = _ from hi] at hact; cases hact
        pend := fun hn => absurd hact hn
        pendLe := hpl
        perm := fun e => by
          obtain ⟨u, v, e1, e2⟩ := hw
          show (s.accepted ++ [(i, p)]).count e =
            s.written.count e + (s.replaced ++ [(i, n.pkt)]).count e + (wait s.workers (a ++ ({ n with pkt := p } : Node) :: b)).count e
          rw [e2, List.count_append, h.perm e, e1]
          simp only [List.count_append, List.count_cons, List.count_nil]
          omega
        repl := fun e he => by
          obtain ⟨u, v, e1, e2⟩ := hw
          show e.1 ∈ (s.written ++ wait s.workers (a ++ ({ n with pkt := p } : Node) :: b)).map Prod.fst
          rw [e2]
          have he : e ∈ s.replaced ++ [(i, n.pkt)] := he
          rcases List.mem_append.1 he with he | he
          · have := h.repl e he
            rw [e1] at this
            simpa using this
          · rw [List.mem_singleton] at he
            subst he
            simp }
  · injection hs with hs
    injection hs with hs _
    subst hs
    exact { h with pend := fun hn => absurd hact hn, pendLe := hpl }

theorem start_inv {s : St} (h : Inv s) (n c : Nat) (d : Bool) (w : Nat) (hw : w = 1) (hp : s.pending = []) : Inv (start s n c d w).1 := by
  subst hw
  unfold start rethrow
  split_ifs with h1 h2
  · exact { h with }
  · exact {
      sorted := List.Pairwise.nil
      nids := List.nodup_nil
      fresh := fun n h => by cases h
      count := rfl
      sizeEq := rfl
      sizeLe := Nat.zero_le _
      single := fun _ => ⟨.idle, rfl⟩
      wgone := fun h => by cases h
      writing := fun _ _ _ h => by simp at h
      gone := fun h => by simp at h
      idleEmpty := fun _ => rfl
      pend := fun _ => hp
      pendLe := fun e he => by
        have he : e ∈ s.pending := he
        rw [hp] at he; cases he
      perm := fun _ => rfl
      repl := fun n h => by cases h }
  · exact h

theorem take_inv {s : St} (h : Inv s) (k : Nat) (hk : s.workers[k]? = some .idle) : Inv (take s k) := by
  unfold take
  cases hm : s.map with
  | nil => exact h
  | cons n rest =>
    have hph : s.phase ≠ .idle := by
      intro hi
      have := h.wgone hi _ (List.mem_of_getElem? hk)
      cases this
    obtain ⟨w, hw⟩ := h.single hph
    have hk0 : k = 0 ∧ w = .idle := by
      rw [hw] at hk
      cases k with
      | zero => exact ⟨rfl, by simpa using hk⟩
      | succ k => simp at hk
    obtain ⟨rfl, rfl⟩ := hk0
    dsimp only
    rw [← hm]
    have hset : s.workers.set 0 (.writing n.nid n.idx n.pkt.size) = [.writing n.nid n.idx n.pkt.size] := by rw [hw]; rfl
    rw [hset]
    have hnid : ∀ m ∈ rest, m.nid ≠ n.nid := by
      have := h.nids
      rw [hm, List.map_cons, List.nodup_cons] at this
      intro m hmm e
      exact this.1 (List.mem_map.2 ⟨m, hmm, e⟩)
    have hw0 : waiting s = (n.idx, n.pkt) :: rest.map fun n => (n.idx, n.pkt) := by
      unfold waiting wait
      rw [hw, hm, List.filter_eq_self.2 (by simp [Worker.holds])]
      rfl
    have hw1 : wait [.writing n.nid n.idx n.pkt.size] s.map = rest.map fun n => (n.idx, n.pkt) := by
      unfold wait
      rw [hm, List.filter_cons_of_neg (by simp [Worker.holds]), List.filter_eq_self.2]
      intro m hmm
      have := hnid m hmm
      simp [Worker.holds]
      exact fun e => this e.symm
    exact { h with
      single := fun _ => ⟨_, rfl⟩
      wgone := fun hi => absurd hi hph
      writing := fun nid idx sz hwm => by
        have hwm : Worker.writing nid idx sz ∈ [Worker.writing n.nid n.idx n.pkt.size] := hwm
        simp only [List.mem_singleton, Worker.writing.injEq] at hwm
        refine ⟨n, ?_, hwm.1.symm, hwm.2.1.symm, hwm.2.2.symm⟩
        show n ∈ s.map
        rw [hm]; simp
      gone := fun hg => by
        have hg : Worker.gone ∈ [Worker.writing n.nid n.idx n.pkt.size] := hg
        simp at hg
      perm := fun e => by
        show s.accepted.count e = (s.written ++ [(n.idx, n.pkt)]).count e + s.replaced.count e +
          (wait [.writing n.nid n.idx n.pkt.size] s.map).count e
        rw [hw1, h.perm e, hw0, List.count_append, List.count_cons, List.count_cons, List.count_nil]
        omega
      repl := fun e he => by
        have := h.repl e he
        rw [hw0] at this
        show e.1 ∈ ((s.written ++ [(n.idx, n.pkt)]) ++ wait [.writing n.nid n.idx n.pkt.size] s.map).map Prod.fst
        rw [hw1]
        simpa using this }

theorem finish_inv {s : St} (h : Inv s) (k : Nat) (fail : Bool) {nid idx sz : Nat} (hk : s.workers[k]? = some (.writing nid idx sz)) :
    ∃ s', finish s k fail = some s' ∧ Inv s' ∧ s'.map.length + 1 = s.map.length ∧ s'.workers = [.idle] ∧ s'.phase = s.phase := by
  have hph : s.phase ≠ .idle := by
    intro hi
    have := h.wgone hi _ (List.mem_of_getElem? hk)
    cases this
  obtain ⟨w, hw⟩ := h.single hph
  have hk0 : k = 0 ∧ w = .writing nid idx sz := by
    rw [hw] at hk
    cases k with
    | zero => exact ⟨rfl, by simpa using hk⟩
    | succ k => simp at hk
  obtain ⟨rfl, rfl⟩ := hk0
  obtain ⟨n, hn, rfl, rfl, rfl⟩ := h.writing _ _ _ (List.mem_of_getElem? hk)
  obtain ⟨a, b, hmap⟩ := List.append_of_mem hn
  have hnd := h.nids
  rw [hmap, List.map_append, List.map_cons, List.nodup_append, List.nodup_cons] at hnd
  have hfa : a.filter (fun m => m.nid != n.nid) = a := by
    rw [List.filter_eq_self]
    intro m hm
    simp only [bne_iff_ne, ne_eq]
    exact fun e => hnd.2.2 m.nid (List.mem_map.2 ⟨m, hm, rfl⟩) n.nid (by simp) e
  have hfb : b.filter (fun m => m.nid != n.nid) = b := by
    rw [List.filter_eq_self]
    intro m hm
    simp only [bne_iff_ne, ne_eq]
    exact fun e => hnd.2.1.1 (List.mem_map.2 ⟨m, hm, e⟩)
  have hfil : s.map.filter (fun m => m.nid != n.nid) = a ++ b := by
    rw [hmap, List.filter_append, List.filter_cons_of_neg (by simp), hfa, hfb]
  unfold finish
  rw [hk]
  dsimp only
  rw [if_pos (by rw [List.any_eq_true]; exact ⟨n, hn, by simp⟩), hfil]
  have hset : s.workers.set 0 .idle = [.idle] := by rw [hw]; rfl
  rw [hset]
  have hw0 : waiting s = (a ++ b).map fun n => (n.idx, n.pkt) := by
    unfold waiting wait
    rw [hw, ← hfil]
    congr 1
    apply List.filter_congr
    intro m _
    show (!(n.nid == m.nid || false)) = !(m.nid == n.nid)
    rw [Bool.or_false, Bool.beq_comm]
  have hw1 : wait [.idle] (a ++ b) = (a ++ b).map fun n => (n.idx, n.pkt) := by
    unfold wait
    rw [List.filter_eq_self.2 (by simp [Worker.holds])]
  have hsub : List.Sublist (a ++ b) s.map := by
    rw [hmap]; exact List.Sublist.append_left (List.sublist_cons_self _ _) _
  have hsum : s.size = total a + n.pkt.size + total b := by
    rw [h.sizeEq, hmap]; simp; omega
  refine ⟨_, rfl, ?_, ?_, rfl, rfl⟩
  · exact { h with
      sorted := h.sorted.sublist hsub
      nids := h.nids.sublist (hsub.map _)
      fresh := fun m hm => h.fresh m (hsub.subset hm)
      count := by
        show s.count - 1 = (a ++ b).length
        rw [h.count, hmap]; simp
      sizeEq := by
        show s.size - n.pkt.size = total (a ++ b)
        rw [total_append]; omega
      sizeLe := Nat.le_trans (Nat.sub_le _ _) h.sizeLe
      single := fun _ => ⟨_, rfl⟩
      wgone := fun hi => absurd hi hph
      writing := fun nid idx sz hwm => by
        have hwm : Worker.writing nid idx sz ∈ [Worker.idle] := hwm
        simp at hwm
      gone := fun hg => by
        have hg : Worker.gone ∈ [Worker.idle] := hg
        simp at hg
      idleEmpty := fun hi => absurd hi hph
      perm := fun e => by
        show s.accepted.count e = s.written.count e + s.replaced.count e + (wait [.idle] (a ++ b)).count e
        rw [hw1, h.perm e, hw0]
      repl := fun e he => by
        show e.1 ∈ (s.written ++ wait [.idle] (a ++ b)).map Prod.fst
        rw [hw1, ← hw0]
        exact h.repl e he }
  · show (a ++ b).length + 1 = s.map.length
    rw [hmap]; simp; omega

theorem exit_inv {s : St} (h : Inv s) (k : Nat) (hk : s.workers[k]? = some .idle) (hp : s.phase ≠ .active) (hc : s.count = 0) :
    Inv { s with workers := s.workers.set k .gone } := by
  have hph : s.phase ≠ .idle := by
    intro hi
    have := h.wgone hi _ (List.mem_of_getElem? hk)
    cases this
  obtain ⟨w, hw⟩ := h.single hph
  have hk0 : k = 0 := by
    rw [hw] at hk
    cases k with
    | zero => rfl
    | succ k => simp at hk
  subst hk0
  have hset : s.workers.set 0 .gone = [.gone] := by rw [hw]; rfl
  rw [hset]
  have hmap : s.map = [] := by
    have := h.count
    rw [hc] at this
    exact List.eq_nil_of_length_eq_zero this.symm
  have hw0 : waiting s = [] := by unfold waiting; rw [hmap]; rfl
  have hw1 : wait [.gone] s.map = [] := by rw [hmap]; rfl
  exact { h with
    single := fun _ => ⟨_, rfl⟩
    wgone := fun hi => absurd hi hph
    writing := fun nid idx sz hwm => by
      have hwm : Worker.writing nid idx sz ∈ [Worker.gone] := hwm
      simp at hwm
    gone := fun _ => ⟨hp, hmap⟩
    perm := fun e => by
      show s.accepted.count e = s.written.count e + s.replaced.count e + (wait [.gone] s.map).count e
      rw [hw1, h.perm e, hw0]
    repl := fun e he => by
      show e.1 ∈ (s.written ++ wait [.gone] s.map).map Prod.fst
      rw [hw1, ← hw0]
      exact h.repl e he }

theorem rethrow_inv {s : St} (h : Inv s) : Inv (rethrow s).1 := by
  unfold rethrow
  split_ifs
  · exact { h with }
  · exact h

theorem step_inv {s s' : St} {a : Act} {r : Ret} (h : Inv s) (hok : Proper s a) (he : enabled s a = true)
    (hs : step s a = some (s', r)) : Inv s' := by
  cases a with
  | queue i p =>
    simp only [step, Option.some.injEq] at hs
    have := queueStart_inv h i p
    rw [hs] at this
    exact this
  | commit i p =>
    simp only [enabled, Bool.and_eq_true, List.contains_iff_mem] at he
    exact commit_inv h i p he.1 hs
  | start n c d w =>
    simp only [step, Option.some.injEq] at hs
    have := start_inv h n c d w hok.1 hok.2
    rw [hs] at this
    exact this
  | stop =>
    simp only [enabled, beq_iff_eq] at he
    simp only [step, Option.some.injEq, Prod.mk.injEq] at hs
    rw [← hs.1]
    exact { h with
      single := fun _ => h.single (by rw [he]; simp)
      wgone := fun hi => by cases hi
      gone := fun hg => absurd he (h.gone hg).1
      idleEmpty := fun hi => by cases hi
      pend := fun _ => hok }
  | join =>
    simp only [enabled, Bool.and_eq_true, beq_iff_eq, List.all_eq_true] at he
    have hg : Worker.gone ∈ s.workers := by
      obtain ⟨w, hw⟩ := h.single (by rw [he.1]; simp)
      have := he.2 w (by rw [hw]; simp)
      rw [hw, ← this]; simp
    have hinv : Inv { s with phase := .idle } := { h with
      single := fun hi => absurd rfl hi
      wgone := fun _ w hw => he.2 w hw
      gone := fun hg => ⟨by simp, (h.gone hg).2⟩
      idleEmpty := fun _ => (h.gone hg).2
      pend := fun _ => h.pend (h.gone hg).1 }
    have := rethrow_inv hinv
    simp only [step, Option.some.injEq] at hs
    rw [hs] at this
    exact this
  | take k =>
    simp only [enabled, Bool.and_eq_true, beq_iff_eq] at he
    simp only [step, Option.some.injEq, Prod.mk.injEq] at hs
    rw [← hs.1]
    exact take_inv h k he.1.1
  | finish k fail =>
    simp only [enabled] at he
    split at he
    case h_2 => cases he
    case h_1 nid idx sz hk =>
      obtain ⟨t, ht, hi, -⟩ := finish_inv h k fail hk
      simp only [step, ht, Option.map_some, Option.some.injEq, Prod.mk.injEq] at hs
      rw [← hs.1]
      exact hi
  | exit k =>
    simp only [enabled, Bool.and_eq_true, beq_iff_eq, bne_iff_ne] at he
    simp only [step, Option.some.injEq, Prod.mk.injEq] at hs
    rw [← hs.1]
    exact exit_inv h k he.1.1 he.1.2 he.2

theorem Reach.inv {s : St} (h : Reach Proper s) : Inv s := by
  induction h with
  | init => exact Inv.init
  | step _ hok he hs ih => exact step_inv ih hok he hs

end Litiv.Writer
