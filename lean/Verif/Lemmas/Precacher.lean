import Verif.Model.Precacher
import Mathlib.Data.List.Basic
import Mathlib.Tactic.Common
import Mathlib.Tactic.SplitIfs

/-! # Invariants of the data precacher -/

namespace Litiv.Precacher

/-! ### Memory -/

theorem readMem_write_same (mem : Nat → UInt8) (off : Nat) (b : List UInt8) :
    readMem (writeMem mem off b) off b.length = b := by
  apply List.ext_getElem
  · simp [readMem]
  · intro k h1 h2
    simp only [readMem, List.getElem_map, List.getElem_range, writeMem]
    rw [if_pos ⟨by omega, by omega⟩, Nat.add_sub_cancel_left, List.getD_eq_getElem?_getD, List.getElem?_eq_getElem h2]
    rfl

/-- Two regions do not overlap. -/
def Disj (o1 l1 o2 l2 : Nat) : Prop := o1 + l1 ≤ o2 ∨ o2 + l2 ≤ o1

theorem readMem_write_disj (mem : Nat → UInt8) (off : Nat) (b : List UInt8) (o l : Nat) (h : Disj o l off b.length) :
    readMem (writeMem mem off b) o l = readMem mem o l := by
  unfold readMem
  apply List.map_congr_left
  intro k hk
  rw [List.mem_range] at hk
  unfold writeMem Disj at *
  rw [if_neg (by omega)]

/-! ### Layout of the buffer -/

/-- The views `l` lie one after the other from `s` to `e`. -/
def Chain (s : Nat) : List View → Nat → Prop
  | [], e => s = e
  | v :: l, e => v.off = s ∧ 0 < v.len ∧ Chain (s + v.len) l e

theorem Chain.le {s e : Nat} {l : List View} (h : Chain s l e) : s ≤ e := by
  induction l generalizing s with
  | nil => exact Nat.le_of_eq h
  | cons v l ih => have := ih h.2.2; omega

theorem Chain.bounds {s e : Nat} {l : List View} (h : Chain s l e) {v : View} (hv : v ∈ l) :
    s ≤ v.off ∧ v.off + v.len ≤ e ∧ 0 < v.len := by
  induction l generalizing s with
  | nil => cases hv
  | cons w l ih =>
    rcases List.mem_cons.1 hv with rfl | hv
    · have := h.2.2.le
      have h1 := h.1; have h2 := h.2.1
      exact ⟨by omega, by omega, h2⟩
    · have := ih h.2.2 hv
      exact ⟨by omega, this.2⟩

theorem Chain.snoc {s e : Nat} {l : List View} (h : Chain s l e) (v : View) (hv : v.off = e) (hl : 0 < v.len) :
    Chain s (l ++ [v]) (e + v.len) := by
  induction l generalizing s with
  | nil => exact ⟨by rw [hv]; exact h.symm, hl, by rw [show s = e from h]; rfl⟩
  | cons w l ih => exact ⟨h.1, h.2.1, ih h.2.2⟩

theorem Chain.pairwise {s e : Nat} {l : List View} (h : Chain s l e) :
    l.Pairwise fun v w => Disj v.off v.len w.off w.len := by
  induction l generalizing s with
  | nil => exact List.Pairwise.nil
  | cons v l ih =>
    refine List.Pairwise.cons ?_ (ih h.2.2)
    intro w hw
    have := h.2.2.bounds hw
    have := h.1
    exact Or.inl (by omega)

theorem Chain.ne {s e : Nat} {l : List View} (h : Chain s l e) (hn : l ≠ []) : s < e := by
  cases l with
  | nil => exact absurd rfl hn
  | cons v l => have := h.2.2.le; have := h.2.1; omega

/-- The live views `l` of a buffer of size `n` with the two buffer indices. -/
def Layout (n : Nat) (first next : Option Nat) (l : List View) : Prop :=
  (first = none ∧ next = none ∧ l = []) ∨
  ∃ f x A B e, first = some f ∧ next = some x ∧ l = A ++ B ∧ A ≠ [] ∧ Chain f A e ∧ e ≤ n ∧
    ((B = [] ∧ x = e) ∨ (B ≠ [] ∧ Chain 0 B x ∧ x ≤ f))

theorem Layout.bounds {n : Nat} {first next : Option Nat} {l : List View} (h : Layout n first next l) {v : View} (hv : v ∈ l) :
    v.off + v.len ≤ n ∧ 0 < v.len := by
  rcases h with ⟨-, -, rfl⟩ | ⟨f, x, A, B, e, -, -, rfl, -, hA, he, hB⟩
  · cases hv
  · rcases List.mem_append.1 hv with hv | hv
    · have := hA.bounds hv; omega
    · rcases hB with ⟨rfl, -⟩ | ⟨-, hB, hx⟩
      · cases hv
      · have := hB.bounds hv; have := hA.le; omega

theorem Layout.pairwise {n : Nat} {first next : Option Nat} {l : List View} (h : Layout n first next l) :
    l.Pairwise fun v w => Disj v.off v.len w.off w.len := by
  rcases h with ⟨-, -, rfl⟩ | ⟨f, x, A, B, e, -, -, rfl, -, hA, he, hB⟩
  · exact List.Pairwise.nil
  · rw [List.pairwise_append]
    rcases hB with ⟨rfl, -⟩ | ⟨-, hB, hx⟩
    · exact ⟨hA.pairwise, List.Pairwise.nil, by simp⟩
    · refine ⟨hA.pairwise, hB.pairwise, ?_⟩
      intro v hv w hw
      have := hA.bounds hv
      have := hB.bounds hw
      exact Or.inr (by omega)

/-- Placing a packet keeps the layout, in bounds and away from the live views. -/
theorem Layout.place {n : Nat} {first next : Option Nat} {l : List View} (h : Layout n first next l) {sz hdr off : Nat}
    {first' next' : Option Nat} (hs : 0 < sz) (hp : place first next n sz = some (off, first', next')) :
    Layout n first' next' (l ++ [⟨off, sz, hdr⟩]) ∧ off + sz ≤ n ∧ ∀ v ∈ l, Disj v.off v.len off sz := by
  rcases h with ⟨rfl, rfl, rfl⟩ | ⟨f, x, A, B, e, rfl, rfl, rfl, hne, hA, he, hB⟩
  · simp only [Precacher.place] at hp
    rw [if_pos (by simp), if_pos (by simp)] at hp
    split_ifs at hp with h1
    simp at h1
    cases hp
    refine ⟨Or.inr ⟨0, sz, [⟨0, sz, hdr⟩], [], sz, by simp, rfl, by simp, by simp, ⟨rfl, hs, by simp [Chain]⟩, h1, Or.inl ⟨rfl, rfl⟩⟩,
      by omega, by simp⟩
  · have hlt := hA.ne hne
    rcases hB with ⟨rfl, rfl⟩ | ⟨hBne, hB, hx⟩
    · simp only [Precacher.place, Option.getD_some, hlt, or_true, if_true, reduceCtorEq, false_or, ne_eq, not_false_eq_true,
        true_and, if_false] at hp
      by_cases h1 : x + sz > n
      · rw [if_pos h1] at hp
        split_ifs at hp with h2
        cases hp
        refine ⟨Or.inr ⟨f, sz, A, [⟨0, sz, hdr⟩], x, rfl, rfl, by simp, hne, hA, he, Or.inr ⟨by simp, ⟨rfl, hs, by simp [Chain]⟩, by omega⟩⟩,
          by omega, ?_⟩
        intro v hv
        rw [List.append_nil] at hv
        have := hA.bounds hv
        exact Or.inr (by omega)
      · rw [if_neg h1] at hp
        injection hp with hp
        simp only [Prod.mk.injEq] at hp
        obtain ⟨rfl, rfl, rfl⟩ := hp
        refine ⟨Or.inr ⟨f, x + sz, A ++ [⟨x, sz, hdr⟩], [], x + sz, rfl, rfl, by simp, by simp, hA.snoc _ rfl hs, by omega,
          Or.inl ⟨rfl, rfl⟩⟩, by omega, ?_⟩
        intro v hv
        rw [List.append_nil] at hv
        have := hA.bounds hv
        exact Or.inl (by omega)
    · have hxf : ¬ f < x := by omega
      simp only [Precacher.place, Option.getD_some, hxf, reduceCtorEq, or_self, if_false] at hp
      split_ifs at hp with h1
      injection hp with hp
      simp only [Prod.mk.injEq] at hp
      obtain ⟨rfl, rfl, rfl⟩ := hp
      refine ⟨Or.inr ⟨f, x + sz, A, B ++ [⟨x, sz, hdr⟩], e, rfl, rfl, by simp, hne, hA, he,
        Or.inr ⟨by simp, hB.snoc _ rfl hs, by omega⟩⟩, by omega, ?_⟩
      intro v hv
      rcases List.mem_append.1 hv with hv | hv
      · have := hA.bounds hv; exact Or.inr (by omega)
      · have := hB.bounds hv; exact Or.inl (by omega)

/-- Dropping the oldest live view moves the first index to the next one. -/
theorem Layout.drop {n : Nat} {first next : Option Nat} {p v : View} {l : List View} (h : Layout n first next (p :: v :: l)) :
    Layout n (some v.off) next (v :: l) := by
  rcases h with ⟨-, -, h⟩ | ⟨f, x, A, B, e, rfl, rfl, hl, hne, hA, he, hB⟩
  · cases h
  · cases A with
    | nil => exact absurd rfl hne
    | cons a A =>
      rw [List.cons_append, List.cons.injEq] at hl
      obtain ⟨rfl, hl⟩ := hl
      cases A with
      | nil =>
        rw [List.nil_append] at hl
        subst hl
        rcases hB with ⟨hB, -⟩ | ⟨-, hB, hx⟩
        · cases hB
        · have := hA.le
          refine Or.inr ⟨0, x, v :: l, [], x, by rw [hB.1], rfl, by simp, by simp, hB, by omega, Or.inl ⟨rfl, rfl⟩⟩
      | cons b A =>
        rw [List.cons_append, List.cons.injEq] at hl
        obtain ⟨rfl, hl⟩ := hl
        have hc := hA.2.2
        refine Or.inr ⟨v.off, x, v :: A, B, e, rfl, rfl, by rw [hl]; rfl, by simp, ?_, he, ?_⟩
        · rw [hc.1]; exact hc
        · rcases hB with hB | ⟨h1, h2, h3⟩
          · exact Or.inl hB
          · exact Or.inr ⟨h1, h2, by have := hc.1; omega⟩

/-- The oldest live view starts at the first index. -/
theorem Layout.head {n : Nat} {first next : Option Nat} {v : View} {l : List View} (h : Layout n first next (v :: l)) :
    first = some v.off := by
  rcases h with ⟨-, -, h⟩ | ⟨f, x, A, B, e, rfl, rfl, hl, hne, hA, he, hB⟩
  · cases h
  · cases A with
    | nil => exact absurd rfl hne
    | cons a A =>
      rw [List.cons_append, List.cons.injEq] at hl
      rw [hl.1, hA.1]

/-! ### Invariant -/

/-- The region protected by the first index: the packet of the last answer if it lies in the current buffer. -/
def St.prot (s : St) : List View :=
  match s.reqPacket with
  | .view g v => if g = s.gen then [v] else []
  | _ => []

/-- The view `v` holds packet `i`. -/
def Holds (cb : Nat → Option Pkt) (mem : Nat → UInt8) (v : View) (i : Nat) : Prop :=
  cb i = some ⟨v.hdr, readMem mem v.off v.len⟩

/-- The handle holds packet `i` (old buffers are ignored). -/
def HandleOk (cb : Nat → Option Pkt) (s : St) (h : Handle) (i : Nat) : Prop :=
  match h with
  | .empty => False
  | .owned p => cb i = some p
  | .view g v => g = s.gen → s.alive = true → Holds cb s.mem v i

/-- The handle is no view of a future buffer. -/
def GenOk (s : St) : Handle → Prop
  | .view g _ => g ≤ s.gen
  | _ => True

/-- The facts about the worker which hold while it is alive. -/
structure WInv (cb : Nat → Option Pkt) (s : St) : Prop where
  layout : Layout s.size s.first s.next (s.prot ++ s.cache)
  count : s.nextPre = s.nextExp + s.cache.length
  holds : ∀ (j : Nat) v, s.cache[j]? = some v → Holds cb s.mem v (s.nextExp + j)
  memo : ∀ k p, s.memo = some (k, p) → cb k = some p
  answ : match s.answIdx with
    | none => s.nextExp = 0
    | some k => s.nextExp = k + 1 ∧ HandleOk cb s s.reqPacket k ∧ ∀ g v, s.reqPacket = .view g v → g = s.gen
  held : (∀ v, s.lastPacket ≠ .view s.gen v) ∨ s.lastPacket = s.reqPacket ∨
    (s.req ≠ none ∧ s.req = s.answIdx ∧ ∀ v, s.lastPacket = .view s.gen v → v.off + v.len ≤ s.size ∧
      (∀ w ∈ s.cache, Disj v.off v.len w.off w.len))

/-- The invariant. -/
structure Inv (cb : Nat → Option Pkt) (s : St) : Prop where
  genReq : GenOk s s.reqPacket
  genLast : GenOk s s.lastPacket
  aliveActive : s.alive = true → s.active = true ∧ s.exc = false
  reqActive : s.req ≠ none → s.active = true
  activeAlive : s.active = true → s.alive = true ∨ s.exc = true
  last : ∀ i, s.lastReq = some i → HandleOk cb s s.lastPacket i
  worker : s.alive = true → WInv cb s

theorem Inv.init (cb : Nat → Option Pkt) (m : Nat) : Inv cb { maxSize := m } where
  genReq := trivial
  genLast := trivial
  aliveActive h := by cases h
  reqActive h := absurd rfl h
  activeAlive h := by cases h
  last i h := by cases h
  worker h := by cases h

/-- A handle stays good when the worker is gone. -/
theorem HandleOk.dead {cb : Nat → Option Pkt} {s s' : St} {h : Handle} {i : Nat} (hd : s'.alive = false) (hh : HandleOk cb s h i) :
    HandleOk cb s' h i := by
  cases h with
  | empty => exact hh
  | owned p => exact hh
  | view g v => intro _ ha; rw [hd] at ha; cases ha

/-- A state in which the worker is gone. -/
theorem Inv.dead {cb : Nat → Option Pkt} {s s' : St} (h : Inv cb s) (hd : s'.alive = false) (hg : s'.gen = s.gen)
    (hr : s'.reqPacket = s.reqPacket) (hl : s'.lastPacket = s.lastPacket) (hi : s'.lastReq = s.lastReq)
    (hra : s'.req ≠ none → s'.active = true) (haa : s'.active = true → s'.exc = true) : Inv cb s' where
  genReq := by
    have := h.genReq
    rw [hr]; revert this
    cases s.reqPacket with
    | view g v => intro this; show g ≤ s'.gen; rw [hg]; exact this
    | _ => intro _; trivial
  genLast := by
    have := h.genLast
    rw [hl]; revert this
    cases s.lastPacket with
    | view g v => intro this; show g ≤ s'.gen; rw [hg]; exact this
    | _ => intro _; trivial
  aliveActive ha := by rw [hd] at ha; cases ha
  reqActive := hra
  activeAlive ha := Or.inr (haa ha)
  last i hi' := by rw [hl]; exact (h.last i (by rw [← hi]; exact hi')).dead hd
  worker ha := by rw [hd] at ha; cases ha

theorem getStart_inv {cb : Nat → Option Pkt} {s : St} (h : Inv cb s) (i : Nat) (hr : s.req = none) : Inv cb (getStart cb s i).1 := by
  unfold getStart
  split_ifs with h1 h2
  · exact h
  · have hna : s.active = false := by simpa using h2
    have hd : s.alive = false := by
      cases ha : s.alive with
      | false => rfl
      | true => rw [(h.aliveActive ha).1] at hna; cases hna
    cases hc : cb i with
    | none => exact h
    | some p =>
      exact { genReq := h.genReq, genLast := trivial, aliveActive := h.aliveActive, reqActive := h.reqActive,
              activeAlive := h.activeAlive,
              last := fun j hj => by cases hj; exact hc
              worker := fun ha => by rw [show s.alive = true from ha] at hd; cases hd }
  · have ha : s.active = true := by simpa using h2
    refine { genReq := h.genReq, genLast := h.genLast, aliveActive := h.aliveActive, reqActive := fun _ => ha,
             activeAlive := h.activeAlive, last := h.last, worker := ?_ }
    intro hal
    have w := h.worker hal
    refine { layout := w.layout, count := w.count, holds := w.holds, memo := w.memo, answ := w.answ, held := ?_ }
    rcases w.held with h | h | h
    · exact Or.inl h
    · exact Or.inr (Or.inl h)
    · exact absurd hr h.1

theorem getEnd_inv {cb : Nat → Option Pkt} {s : St} (h : Inv cb s) (i : Nat) (hr : s.req ≠ none)
    (hen : s.exc = true ∨ s.answIdx = s.req) : Inv cb (getEnd s i).1 := by
  unfold getEnd
  split_ifs with h1
  · have hd : s.alive = false := by
      cases ha : s.alive with
      | false => rfl
      | true => rw [(h.aliveActive ha).2] at h1; cases h1
    exact h.dead hd rfl rfl rfl rfl (fun h => absurd rfl h) (fun ha => by cases ha)
  · have hal : s.alive = true := by
      rcases h.activeAlive (h.reqActive hr) with h | h
      · exact h
      · exact absurd h h1
    have w := h.worker hal
    refine { genReq := h.genReq, genLast := h.genReq, aliveActive := h.aliveActive, reqActive := fun h => absurd rfl h,
             activeAlive := h.activeAlive, last := ?_, worker := fun _ => ?_ }
    · intro j hj
      have hj : s.answIdx = some j := hj
      have := w.answ
      rw [hj] at this
      exact this.2.1
    · exact { layout := w.layout, count := w.count, holds := w.holds, memo := w.memo, answ := w.answ, held := Or.inr (Or.inl rfl) }

theorem stop_inv {cb : Nat → Option Pkt} {s : St} (h : Inv cb s) (hr : s.req = none) : Inv cb (stop s).1 := by
  unfold stop
  dsimp only
  split_ifs with h1
  · exact h.dead rfl rfl rfl rfl rfl (fun h => absurd hr h) (fun ha => by cases ha)
  · exact h

theorem stop_gen (s : St) : (stop s).1.gen = s.gen ∧ (stop s).1.reqPacket = s.reqPacket ∧ (stop s).1.lastPacket = s.lastPacket ∧
    (stop s).1.lastReq = s.lastReq := by
  unfold stop
  dsimp only
  split_ifs <;> exact ⟨rfl, rfl, rfl, rfl⟩

theorem prot_old {s : St} {g : Nat} (h : GenOk s s.reqPacket) (hg : s.gen < g) :
    ∀ v, s.reqPacket ≠ .view g v := by
  intro v hv
  rw [hv] at h
  exact absurd (show g ≤ s.gen from h) (by omega)

theorem start_inv {cb : Nat → Option Pkt} {s : St} (h : Inv cb s) (n : Nat) (hr : s.req = none) : Inv cb (start s n).1 := by
  have hs := stop_inv (cb := cb) h hr
  unfold start
  dsimp only
  split_ifs with h1 h2
  · exact hs
  · obtain ⟨e1, e2, e3, e4⟩ := stop_gen s
    have hgr : ∀ g v, (stop s).1.reqPacket = .view g v → g ≤ s.gen := by
      intro g v hv
      have := h.genReq
      rw [e2] at hv; rw [hv] at this
      exact this
    have hgl : ∀ g v, (stop s).1.lastPacket = .view g v → g ≤ s.gen := by
      intro g v hv
      have := h.genLast
      rw [e3] at hv; rw [hv] at this
      exact this
    refine { genReq := ?_, genLast := ?_, aliveActive := fun _ => ⟨rfl, rfl⟩, reqActive := fun _ => rfl,
             activeAlive := fun _ => Or.inl rfl, last := ?_, worker := fun _ => ?_ }
    · show GenOk _ (stop s).1.reqPacket
      cases hq : (stop s).1.reqPacket with
      | view g v => exact Nat.le_succ_of_le (hgr g v hq)
      | _ => trivial
    · show GenOk _ (stop s).1.lastPacket
      cases hq : (stop s).1.lastPacket with
      | view g v => exact Nat.le_succ_of_le (hgl g v hq)
      | _ => trivial
    · intro i hi
      have hi : (stop s).1.lastReq = some i := hi
      have := h.last i (by rw [← e4]; exact hi)
      rw [← e3] at this
      show HandleOk _ _ (stop s).1.lastPacket i
      cases hq : (stop s).1.lastPacket with
      | empty => rw [hq] at this; exact this
      | owned p => rw [hq] at this; exact this
      | view g v =>
        intro hg
        have := hgl g v hq
        have hg : g = s.gen + 1 := hg
        omega
    · refine { layout := Or.inl ⟨rfl, rfl, ?_⟩, count := rfl, holds := fun j v hv => absurd hv (by simp), memo := fun k p hk => absurd hk (by simp),
               answ := rfl, held := Or.inl ?_ }
      · unfold St.prot
        rw [List.append_nil]
        show (match (stop s).1.reqPacket with | .view g v => if g = s.gen + 1 then [v] else [] | _ => []) = []
        cases hq : (stop s).1.reqPacket with
        | view g v => have := hgr g v hq; exact if_neg (by omega)
        | _ => rfl
      · intro v hv
        have := hgl _ v hv
        exact absurd (show s.gen + 1 ≤ s.gen from this) (by omega)
  · exact hs

theorem prot_mem {s : St} {v : View} (h : s.reqPacket = .view s.gen v) : v ∈ s.prot := by
  unfold St.prot
  rw [h]
  simp

theorem HandleOk.write {cb : Nat → Option Pkt} {s s' : St} {h : Handle} {i : Nat} (hh : HandleOk cb s h i) (hg : s'.gen = s.gen)
    (ha : s'.alive = s.alive) (hm : ∀ v, h = .view s.gen v → readMem s'.mem v.off v.len = readMem s.mem v.off v.len) :
    HandleOk cb s' h i := by
  cases h with
  | empty => exact hh
  | owned p => exact hh
  | view g v =>
    intro e1 e2
    have := hh (by rw [e1, hg]) (by rw [← ha]; exact e2)
    unfold Holds at *
    rw [this, hm v (by rw [e1, hg])]

theorem cachePkt_inv {cb : Nat → Option Pkt} {s : St} (h : Inv cb s) (ha : s.alive = true) (hr : s.req = none ∨ s.answIdx = none)
    {p : Pkt} (hp : cb s.nextPre = some p) : ∃ s', cachePkt s p = some s' ∧ Inv cb s' := by
  unfold cachePkt
  split_ifs with h0
  · refine ⟨{ s with ended := true }, rfl,
      { genReq := h.genReq, genLast := h.genLast, aliveActive := h.aliveActive,
        reqActive := h.reqActive, activeAlive := h.activeAlive, last := h.last, worker := fun ha => ?_ }⟩
    have w := h.worker ha
    exact { layout := w.layout, count := w.count, holds := w.holds, memo := w.memo, answ := w.answ, held := w.held }
  have w := h.worker ha
  cases hpl : place s.first s.next s.size p.bytes.length with
  | none =>
    refine ⟨{ s with ended := false }, rfl,
      { genReq := h.genReq, genLast := h.genLast, aliveActive := h.aliveActive,
        reqActive := h.reqActive, activeAlive := h.activeAlive, last := h.last, worker := fun ha => ?_ }⟩
    exact { layout := w.layout, count := w.count, holds := w.holds, memo := w.memo, answ := w.answ, held := w.held }
  | some t =>
    obtain ⟨off, first, next⟩ := t
    obtain ⟨hl, hb, hd⟩ := w.layout.place (hdr := p.hdr) (by omega) hpl
    simp only [if_pos hb]
    refine ⟨_, rfl, ?_⟩
    have hreq : ∀ v, s.reqPacket = .view s.gen v →
        readMem (writeMem s.mem off p.bytes) v.off v.len = readMem s.mem v.off v.len := by
      intro v hv
      exact readMem_write_disj _ _ _ _ _ (hd v (List.mem_append_left _ (prot_mem hv)))
    have hheld : (∀ v, s.lastPacket ≠ .view s.gen v) ∨ s.lastPacket = s.reqPacket := by
      rcases w.held with h | h | h
      · exact Or.inl h
      · exact Or.inr h
      · rcases hr with hr | hr
        · exact absurd hr h.1
        · exact absurd (h.2.1.trans hr) h.1
    refine { genReq := h.genReq, genLast := h.genLast, aliveActive := h.aliveActive, reqActive := h.reqActive,
             activeAlive := h.activeAlive, last := ?_, worker := fun _ => ?_ }
    · intro i hi
      refine (h.last i hi).write rfl rfl ?_
      intro v hv
      rcases hheld with hh | hh
      · exact absurd hv (hh v)
      · exact hreq v (by rw [← hh]; exact hv)
    · refine { layout := ?_, count := ?_, holds := ?_, memo := w.memo, answ := ?_, held := ?_ }
      · show Layout s.size first next (s.prot ++ (s.cache ++ [_]))
        rw [← List.append_assoc]
        exact hl
      · show s.nextPre + 1 = s.nextExp + (s.cache ++ [_]).length
        rw [w.count]; simp; omega
      · intro j v hv
        have hv : (s.cache ++ [(⟨off, p.bytes.length, p.hdr⟩ : View)])[j]? = some v := hv
        show Holds cb (writeMem s.mem off p.bytes) v (s.nextExp + j)
        rcases Nat.lt_trichotomy j s.cache.length with hj | hj | hj
        · rw [List.getElem?_append_left hj] at hv
          have := w.holds j v hv
          unfold Holds at *
          rw [readMem_write_disj _ _ _ _ _ (hd v (List.mem_append_right _ (List.mem_of_getElem? hv)))]
          exact this
        · subst hj
          rw [List.getElem?_append_right (Nat.le_refl _), Nat.sub_self] at hv
          have hv := (Option.some.inj hv).symm
          subst hv
          unfold Holds
          rw [← w.count, hp, readMem_write_same]
        · rw [List.getElem?_eq_none (by simp; omega)] at hv
          cases hv
      · have := w.answ
        show (match s.answIdx with | none => s.nextExp = 0 | some k => s.nextExp = k + 1 ∧ HandleOk cb _ s.reqPacket k ∧ ∀ g v, s.reqPacket = .view g v → g = s.gen)
        cases hk : s.answIdx with
        | none => rw [hk] at this; exact this
        | some k =>
          rw [hk] at this
          exact ⟨this.1, this.2.1.write rfl rfl hreq, this.2.2⟩
      · rcases hheld with hh | hh
        · exact Or.inl hh
        · exact Or.inr (Or.inl hh)

theorem memo_inv {cb : Nat → Option Pkt} {s : St} (h : Inv cb s) {k : Nat} {p : Pkt} (hp : cb k = some p) :
    Inv cb { s with memo := some (k, p) } where
  genReq := h.genReq
  genLast := h.genLast
  aliveActive := h.aliveActive
  reqActive := h.reqActive
  activeAlive := h.activeAlive
  last := h.last
  worker ha := by
    have w := h.worker ha
    exact { layout := w.layout, count := w.count, holds := w.holds, memo := fun k' p' hk => (by cases hk; exact hp), answ := w.answ,
            held := w.held }

theorem die_inv {cb : Nat → Option Pkt} {s : St} (h : Inv cb s) : Inv cb s.die :=
  h.dead rfl rfl rfl rfl rfl h.reqActive (fun _ => rfl)

theorem fill_inv {cb : Nat → Option Pkt} {s : St} (h : Inv cb s) (ha : s.alive = true) (hr : s.req = none ∨ s.answIdx = none) :
    ∃ s', fill cb s = some s' ∧ Inv cb s' := by
  have key : ∃ s', (match cb s.nextPre with
      | none => some s.die
      | some p => cachePkt { s with memo := some (s.nextPre, p) } p) = some s' ∧ Inv cb s' := by
    cases hc : cb s.nextPre with
    | none => exact ⟨_, rfl, die_inv h⟩
    | some p => exact cachePkt_inv (s := { s with memo := some (s.nextPre, p) }) (memo_inv h hc) ha hr hc
  unfold fill
  cases hm : s.memo with
  | none => exact key
  | some t =>
    obtain ⟨k, p⟩ := t
    dsimp only
    split_ifs with hk
    · exact cachePkt_inv h ha hr (by rw [hk]; exact (h.worker ha).memo k p hm)
    · exact key

theorem Layout.dropMany {n : Nat} {next : Option Nat} (a : List View) {first : Option Nat} {v : View} {l : List View}
    (h : Layout n first next (a ++ v :: l)) : Layout n (some v.off) next (v :: l) := by
  induction a generalizing first with
  | nil => have := h.head; rw [← this]; exact h
  | cons p a ih =>
    cases a with
    | nil => exact h.drop
    | cons q a => exact ih h.drop

theorem popTo_eval (s : St) (i k : Nat) (a : List View) (v : View) (l : List View) (hc : s.cache = a ++ v :: l) (hk : k = a.length + 1) :
    popTo s i k = some { s with
      reqPacket := .view s.gen v, answIdx := some i, first := some v.off, cache := l, nextExp := s.nextExp + k } := by
  subst hk
  induction a generalizing s with
  | nil =>
    rw [List.nil_append] at hc
    simp only [popTo, List.length_nil, hc]
  | cons p a ih =>
    rw [List.cons_append] at hc
    rw [List.length_cons]
    unfold popTo
    rw [hc]
    dsimp only
    rw [ih _ rfl]
    simp only [Option.some.injEq, St.mk.injEq, true_and, and_true]
    omega

theorem held_answer {cb : Nat → Option Pkt} {s : St} (w : WInv cb s) {i : Nat} (hr : s.req = some i) (hi : i + 1 ≠ s.nextExp)
    (v : View) (hv : s.lastPacket = .view s.gen v) : v ∈ s.prot := by
  rcases w.held with h | h | ⟨-, h, -⟩
  · exact absurd hv (h v)
  · exact prot_mem (by rw [← h]; exact hv)
  · have := w.answ
    rw [← h, hr] at this
    exact absurd this.1.symm hi

theorem answerDirect_inv {cb : Nat → Option Pkt} {s : St} (h : Inv cb s) {i : Nat} (hr : s.req = some i) (ha : s.alive = true)
    (hi : i + 1 ≠ s.nextExp) (b : Bool) : Inv cb (answerDirect cb s i b) := by
  have w := h.worker ha
  unfold answerDirect
  cases hc : cb i with
  | none => exact h.dead rfl rfl rfl rfl rfl h.reqActive (fun _ => rfl)
  | some p =>
    refine { genReq := trivial, genLast := h.genLast, aliveActive := h.aliveActive, reqActive := h.reqActive,
             activeAlive := h.activeAlive, last := h.last, worker := fun _ => ?_ }
    refine { layout := Or.inl ⟨rfl, rfl, rfl⟩, count := rfl, holds := fun j v hv => absurd hv (by simp), memo := w.memo,
             answ := ⟨rfl, hc, fun g v e => absurd e (by simp)⟩, held := Or.inr (Or.inr ⟨by rw [show _ = _ from hr]; simp, hr, ?_⟩) }
    intro v hv
    have hm := held_answer w hr hi v hv
    exact ⟨(w.layout.bounds (List.mem_append_left _ hm)).1, by simp⟩

theorem answer_inv {cb : Nat → Option Pkt} {s : St} (h : Inv cb s) {i : Nat} (hr : s.req = some i) (ha : s.alive = true) :
    ∃ s', answer cb s i = some s' ∧ Inv cb s' ∧ (s'.exc = false → s'.answIdx = some i) := by
  have w := h.worker ha
  have hexc := (h.aliveActive ha).2
  have hdir : ∀ b, (answerDirect cb s i b).exc = false → (answerDirect cb s i b).answIdx = some i := by
    intro b
    unfold answerDirect
    cases cb i with
    | none => intro h; cases h
    | some p => intro _; rfl
  unfold answer
  split_ifs with h1 h2 h3
  · refine ⟨s, rfl, h, fun _ => ?_⟩
    have := w.answ
    cases hk : s.answIdx with
    | none => rw [hk] at this; have : s.nextExp = 0 := this; omega
    | some k => rw [hk] at this; have := this.1; congr 1; omega
  · have hlt : i - s.nextExp < s.cache.length := by have := w.count; omega
    have hsplit : s.cache = s.cache.take (i - s.nextExp) ++ s.cache[i - s.nextExp] :: s.cache.drop (i - s.nextExp + 1) := by
      rw [List.getElem_cons_drop, List.take_append_drop]
    have hpop := popTo_eval s i (i + 1 - s.nextExp) _ _ _ hsplit (by rw [List.length_take]; omega)
    refine ⟨_, hpop, ?_, fun _ => rfl⟩
    have hlay := w.layout
    rw [hsplit, ← List.append_assoc] at hlay
    have hholds := w.holds (i - s.nextExp) _ (List.getElem?_eq_getElem hlt)
    rw [show s.nextExp + (i - s.nextExp) = i by omega] at hholds
    refine { genReq := Nat.le_refl _, genLast := h.genLast, aliveActive := h.aliveActive, reqActive := h.reqActive,
             activeAlive := h.activeAlive, last := h.last, worker := fun _ => ?_ }
    refine { layout := ?_, count := ?_, holds := ?_, memo := w.memo, answ := ⟨?_, fun _ _ => hholds, fun g v e => (by cases e; rfl)⟩, held := Or.inr (Or.inr ⟨?_, hr, ?_⟩) }
    · have : ∀ (t : St) v, t.reqPacket = .view t.gen v → t.prot = [v] := by
        intro t v ht; unfold St.prot; rw [ht]; simp
      rw [this _ (s.cache[i - s.nextExp]) rfl]
      exact hlay.dropMany
    · show s.nextPre = s.nextExp + (i + 1 - s.nextExp) + (s.cache.drop _).length
      rw [List.length_drop, w.count]; omega
    · intro j v hv
      have hv : (s.cache.drop (i - s.nextExp + 1))[j]? = some v := hv
      rw [List.getElem?_drop] at hv
      have := w.holds _ v hv
      show Holds cb s.mem v (s.nextExp + (i + 1 - s.nextExp) + j)
      rw [show s.nextExp + (i + 1 - s.nextExp) + j = s.nextExp + (i - s.nextExp + 1 + j) by omega]
      exact this
    · show s.nextExp + (i + 1 - s.nextExp) = i + 1
      omega
    · show s.req ≠ none
      rw [hr]; simp
    · intro v hv
      have hm := held_answer w hr h1 v hv
      refine ⟨(w.layout.bounds (List.mem_append_left _ hm)).1, fun x hx => ?_⟩
      have hp := w.layout.pairwise
      rw [List.pairwise_append] at hp
      exact hp.2.2 v hm x (List.mem_of_mem_drop hx)
  · exact ⟨_, rfl, answerDirect_inv h hr ha h1 _, hdir _⟩
  · exact ⟨_, rfl, answerDirect_inv h hr ha h1 _, hdir _⟩

theorem step_inv {cb : Nat → Option Pkt} {s : St} (h : Inv cb s) {a : Act} (he : enabled s a = true) :
    ∃ s' r, step cb s a = some (s', r) ∧ Inv cb s' := by
  cases a with
  | get i => exact ⟨_, _, rfl, getStart_inv h i (by simpa [enabled] using he)⟩
  | recv =>
    simp only [enabled, Bool.and_eq_true, Bool.or_eq_true, beq_iff_eq] at he
    refine ⟨_, _, rfl, getEnd_inv h _ ?_ he.2⟩
    intro hn; rw [hn] at he; simp at he
  | start n => exact ⟨_, _, rfl, start_inv h n (by simpa [enabled] using he)⟩
  | stop => exact ⟨_, _, rfl, stop_inv h (by simpa [enabled] using he)⟩
  | fill =>
    simp only [enabled, Bool.and_eq_true, Bool.or_eq_true, Option.isNone_iff_eq_none] at he
    obtain ⟨s', e, hi⟩ := fill_inv h he.1.1 he.1.2
    exact ⟨s', .nothing, by simp [step, e], hi⟩
  | answer =>
    simp only [enabled, Bool.and_eq_true] at he
    obtain ⟨i, hi⟩ := Option.isSome_iff_exists.1 he.2
    obtain ⟨s', e, hi', -⟩ := answer_inv h hi he.1
    exact ⟨s', .nothing, by simp [step, hi, e], hi'⟩

theorem Reach.inv {cb : Nat → Option Pkt} {s : St} (h : Reach cb s) : Inv cb s := by
  induction h with
  | init m => exact Inv.init cb m
  | step _ he hs ih =>
    obtain ⟨s'', r'', e, hi⟩ := step_inv ih he
    rw [hs] at e
    cases e
    exact hi

theorem HandleOk.read {cb : Nat → Option Pkt} {s : St} {h : Handle} {i : Nat} (hh : HandleOk cb s h i)
    (hd : ∀ g v, h = .view g v → s.alive = true ∧ g = s.gen) : s.read h = cb i := by
  cases h with
  | empty => exact hh.elim
  | owned p => exact (show cb i = some p from hh).symm
  | view g v =>
    obtain ⟨e1, e2⟩ := hd g v rfl
    have : cb i = _ := hh e2 e1
    rw [this]
    exact if_pos ⟨e1, e2⟩

theorem HandleOk.read_or {cb : Nat → Option Pkt} {s : St} {h : Handle} {i : Nat} (hh : HandleOk cb s h i) :
    s.read h = cb i ∨ (s.read h = none ∧ ∃ g v, h = .view g v ∧ ¬ (s.alive = true ∧ g = s.gen)) := by
  by_cases hd : ∃ g v, h = .view g v ∧ ¬ (s.alive = true ∧ g = s.gen)
  · obtain ⟨g, v, rfl, hn⟩ := hd
    exact Or.inr ⟨if_neg hn, g, v, rfl, hn⟩
  · push Not at hd
    exact Or.inl (hh.read fun g v e => hd g v e)

/-- The error flag under a step. -/
theorem step_exc {cb : Nat → Option Pkt} {s s' : St} {a : Act} {r : Ret} (h : s.exc = true) (hs : step cb s a = some (s', r))
    (hal : s.alive = false) (he : enabled s a = true) : s'.exc = true := by
  cases a with
  | get i =>
    simp only [step, Option.some.injEq, getStart] at hs
    split_ifs at hs
    · have e := congrArg Prod.fst hs; dsimp only at e; rw [← e]; exact h
    · cases hc : cb i with
      | none => rw [hc] at hs; have e := congrArg Prod.fst hs; dsimp only at e; rw [← e]; exact h
      | some p => rw [hc] at hs; have e := congrArg Prod.fst hs; dsimp only at e; rw [← e]; exact h
    · have e := congrArg Prod.fst hs; dsimp only at e; rw [← e]; exact h
  | recv =>
    simp only [step, Option.some.injEq, getEnd] at hs
    rw [if_pos h] at hs
    have e := congrArg Prod.fst hs; dsimp only at e; rw [← e]; exact h
  | stop =>
    simp only [step, Option.some.injEq, stop] at hs
    have e := congrArg Prod.fst hs; dsimp only at e; rw [← e]
    split_ifs <;> exact h
  | start n =>
    have : (stop s).2 = .threw := if_pos h
    simp only [step, Option.some.injEq, start, this, if_true] at hs
    have e := congrArg Prod.fst hs; dsimp only at e; rw [← e]
    unfold Precacher.stop
    dsimp only
    split_ifs <;> exact h
  | fill => simp [enabled, hal] at he
  | answer => simp [enabled, hal] at he

theorem cachePkt_exc {s : St} {p : Pkt} {s' : St} (h : cachePkt s p = some s') : s'.exc = s.exc := by
  unfold cachePkt at h
  split at h
  · cases h; rfl
  · split at h
    · cases h; rfl
    · split at h
      · cases h; rfl
      · cases h

theorem popTo_same (i k : Nat) : ∀ (s s' : St), popTo s i k = some s' → s'.exc = s.exc ∧ s'.req = s.req := by
  induction k with
  | zero => intro s s' h; cases h; exact ⟨rfl, rfl⟩
  | succ k ih =>
    intro s s' h
    unfold popTo at h
    cases hc : s.cache with
    | nil => rw [hc] at h; cases h
    | cons v rest =>
      rw [hc] at h
      have := ih { s with
        reqPacket := .view s.gen v, answIdx := some i, first := some v.off, cache := rest, nextExp := s.nextExp + 1 } s' h
      exact this

theorem answerDirect_same (cb : Nat → Option Pkt) (s : St) (i : Nat) (b : Bool) :
    (answerDirect cb s i b).req = s.req ∧ (cb i ≠ none → (answerDirect cb s i b).exc = s.exc) := by
  unfold answerDirect
  cases hc : cb i with
  | none => exact ⟨rfl, fun h => absurd rfl h⟩
  | some p => exact ⟨rfl, fun _ => rfl⟩

theorem stop_ok {s : St} (he : s.exc = false) : (stop s).2 = .nothing ∧ (stop s).1.exc = false := by
  constructor
  · unfold stop; simp [he]
  · unfold stop
    dsimp only
    cases s.active <;> exact he

/-- From a state without a recorded failure: when a failure is recorded, and when a call throws. -/
theorem step_clean {cb : Nat → Option Pkt} {s s' : St} {a : Act} {r : Ret} (he : s.exc = false) (hs : step cb s a = some (s', r)) :
    (s'.exc = true → (a = .fill ∧ cb s.nextPre = none) ∨ (a = .answer ∧ cb (s.req.getD 0) = none)) ∧
    (r = .threw → ∃ i, a = .get i ∧ cb i = none) := by
  have no : s.exc = true → False := by intro h; rw [he] at h; cases h
  cases a with
  | get i =>
    simp only [step, Option.some.injEq, getStart] at hs
    split_ifs at hs
    · cases hs; exact ⟨fun h => (no h).elim, fun h => by cases h⟩
    · cases hc : cb i with
      | none => rw [hc] at hs; cases hs; exact ⟨fun h => (no h).elim, fun h => ⟨i, rfl, hc⟩⟩
      | some p => rw [hc] at hs; cases hs; exact ⟨fun h => (no h).elim, fun h => by cases h⟩
    · cases hs; exact ⟨fun h => (no h).elim, fun h => by cases h⟩
  | recv =>
    simp only [step, Option.some.injEq, getEnd] at hs
    rw [if_neg no] at hs
    cases hs
    exact ⟨fun h => (no h).elim, fun h => by cases h⟩
  | start n =>
    obtain ⟨h1, h2⟩ := stop_ok he
    simp only [step, Option.some.injEq, start, h1, reduceCtorEq, if_false] at hs
    split_ifs at hs
    · cases hs; exact ⟨fun h => (by cases h), fun h => (by cases h)⟩
    · cases hs; exact ⟨fun h => (by rw [show (stop s).1.exc = _ from h] at h2; cases h2), fun h => (by cases h)⟩
  | stop =>
    obtain ⟨h1, h2⟩ := stop_ok he
    simp only [step, Option.some.injEq] at hs
    rw [hs] at h1 h2
    exact ⟨fun h => (by rw [show s'.exc = false from h2] at h; cases h), fun h => (by rw [show r = _ from h1] at h; cases h)⟩
  | fill =>
    simp only [step, Option.map_eq_some_iff] at hs
    obtain ⟨t, ht, hs⟩ := hs
    cases hs
    refine ⟨fun hx => Or.inl ⟨rfl, ?_⟩, fun h => by cases h⟩
    cases hp : cb s.nextPre with
    | none => rfl
    | some p =>
      exfalso
      simp only [fill, hp] at ht
      split at ht
      · split_ifs at ht
        · rw [cachePkt_exc ht] at hx; exact no hx
        · rw [cachePkt_exc ht] at hx; exact no hx
      · rw [cachePkt_exc ht] at hx; exact no hx
  | answer =>
    simp only [step, Option.map_eq_some_iff] at hs
    obtain ⟨t, ht, hs⟩ := hs
    cases hs
    refine ⟨fun hx => Or.inr ⟨rfl, ?_⟩, fun h => by cases h⟩
    by_contra hp
    unfold answer at ht
    split_ifs at ht
    · cases ht; exact no hx
    · rw [(popTo_same _ _ _ _ ht).1] at hx; exact no hx
    · cases ht; rw [(answerDirect_same _ _ _ _).2 hp] at hx; exact no hx
    · cases ht; rw [(answerDirect_same _ _ _ _).2 hp] at hx; exact no hx

end Litiv.Precacher
