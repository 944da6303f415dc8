import Verif.Spec.AutoBuffer

/-! # Memory-safety invariant and refinement of the `AutoBuffer` model -/

namespace Litiv.AutoBuffer

variable {α : Type}

@[simp] theorem upd_self {β : Type} (f : Nat → β) (i : Nat) (b : β) : upd f i b i = b := by simp [upd]

theorem upd_ne {β : Type} (f : Nat → β) {i j : Nat} (b : β) (h : j ≠ i) : upd f i b j = f j := by simp [upd, h]

@[simp] theorem upd_upd {β : Type} (f : Nat → β) (i : Nat) (b c : β) : upd (upd f i b) i c = upd f i c := by
  funext k; simp only [upd]; split <;> rfl

/-- `m` has the length of `l` and agrees with it wherever `l` specifies a value. -/
def Covers (l m : List (Option α)) : Prop :=
  l.length = m.length ∧ ∀ (idx : Nat) (v : α), l[idx]? = some (some v) → m[idx]? = some (some v)

/-- A buffer object is well formed: its storage is its own static array, or the one heap block it owns. -/
structure Wf (H : Nat → Option (List (Cell α))) (i : Nat) (o : Obj α) : Prop where
  ns : 1 ≤ o.ns
  stat : o.stat.length = o.ns
  used : o.used ≤ o.cap
  cap : 1 ≤ o.cap
  storage : (o.ptr = .stat i ∧ o.dyn = none ∧ o.cap = o.ns) ∨
    ∃ k b, o.ptr = .heap k ∧ o.dyn = some k ∧ H k = some b ∧ b.length = o.cap

/-- Every object is well formed, heap blocks have exactly one owner. -/
structure Inv (w : World α) : Prop where
  wf : ∀ i o, w.obj i = some o → Wf w.heap i o
  uniq : ∀ i j oi oj k, w.obj i = some oi → w.obj j = some oj → oi.dyn = some k → oj.dyn = some k → i = j
  live : ∀ k, w.heap k ≠ none → k < w.next ∧ ∃ i o, w.obj i = some o ∧ o.dyn = some k

/-- An object represents an abstract buffer. -/
def Rel (w : World α) (o : Obj α) (x : Abs α) : Prop :=
  x.ns = o.ns ∧ ∀ l, x.contents = some l → ∃ b, w.block o.ptr = some b ∧ Covers l (b.take o.used)

/-- All objects represent their abstract buffers. -/
def R (a : AState α) (w : World α) : Prop :=
  ∀ i, match a i, w.obj i with
    | none, none => True
    | some x, some o => Rel w o x
    | _, _ => False

theorem R.abs {a : AState α} {w : World α} (h : R a w) {i : Nat} {o : Obj α} (ho : w.obj i = some o) :
    ∃ x, a i = some x ∧ Rel w o x := by
  have := h i
  rw [ho] at this
  cases ha : a i with
  | none => rw [ha] at this; exact absurd this id
  | some x => rw [ha] at this; exact ⟨x, rfl, this⟩

theorem R.object {a : AState α} {w : World α} (h : R a w) {i : Nat} {x : Abs α} (ha : a i = some x) :
    ∃ o, w.obj i = some o ∧ Rel w o x := by
  have := h i
  rw [ha] at this
  cases ho : w.obj i with
  | none => rw [ho] at this; exact absurd this id
  | some o => rw [ho] at this; exact ⟨o, rfl, this⟩

theorem R.absent {a : AState α} {w : World α} (h : R a w) {i : Nat} (ha : a i = none) : w.obj i = none := by
  have := h i
  rw [ha] at this
  cases ho : w.obj i with
  | none => rfl
  | some o => rw [ho] at this; exact absurd this id

/-- Object `i` owns block `k`. -/
def OwnedBy (w : World α) (i k : Nat) : Prop := ∃ o, w.obj i = some o ∧ o.dyn = some k

theorem Inv.wfBlock {w : World α} (h : Inv w) {i : Nat} {o : Obj α} (ho : w.obj i = some o) :
    ∃ b, w.block o.ptr = some b ∧ b.length = o.cap := by
  have hw := h.wf i o ho
  rcases hw.storage with ⟨h1, h2, h3⟩ | ⟨k, b, h1, h2, h3, h4⟩
  · refine ⟨o.stat, ?_, by rw [hw.stat, h3]⟩
    rw [h1]; simp [World.block, ho]
  · exact ⟨b, by rw [h1]; simpa [World.block] using h3, h4⟩

/-- The next block identifier is not in use. -/
theorem Inv.fresh {w : World α} (h : Inv w) : w.heap w.next = none := by
  apply Classical.byContradiction
  intro hne
  have := (h.live _ hne).1
  omega

theorem Inv.owned {w : World α} (h : Inv w) {i : Nat} {o : Obj α} {k : Nat} (ho : w.obj i = some o)
    (hk : o.dyn = some k) : ∃ b, w.heap k = some b ∧ b.length = o.cap ∧ o.ptr = .heap k := by
  have hw := h.wf i o ho
  rcases hw.storage with ⟨h1, h2, h3⟩ | ⟨k', b, h1, h2, h3, h4⟩
  · rw [hk] at h2; cases h2
  · rw [hk] at h2; cases h2; exact ⟨b, h3, h4, h1⟩

theorem Inv.dyn_ne_next {w : World α} (h : Inv w) {i : Nat} {o : Obj α} {k : Nat} (ho : w.obj i = some o)
    (hk : o.dyn = some k) : k ≠ w.next := by
  intro he
  obtain ⟨b, hb, _⟩ := h.owned ho hk
  rw [he, h.fresh] at hb; cases hb

/-- The block of another object is not affected by a change that respects ownership. -/
theorem frame_block {w w' : World α} (hI : Inv w) {i j : Nat} {oj : Obj α} (hj : w.obj j = some oj) (hji : j ≠ i)
    (ho : w'.obj j = w.obj j)
    (h2 : ∀ k, w.heap k ≠ none → ¬OwnedBy w i k → w'.heap k = w.heap k) :
    w'.block oj.ptr = w.block oj.ptr := by
  rcases (hI.wf j oj hj).storage with ⟨h1, _, _⟩ | ⟨k, b, h1, hd, hb, _⟩
  · rw [h1]; simp [World.block, ho]
  · rw [h1]
    simp only [World.block]
    apply h2 k (by rw [hb]; simp)
    rintro ⟨o, ho, hk⟩
    exact hji (hI.uniq j i oj o k hj ho hd hk)

/-- A change to one object (possibly newly constructed) that respects ownership keeps everything else. -/
theorem single {a : AState α} {w w' : World α} (hI : Inv w) (hR : R a w) (i : Nat) (o' : Obj α) (x : Abs α)
    (h1 : w'.obj = upd w.obj i (some o'))
    (h2 : ∀ k, w.heap k ≠ none → ¬OwnedBy w i k → w'.heap k = w.heap k)
    (h3 : Wf w'.heap i o')
    (h4 : ∀ k, w'.heap k ≠ none → k < w'.next ∧ (o'.dyn = some k ∨ (w.heap k ≠ none ∧ ¬OwnedBy w i k)))
    (h6 : ∀ k, o'.dyn = some k → OwnedBy w i k ∨ w.heap k = none)
    (h7 : Rel w' o' x) : Inv w' ∧ R (a.put i (some x)) w' := by
  have hobj : ∀ j, j ≠ i → w'.obj j = w.obj j := fun j hj => by rw [h1, upd_ne _ _ hj]
  have hobji : w'.obj i = some o' := by rw [h1, upd_self]
  have hown : ∀ j oj k, j ≠ i → w.obj j = some oj → oj.dyn = some k → w.heap k ≠ none ∧ ¬OwnedBy w i k := by
    intro j oj k hj hoj hk
    obtain ⟨b, hb, _⟩ := hI.owned hoj hk
    refine ⟨by rw [hb]; simp, ?_⟩
    rintro ⟨o, ho, hk'⟩
    exact hj (hI.uniq j i oj o k hoj ho hk hk')
  refine ⟨⟨?_, ?_, ?_⟩, ?_⟩
  · intro j oj hoj
    by_cases hj : j = i
    · subst hj; rw [hobji] at hoj; cases hoj; exact h3
    · rw [hobj j hj] at hoj
      have hw := hI.wf j oj hoj
      refine ⟨hw.ns, hw.stat, hw.used, hw.cap, ?_⟩
      rcases hw.storage with h | ⟨k, b, e1, e2, e3, e4⟩
      · exact Or.inl h
      · obtain ⟨q1, q2⟩ := hown j oj k hj hoj e2
        exact Or.inr ⟨k, b, e1, e2, by rw [h2 k q1 q2]; exact e3, e4⟩
  · have key : ∀ j oj k, j ≠ i → w'.obj j = some oj → oj.dyn = some k → o'.dyn = some k → False := by
      intro j oj k hj hoj hk hk'
      rw [hobj j hj] at hoj
      obtain ⟨q1, q2⟩ := hown j oj k hj hoj hk
      rcases h6 k hk' with h | h
      · exact q2 h
      · exact q1 h
    intro j l oj ol k hoj hol hkj hkl
    by_cases hj : j = i
    · by_cases hl : l = i
      · rw [hj, hl]
      · subst hj; rw [hobji] at hoj; cases hoj
        exact absurd (key l ol k hl hol hkl hkj) id
    · by_cases hl : l = i
      · subst hl; rw [hobji] at hol; cases hol
        exact absurd (key j oj k hj hoj hkj hkl) id
      · rw [hobj j hj] at hoj; rw [hobj l hl] at hol
        exact hI.uniq j l oj ol k hoj hol hkj hkl
  · intro k hk
    obtain ⟨q1, q2⟩ := h4 k hk
    refine ⟨q1, ?_⟩
    rcases q2 with q | ⟨q, q'⟩
    · exact ⟨i, o', hobji, q⟩
    · obtain ⟨_, j, oj, hoj, hd⟩ := hI.live k q
      by_cases hj : j = i
      · subst hj; exact absurd ⟨oj, hoj, hd⟩ q'
      · exact ⟨j, oj, by rw [hobj j hj]; exact hoj, hd⟩
  · intro j
    by_cases hj : j = i
    · subst hj; simp only [AState.put, if_true, hobji]; exact h7
    · simp only [AState.put, if_neg hj, hobj j hj]
      have := hR j
      cases hoj : w.obj j with
      | none => rw [hoj] at this; cases haj : a j with
        | none => trivial
        | some x => rw [haj] at this; exact absurd this id
      | some oj =>
        rw [hoj] at this
        cases haj : a j with
        | none => rw [haj] at this; exact absurd this id
        | some x =>
          rw [haj] at this
          refine ⟨this.1, ?_⟩
          intro l hl
          rw [frame_block hI hoj hj (hobj j hj) h2]
          exact this.2 l hl

theorem put_same {a : AState α} {i : Nat} {x : Abs α} (h : a i = some x) : a.put i (some x) = a := by
  funext k; simp only [AState.put]; split
  · next h' => rw [h', h]
  · rfl

@[simp] theorem put_put (a : AState α) (i : Nat) (x y : Option (Abs α)) : (a.put i x).put i y = a.put i y := by
  funext k; simp only [AState.put]; split <;> rfl

@[simp] theorem put_self (a : AState α) (i : Nat) (x : Option (Abs α)) : a.put i x i = x := by simp [AState.put]

theorem put_ne (a : AState α) {i j : Nat} (x : Option (Abs α)) (h : j ≠ i) : a.put i x j = a j := by
  simp [AState.put, h]

/-- The heap without the block of an object. -/
def heapMinus (w : World α) (d : Option Nat) : Nat → Option (List (Cell α)) :=
  fun k => if d = some k then none else w.heap k

theorem free_ok {w : World α} {d : Option Nat} (h : ∀ k, d = some k → w.heap k ≠ none) :
    w.free d = some { w with heap := heapMinus w d } := by
  cases d with
  | none =>
    simp only [World.free]
    rfl
  | some k =>
    simp only [World.free]
    cases hk : w.heap k with
    | none => exact absurd hk (h k rfl)
    | some b =>
      simp only
      congr 2
      funext m
      simp only [upd, heapMinus, Option.some.injEq]
      by_cases hm : m = k
      · simp [hm]
      · have : ¬ k = m := fun h => hm h.symm
        simp [hm, this]

theorem Inv.free {w : World α} (h : Inv w) {i : Nat} {o : Obj α} (ho : w.obj i = some o) :
    w.free o.dyn = some { w with heap := heapMinus w o.dyn } := by
  apply free_ok
  intro k hk
  obtain ⟨b, hb, _⟩ := h.owned ho hk
  rw [hb]; simp

theorem ownedBy_iff {w : World α} {i : Nat} {o : Obj α} (ho : w.obj i = some o) (k : Nat) :
    OwnedBy w i k ↔ o.dyn = some k := by
  constructor
  · rintro ⟨o', ho', h⟩; rw [ho] at ho'; cases ho'; exact h
  · intro h; exact ⟨o, ho, h⟩

theorem covers_nil : Covers ([] : List (Option α)) [] := ⟨rfl, by simp⟩

theorem covers_take_replicate {b : List (Option α)} {n : Nat} (h : n ≤ b.length) :
    Covers (List.replicate n none) (b.take n) := by
  refine ⟨by simp; omega, ?_⟩
  intro idx v h
  rw [List.getElem?_replicate] at h
  split at h <;> simp at h

theorem toStatic_ok {a : AState α} {w : World α} (hI : Inv w) (hR : R a w) {i n : Nat} {o : Obj α} {x : Abs α}
    (ho : w.obj i = some o) (hx : a i = some x) (hn : n ≤ o.ns) :
    ∃ w', toStatic w i n = some w' ∧ w'.obj = upd w.obj i (some { o with dyn := none, ptr := .stat i, cap := o.ns, used := n }) ∧
      Inv w' ∧ R (a.put i (some ⟨x.ns, some (List.replicate n none)⟩)) w' ∧
      (∀ k, w.heap k ≠ none → ¬OwnedBy w i k → w'.heap k = w.heap k) := by
  have hw := hI.wf i o ho
  have hf : ∀ k, w.heap k ≠ none → ¬OwnedBy w i k → heapMinus w o.dyn k = w.heap k := by
    intro k _ hk
    rw [ownedBy_iff ho] at hk
    simp [heapMinus, hk]
  obtain ⟨x', hx', hrel⟩ := hR.abs ho
  rw [hx] at hx'; cases hx'
  refine ⟨_, by simp only [toStatic, ho, Option.bind_eq_bind, Option.bind_some, hI.free ho]; rfl, rfl, ?_⟩
  rw [← and_assoc]
  refine ⟨single hI hR i _ _ rfl hf ?_ ?_ ?_ ?_, hf⟩
  · refine ⟨hw.ns, hw.stat, hn, hw.ns, Or.inl ⟨rfl, rfl, rfl⟩⟩
  · intro k hk
    simp only [World.setObj, heapMinus] at hk ⊢
    split at hk
    · exact absurd rfl hk
    · rename_i hd
      refine ⟨(hI.live k hk).1, Or.inr ⟨hk, ?_⟩⟩
      rw [ownedBy_iff ho]; exact hd
  · intro k hk; cases hk
  · refine ⟨hrel.1, ?_⟩
    intro l hl
    cases hl
    refine ⟨o.stat, by simp [World.block, World.setObj], ?_⟩
    apply covers_take_replicate
    rw [hw.stat]; exact hn

theorem block_alloc {w : World α} (hI : Inv w) {i : Nat} {o : Obj α} (ho : w.obj i = some o) (n : Nat) :
    (w.alloc n).block o.ptr = w.block o.ptr := by
  rcases (hI.wf i o ho).storage with ⟨h1, _, _⟩ | ⟨k, b, h1, hd, hb, _⟩
  · rw [h1]; rfl
  · rw [h1]
    simp only [World.block, World.alloc]
    exact upd_ne _ _ (hI.dyn_ne_next ho hd)

theorem grow_ok {a : AState α} {w : World α} (hI : Inv w) (hR : R a w) {i n : Nat} {o : Obj α}
    (ho : w.obj i = some o) (hn : o.used ≤ n) (hn1 : 1 ≤ n) :
    ∃ w', grow w i n = some w' ∧
      w'.obj = upd w.obj i (some { o with dyn := some w.next, ptr := .heap w.next, cap := n }) ∧
      Inv w' ∧ R a w' := by
  have hw := hI.wf i o ho
  obtain ⟨b, hb, hbl⟩ := hI.wfBlock ho
  obtain ⟨x, hx, hrel⟩ := hR.abs ho
  have hcopy : (w.alloc n).copyN o.ptr o.used (.heap w.next) =
      some ((w.alloc n).setBlock (.heap w.next) (b.take o.used ++ (List.replicate n none).drop o.used)) := by
    simp only [World.copyN, block_alloc hI ho, hb, Option.bind_eq_bind, Option.bind_some]
    simp only [World.block, World.alloc, upd_self, Option.bind_some, List.length_replicate]
    rw [if_pos ⟨by rw [hbl]; exact hw.used, hn⟩]
  have hfree : ((w.alloc n).setBlock (.heap w.next) (b.take o.used ++ (List.replicate n none).drop o.used)).free o.dyn =
      some { ((w.alloc n).setBlock (.heap w.next) (b.take o.used ++ (List.replicate n none).drop o.used)) with
        heap := heapMinus ((w.alloc n).setBlock (.heap w.next) (b.take o.used ++ (List.replicate n none).drop o.used)) o.dyn } := by
    apply free_ok
    intro k hk
    obtain ⟨b', hb', _⟩ := hI.owned ho hk
    have := hI.dyn_ne_next ho hk
    simp only [World.setBlock, World.alloc]
    rw [upd_ne _ _ this, upd_ne _ _ this, hb']; simp
  have hheap : ∀ k, heapMinus ((w.alloc n).setBlock (.heap w.next) (b.take o.used ++ (List.replicate n none).drop o.used)) o.dyn k =
      if k = w.next then some (b.take o.used ++ (List.replicate n none).drop o.used)
      else if o.dyn = some k then none else w.heap k := by
    intro k
    simp only [heapMinus, World.setBlock, World.alloc, upd]
    by_cases hk : k = w.next
    · have : ¬ o.dyn = some k := by
        intro h; exact hI.dyn_ne_next ho h hk
      simp [hk, hk ▸ this]
    · simp [hk]
  refine ⟨_, by simp only [grow, ho, Option.bind_eq_bind, Option.bind_some, hcopy, hfree]; rfl, rfl, ?_⟩
  have := single (w' := { obj := upd w.obj i (some { o with dyn := some w.next, ptr := .heap w.next, cap := n })
                          heap := heapMinus ((w.alloc n).setBlock (.heap w.next) (b.take o.used ++ (List.replicate n none).drop o.used)) o.dyn
                          next := w.next + 1 }) hI hR i
    { o with dyn := some w.next, ptr := .heap w.next, cap := n } x rfl ?_ ?_ ?_ ?_ ?_
  · rw [put_same hx] at this
    exact this
  · intro k hk hko
    rw [ownedBy_iff ho] at hko
    simp only [hheap]
    have : k ≠ w.next := by intro h; rw [h, hI.fresh] at hk; exact hk rfl
    simp [this, hko]
  · refine ⟨hw.ns, hw.stat, hn, hn1, Or.inr ⟨w.next, _, rfl, rfl, by simp only [hheap, if_true]; rfl, ?_⟩⟩
    simp only [List.length_append, List.length_take, List.length_drop, List.length_replicate, hbl]
    have := hw.used
    omega
  · intro k hk
    simp only [hheap] at hk
    by_cases hkn : k = w.next
    · simp only [hkn]; exact ⟨by omega, Or.inl trivial⟩
    · rw [if_neg hkn] at hk
      split at hk
      · exact absurd rfl hk
      · rename_i hd
        have := (hI.live k hk).1
        refine ⟨by simp only; omega, Or.inr ⟨hk, ?_⟩⟩
        rw [ownedBy_iff ho]; exact hd
  · intro k hk; cases hk; exact Or.inr hI.fresh
  · refine ⟨hrel.1, ?_⟩
    intro l hl
    obtain ⟨b', hb', hc⟩ := hrel.2 l hl
    rw [hb] at hb'; cases hb'
    refine ⟨_, by simp only [World.block, hheap, if_true]; rfl, ?_⟩
    have he : (b.take o.used ++ (List.replicate n none).drop o.used).take o.used = b.take o.used := by
      rw [List.take_append_of_le_length (by simp [hbl, hw.used]), List.take_take]; simp
    simp only [he]; exact hc

/-- Setting the used size within the capacity. -/
theorem setUsed_ok {a : AState α} {w : World α} (hI : Inv w) (hR : R a w) {i n : Nat} {o : Obj α} {x : Abs α}
    (ho : w.obj i = some o) (hx : a i = some x) (hn : n ≤ o.cap) :
    Inv (w.setObj i { o with used := n }) ∧ R (a.put i (some (x.resize n))) (w.setObj i { o with used := n }) := by
  have hw := hI.wf i o ho
  obtain ⟨b, hb, hbl⟩ := hI.wfBlock ho
  obtain ⟨x', hx', hrel⟩ := hR.abs ho
  rw [hx] at hx'; cases hx'
  have hblock : (w.setObj i { o with used := n }).block o.ptr = some b := by
    rcases hw.storage with ⟨h1, _, _⟩ | ⟨k, b', h1, hd, hb', _⟩
    · rw [h1] at hb ⊢
      simp only [World.block, ho, Option.map_some] at hb
      simp only [World.block, World.setObj, upd_self, Option.map_some]
      exact hb
    · rw [h1] at hb ⊢; exact hb
  refine single hI hR i { o with used := n } _ rfl (fun _ _ _ => rfl) ?_ ?_ ?_ ?_
  · exact ⟨hw.ns, hw.stat, hn, hw.cap, hw.storage⟩
  · intro k hk
    refine ⟨(hI.live k hk).1, ?_⟩
    by_cases h : o.dyn = some k
    · exact Or.inl h
    · exact Or.inr ⟨hk, by rw [ownedBy_iff ho]; exact h⟩
  · intro k hk; exact Or.inl ⟨o, ho, hk⟩
  · refine ⟨hrel.1, ?_⟩
    intro l hl
    refine ⟨b, hblock, ?_⟩
    simp only [Abs.resize, Option.some.injEq] at hl
    subst hl
    cases hc : x.contents with
    | none =>
      simp only [resized, Option.getD_none, List.take_nil, List.nil_append, List.length_nil, Nat.sub_zero]
      exact covers_take_replicate (by rw [hbl]; exact hn)
    | some l =>
      obtain ⟨b', hb', hcov⟩ := hrel.2 l hc
      rw [hb] at hb'; cases hb'
      simp only [resized, Option.getD_some]
      refine ⟨by simp [hbl]; omega, ?_⟩
      intro idx v hv
      rw [List.getElem?_append] at hv
      split at hv
      · rename_i hlt
        simp only [List.length_take] at hlt
        rw [List.getElem?_take] at hv
        split at hv
        · have h1 := hcov.2 idx v hv
          rw [List.getElem?_take] at h1 ⊢
          split at h1
          · rw [if_pos (by assumption)]; exact h1
          · cases h1
        · cases hv
      · rw [List.getElem?_replicate] at hv
        split at hv <;> simp at hv

/-- Overwriting the storage of one object. -/
theorem setBlock_ok {a : AState α} {w : World α} (hI : Inv w) (hR : R a w) {i : Nat} {o : Obj α}
    (ho : w.obj i = some o) {b : List (Cell α)} (hbl : b.length = o.cap) (c : Option (List (Option α))) {x : Abs α}
    (hx : a i = some x) (hc : ∀ l, c = some l → Covers l (b.take o.used)) :
    Inv (w.setBlock o.ptr b) ∧ R (a.put i (some ⟨x.ns, c⟩)) (w.setBlock o.ptr b) ∧
      ∃ o', (w.setBlock o.ptr b).obj i = some o' ∧ o'.used = o.used ∧ o'.cap = o.cap ∧ o'.ptr = o.ptr := by
  have hw := hI.wf i o ho
  obtain ⟨x', hx', hrel⟩ := hR.abs ho
  rw [hx] at hx'; cases hx'
  rcases hw.storage with ⟨h1, h2, h3⟩ | ⟨k, b', h1, hd, hb', hbl'⟩
  · rw [← and_assoc]
    rw [h1]
    refine ⟨?_, { o with stat := b }, ?_⟩
    · refine single hI hR i { o with stat := b } _ ?_ (fun _ _ _ => rfl) ?_ ?_ ?_ ?_
      · simp only [World.setBlock, ho, Option.map_some]
      · exact ⟨hw.ns, by rw [hbl, h3], hw.used, hw.cap, Or.inl ⟨h1, h2, h3⟩⟩
      · intro k hk
        refine ⟨(hI.live k hk).1, ?_⟩
        by_cases h : o.dyn = some k
        · exact Or.inl h
        · exact Or.inr ⟨hk, by rw [ownedBy_iff ho]; exact h⟩
      · intro k hk; exact Or.inl ⟨o, ho, hk⟩
      · refine ⟨hrel.1, ?_⟩
        intro l hl
        exact ⟨b, by simp [World.block, World.setBlock, h1, ho], hc l hl⟩
    · simp [World.setBlock, ho, h1]
  · rw [← and_assoc]
    rw [h1]
    refine ⟨?_, o, ?_⟩
    · refine single hI hR i o _ ?_ ?_ ?_ ?_ ?_ ?_
      · funext j; simp only [World.setBlock, upd]; split
        · next h => rw [h, ho]
        · rfl
      · intro m hm hmo
        rw [ownedBy_iff ho] at hmo
        simp only [World.setBlock]
        apply upd_ne
        intro h; rw [h] at hmo; exact hmo hd
      · refine ⟨hw.ns, hw.stat, hw.used, hw.cap, Or.inr ⟨k, b, h1, hd, by simp [World.setBlock], hbl⟩⟩
      · intro m hm
        simp only [World.setBlock, upd] at hm ⊢
        by_cases hmk : m = k
        · subst hmk
          refine ⟨(hI.live m (by rw [hb']; simp)).1, Or.inl hd⟩
        · rw [if_neg hmk] at hm
          refine ⟨(hI.live m hm).1, Or.inr ⟨hm, ?_⟩⟩
          rw [ownedBy_iff ho, hd]
          intro h; cases h; exact hmk rfl
      · intro m hm; exact Or.inl ⟨o, ho, hm⟩
      · refine ⟨hrel.1, ?_⟩
        intro l hl
        exact ⟨b, by simp [World.block, World.setBlock, h1], hc l hl⟩
    · simp [World.setBlock, ho, h1]

theorem reserve_ok {a : AState α} {w : World α} (hI : Inv w) (hR : R a w) {i n : Nat} {o : Obj α}
    (ho : w.obj i = some o) :
    ∃ w' o', reserve w i n = some w' ∧ Inv w' ∧ R a w' ∧ w'.obj i = some o' ∧ o'.used = o.used ∧
      o'.cap = max o.cap n := by
  have hw := hI.wf i o ho
  simp only [reserve, ho, Option.bind_eq_bind, Option.bind_some]
  by_cases h : n > o.cap
  · rw [if_pos h]
    have := hw.used
    have := hw.cap
    obtain ⟨w', h1, h2, h3, h4⟩ := grow_ok hI hR ho (n := n) (by omega) (by omega)
    exact ⟨w', { o with dyn := some w.next, ptr := .heap w.next, cap := n }, h1, h3, h4,
      by rw [h2]; exact upd_self _ _ _, rfl, by simp only; omega⟩
  · rw [if_neg h]
    exact ⟨w, o, rfl, hI, hR, ho, rfl, by omega⟩

theorem resize_ok {a : AState α} {w : World α} (hI : Inv w) (hR : R a w) {i n : Nat} {x : Abs α}
    (hx : a i = some x) : ∃ w', resize w i n = some w' ∧ Inv w' ∧ R (a.put i (some (x.resize n))) w' := by
  obtain ⟨o, ho, hrel⟩ := hR.object hx
  have hw := hI.wf i o ho
  simp only [resize, ho, Option.bind_eq_bind, Option.bind_some]
  by_cases h0 : n = 0
  · subst h0
    rw [if_pos rfl]
    obtain ⟨w', h1, _, h3, h4, _⟩ := toStatic_ok hI hR ho hx (Nat.zero_le _)
    refine ⟨w', h1, h3, ?_⟩
    simpa [Abs.resize, resized] using h4
  · rw [if_neg h0]
    by_cases hg : n > o.cap
    · rw [if_pos hg]
      have := hw.used
      obtain ⟨w', h1, h2, h3, h4⟩ := grow_ok hI hR ho (n := n) (by omega) (by omega)
      rw [h1]
      have ho' : w'.obj i = some { o with dyn := some w.next, ptr := .heap w.next, cap := n } := by
        rw [h2]; exact upd_self _ _ _
      simp only [Option.bind_some, ho']
      exact ⟨_, rfl, setUsed_ok h3 h4 ho' hx (Nat.le_refl n)⟩
    · rw [if_neg hg]
      exact ⟨_, rfl, setUsed_ok hI hR ho hx (by omega)⟩

theorem copyN_ok {a : AState α} {w : World α} (hI : Inv w) (hR : R a w) {i j : Nat} {o oj : Obj α} {x y : Abs α}
    (ho : w.obj i = some o) (hj : w.obj j = some oj) (hx : a i = some x) (hy : a j = some y)
    (hu : oj.used = o.used) :
    ∃ w', w.copyN oj.ptr oj.used o.ptr = some w' ∧ Inv w' ∧ R (a.put i (some ⟨x.ns, y.contents⟩)) w' := by
  have hw := hI.wf i o ho
  have hwj := hI.wf j oj hj
  obtain ⟨b, hb, hbl⟩ := hI.wfBlock ho
  obtain ⟨bj, hbj, hbjl⟩ := hI.wfBlock hj
  obtain ⟨y', hy', hrel⟩ := hR.abs hj
  rw [hy] at hy'; cases hy'
  have h1 := hw.used
  have h2 := hwj.used
  refine ⟨w.setBlock o.ptr (bj.take oj.used ++ b.drop oj.used), ?_, ?_⟩
  · simp only [World.copyN, hb, hbj, Option.bind_eq_bind, Option.bind_some]
    rw [if_pos ⟨by omega, by omega⟩]
  · have := setBlock_ok hI hR ho (b := bj.take oj.used ++ b.drop oj.used)
      (by simp only [List.length_append, List.length_take, List.length_drop]; omega) y.contents hx ?_
    · exact ⟨this.1, this.2.1⟩
    · intro l hl
      obtain ⟨b', hb', hc⟩ := hrel.2 l hl
      rw [hbj] at hb'; cases hb'
      have he : (bj.take oj.used ++ b.drop oj.used).take o.used = bj.take oj.used := by
        rw [hu, List.take_append_of_le_length (by simp; omega), List.take_take]; simp
      rw [he]; exact hc

theorem construct_ok {a : AState α} {w : World α} (hI : Inv w) (hR : R a w) {i ns n : Nat}
    (hx : a i = none) (hns : 1 ≤ ns) :
    ∃ w' o', construct w i ns n = some w' ∧ Inv w' ∧ R (a.put i (some ⟨ns, some (List.replicate n none)⟩)) w' ∧
      w'.obj = upd w.obj i (some o') ∧ o'.ns = ns ∧ (∀ k, w.heap k ≠ none → w'.heap k = w.heap k) := by
  have hno := hR.absent hx
  have hnown : ∀ k, ¬OwnedBy w i k := by rintro k ⟨o, ho, _⟩; rw [hno] at ho; cases ho
  simp only [construct]
  by_cases h : n ≤ ns
  · rw [if_pos h]
    refine ⟨w.setObj i { ns, stat := List.replicate ns none, dyn := none, ptr := .stat i, cap := ns, used := n },
      { ns, stat := List.replicate ns none, dyn := none, ptr := .stat i, cap := ns, used := n }, rfl, ?_⟩
    rw [← and_assoc]
    refine ⟨?_, rfl, rfl, fun _ _ => rfl⟩
    refine single hI hR i _ _ rfl (fun _ _ _ => rfl) ?_ ?_ ?_ ?_
    · exact ⟨hns, by simp, h, hns, Or.inl ⟨rfl, rfl, rfl⟩⟩
    · intro k hk
      exact ⟨(hI.live k hk).1, Or.inr ⟨hk, hnown k⟩⟩
    · intro k hk; cases hk
    · refine ⟨rfl, ?_⟩
      intro l hl
      cases hl
      refine ⟨List.replicate ns none, by simp [World.block, World.setObj], ?_⟩
      exact covers_take_replicate (by simpa using h)
  · rw [if_neg h]
    have hf : ∀ k, w.heap k ≠ none → ((w.alloc n).setObj i
      { ns, stat := List.replicate ns none, dyn := some w.next, ptr := .heap w.next, cap := n, used := n }).heap k = w.heap k := by
      intro k hk
      simp only [World.setObj, World.alloc]
      apply upd_ne
      intro he; rw [he, hI.fresh] at hk; exact hk rfl
    refine ⟨(w.alloc n).setObj i
      { ns, stat := List.replicate ns none, dyn := some w.next, ptr := .heap w.next, cap := n, used := n },
      { ns, stat := List.replicate ns none, dyn := some w.next, ptr := .heap w.next, cap := n, used := n }, rfl, ?_⟩
    rw [← and_assoc]
    refine ⟨?_, rfl, rfl, hf⟩
    refine single hI hR i _ _ rfl (fun k hk _ => hf k hk) ?_ ?_ ?_ ?_
    · exact ⟨hns, by simp, Nat.le_refl n, by simp only; omega,
        Or.inr ⟨w.next, _, rfl, rfl, by simp [World.setObj, World.alloc]; rfl, by simp⟩⟩
    · intro k hk
      simp only [World.setObj, World.alloc, upd] at hk ⊢
      by_cases hkn : k = w.next
      · exact ⟨by omega, Or.inl (by rw [hkn])⟩
      · rw [if_neg hkn] at hk
        have := (hI.live k hk).1
        exact ⟨by omega, Or.inr ⟨hk, hnown k⟩⟩
    · intro k hk; cases hk; exact Or.inr hI.fresh
    · refine ⟨rfl, ?_⟩
      intro l hl
      cases hl
      refine ⟨List.replicate n none, by simp [World.block, World.setObj, World.alloc], ?_⟩
      exact covers_take_replicate (by simp)

theorem copyInto_ok {a : AState α} {w : World α} (hI : Inv w) (hR : R a w) {i j : Nat} {x y : Abs α}
    (hij : j ≠ i) (hx : a i = some x) (hy : a j = some y) :
    ∃ w', copyInto w i j = some w' ∧ Inv w' ∧ R (a.put i (some ⟨x.ns, y.contents⟩)) w' := by
  obtain ⟨o, ho, hrel⟩ := hR.object hx
  obtain ⟨oj, hj, hrelj⟩ := hR.object hy
  have hw := hI.wf i o ho
  have hwj := hI.wf j oj hj
  -- it suffices to reach a state with storage for the elements
  suffices H : ∃ w1 o1, storageFor w i oj.used = some w1 ∧
      w1.obj i = some o1 ∧ o1.used = oj.used ∧ w1.obj j = some oj ∧ Inv w1 ∧
      ∃ c, R (a.put i (some ⟨x.ns, c⟩)) w1 by
    obtain ⟨w1, o1, h1, h2, h3, h4, h5, c, h6⟩ := H
    obtain ⟨w', e1, e2, e3⟩ := copyN_ok h5 h6 h2 h4 (put_self _ _ _) (by rw [put_ne _ _ hij]; exact hy) h3.symm
    refine ⟨w', ?_, e2, ?_⟩
    · simp only [copyInto, hj, h1, Option.bind_eq_bind, Option.bind_some, h2, e1]
    · simpa using e3
  simp only [storageFor, ho, Option.bind_eq_bind, Option.bind_some]
  by_cases hs : oj.used ≤ o.ns
  · rw [if_pos hs]
    obtain ⟨w1, h1, h2, h3, h4, _⟩ := toStatic_ok hI hR ho hx hs
    exact ⟨w1, { o with dyn := none, ptr := .stat i, cap := o.ns, used := oj.used }, h1,
      by rw [h2]; exact upd_self _ _ _, rfl, by rw [h2, upd_ne _ _ hij]; exact hj, h3, _, h4⟩
  · rw [if_neg hs]
    by_cases hd : o.dyn.map Loc.heap ≠ some o.ptr ∨ o.cap < oj.used
    · rw [if_pos hd]
      have hfree : (w.alloc oj.used).free o.dyn =
          some { (w.alloc oj.used) with heap := heapMinus (w.alloc oj.used) o.dyn } := by
        apply free_ok
        intro k hk
        obtain ⟨b', hb', _⟩ := hI.owned ho hk
        simp only [World.alloc]
        rw [upd_ne _ _ (hI.dyn_ne_next ho hk), hb']; simp
      have hheap : ∀ k, heapMinus (w.alloc oj.used) o.dyn k =
          if k = w.next then some (List.replicate oj.used none)
          else if o.dyn = some k then none else w.heap k := by
        intro k
        simp only [heapMinus, World.alloc, upd]
        by_cases hk : k = w.next
        · have : ¬ o.dyn = some k := fun h => hI.dyn_ne_next ho h hk
          simp [hk, hk ▸ this]
        · simp [hk]
      simp only [hfree, Option.bind_some]
      refine ⟨_, { o with dyn := some w.next, ptr := .heap w.next, cap := oj.used, used := oj.used }, rfl,
        by simp only [World.setObj]; exact upd_self _ _ _, rfl,
        by simp only [World.setObj, World.alloc]; rw [upd_ne _ _ hij]; exact hj, ?_⟩
      have := single (w' := (World.setObj { (w.alloc oj.used) with heap := heapMinus (w.alloc oj.used) o.dyn } i
          { o with dyn := some w.next, ptr := .heap w.next, cap := oj.used, used := oj.used })) hI hR i
        { o with dyn := some w.next, ptr := .heap w.next, cap := oj.used, used := oj.used } ⟨x.ns, none⟩ rfl ?_ ?_ ?_ ?_ ?_
      · exact ⟨this.1, none, this.2⟩
      · intro k hk hko
        rw [ownedBy_iff ho] at hko
        simp only [World.setObj, hheap]
        have : k ≠ w.next := by intro h; rw [h, hI.fresh] at hk; exact hk rfl
        simp [this, hko]
      · refine ⟨hw.ns, hw.stat, Nat.le_refl _, by have := hw.ns; simp only; omega,
          Or.inr ⟨w.next, _, rfl, rfl, by simp only [World.setObj, hheap, if_true]; rfl, by simp⟩⟩
      · intro k hk
        simp only [World.setObj, hheap] at hk ⊢
        simp only [World.alloc]
        by_cases hkn : k = w.next
        · exact ⟨by omega, Or.inl (by rw [hkn])⟩
        · rw [if_neg hkn] at hk
          split at hk
          · exact absurd rfl hk
          · rename_i hdk
            have := (hI.live k hk).1
            refine ⟨by omega, Or.inr ⟨hk, ?_⟩⟩
            rw [ownedBy_iff ho]; exact hdk
      · intro k hk; cases hk; exact Or.inr hI.fresh
      · exact ⟨hrel.1, fun l hl => by cases hl⟩
    · rw [if_neg hd]
      have hcap : oj.used ≤ o.cap := by
        apply Classical.byContradiction
        intro h; exact hd (Or.inr (by omega))
      obtain ⟨h1, h2⟩ := setUsed_ok hI hR ho hx hcap
      exact ⟨_, { o with used := oj.used }, rfl, by simp only [World.setObj]; exact upd_self _ _ _, rfl,
        by simp only [World.setObj]; rw [upd_ne _ _ hij]; exact hj, h1, _, h2⟩

theorem steal_ok {a : AState α} {w : World α} (hI : Inv w) (hR : R a w) {i j : Nat} {x y : Abs α} {oj : Obj α}
    (hij : j ≠ i) (hx : a i = some x) (hy : a j = some y) (hj : w.obj j = some oj)
    (hd : oj.dyn.map Loc.heap = some oj.ptr) :
    ∃ w', steal w i j = some w' ∧ Inv w' ∧
      R ((a.put i (some ⟨x.ns, y.contents⟩)).put j (some ⟨y.ns, none⟩)) w' := by
  obtain ⟨o, ho, hrel⟩ := hR.object hx
  obtain ⟨y', hy', hrelj⟩ := hR.abs hj
  rw [hy] at hy'; cases hy'
  have hw := hI.wf i o ho
  have hwj := hI.wf j oj hj
  obtain ⟨k, hk⟩ : ∃ k, oj.dyn = some k := by
    cases h : oj.dyn with
    | none => rw [h] at hd; cases hd
    | some k => exact ⟨k, rfl⟩
  obtain ⟨b, hb, hbl, hbp⟩ := hI.owned hj hk
  have hdk : ¬ o.dyn = some k := fun h => hij (hI.uniq j i oj o k hj ho hk h)
  let oi' : Obj α := { o with dyn := oj.dyn, ptr := oj.ptr, cap := oj.cap, used := oj.used }
  let oj' : Obj α := { oj with dyn := none, ptr := .stat j, cap := oj.ns, used := 0 }
  let w' : World α := { obj := upd (upd w.obj i (some oi')) j (some oj'), heap := heapMinus w o.dyn, next := w.next }
  have hi' : w'.obj i = some oi' := by
    simp only [w']; rw [upd_ne _ _ (Ne.symm hij)]; exact upd_self _ _ _
  have hj' : w'.obj j = some oj' := upd_self _ _ _
  have hoth : ∀ l, l ≠ i → l ≠ j → w'.obj l = w.obj l := by
    intro l h1 h2
    simp only [w']; rw [upd_ne _ _ h2, upd_ne _ _ h1]
  have hheapk : w'.heap k = some b := by simp only [w', heapMinus, if_neg hdk]; exact hb
  have hfr : ∀ m, w.heap m ≠ none → ¬OwnedBy w i m → w'.heap m = w.heap m := by
    intro m _ hm
    rw [ownedBy_iff ho] at hm
    simp only [w', heapMinus, if_neg hm]
  refine ⟨w', ?_, ⟨?_, ?_, ?_⟩, ?_⟩
  · simp only [steal, ho, Option.bind_eq_bind, Option.bind_some, hI.free ho, hj]
    rfl
  · intro l ol hol
    by_cases hl : l = j
    · subst hl; rw [hj'] at hol; injection hol with hol; subst hol
      exact ⟨hwj.ns, hwj.stat, Nat.zero_le _, hwj.ns, Or.inl ⟨rfl, rfl, rfl⟩⟩
    · by_cases hli : l = i
      · subst hli; rw [hi'] at hol; injection hol with hol; subst hol
        exact ⟨hw.ns, hw.stat, hwj.used, hwj.cap, Or.inr ⟨k, b, hbp, hk, hheapk, hbl⟩⟩
      · rw [hoth l hli hl] at hol
        have hwl := hI.wf l ol hol
        refine ⟨hwl.ns, hwl.stat, hwl.used, hwl.cap, ?_⟩
        rcases hwl.storage with h | ⟨m, bm, e1, e2, e3, e4⟩
        · exact Or.inl h
        · refine Or.inr ⟨m, bm, e1, e2, ?_, e4⟩
          rw [hfr m (by rw [e3]; simp)]
          · exact e3
          · rw [ownedBy_iff ho]; intro h; exact hli (hI.uniq l i ol o m hol ho e2 h)
  · -- the owner of `m` in the new state is the old owner, with `j` renamed to `i`
    have key : ∀ l ol m, w'.obj l = some ol → ol.dyn = some m →
        ∃ l0 ol0, w.obj l0 = some ol0 ∧ ol0.dyn = some m ∧ (l = i ∧ l0 = j ∨ l ≠ i ∧ l ≠ j ∧ l0 = l) := by
      intro l ol m hol hm
      by_cases hl : l = j
      · subst hl; rw [hj'] at hol; injection hol with hol; subst hol; cases hm
      · by_cases hli : l = i
        · subst hli; rw [hi'] at hol; injection hol with hol; subst hol
          exact ⟨j, oj, hj, hm, Or.inl ⟨rfl, rfl⟩⟩
        · rw [hoth l hli hl] at hol
          exact ⟨l, ol, hol, hm, Or.inr ⟨hli, hl, rfl⟩⟩
    intro p q op oq m hp hq hm hm'
    obtain ⟨p0, op0, e1, e2, e3⟩ := key p op m hp hm
    obtain ⟨q0, oq0, f1, f2, f3⟩ := key q oq m hq hm'
    have := hI.uniq p0 q0 op0 oq0 m e1 f1 e2 f2
    rcases e3 with ⟨h1, h2⟩ | ⟨h1, h2, h3⟩ <;> rcases f3 with ⟨g1, g2⟩ | ⟨g1, g2, g3⟩ <;> omega
  · intro m hm
    simp only [w', heapMinus] at hm
    split at hm
    · exact absurd rfl hm
    · rename_i hdm
      obtain ⟨hlt, l, ol, hol, hdl⟩ := hI.live m hm
      refine ⟨hlt, ?_⟩
      by_cases hl : l = j
      · subst hl; rw [hj] at hol; cases hol
        exact ⟨i, oi', hi', hdl⟩
      · by_cases hli : l = i
        · subst hli; rw [ho] at hol; cases hol; exact absurd hdl hdm
        · exact ⟨l, ol, by rw [hoth l hli hl]; exact hol, hdl⟩
  · intro l
    by_cases hl : l = j
    · subst hl; rw [put_self, hj']
      exact ⟨hrelj.1, fun l hl => by cases hl⟩
    · rw [put_ne _ _ hl]
      by_cases hli : l = i
      · subst hli; rw [put_self, hi']
        refine ⟨hrel.1, ?_⟩
        intro c hc
        obtain ⟨b', hb', hcov⟩ := hrelj.2 c hc
        refine ⟨b', ?_, hcov⟩
        simp only [oi']
        rw [hbp] at hb' ⊢
        simp only [World.block] at hb' ⊢
        rw [hheapk, ← hb, hb']
      · rw [put_ne _ _ hli, hoth l hli hl]
        have := hR l
        cases hol : w.obj l with
        | none => rw [hol] at this; cases hal : a l with
          | none => trivial
          | some x => rw [hal] at this; exact absurd this id
        | some ol =>
          rw [hol] at this
          cases hal : a l with
          | none => rw [hal] at this; exact absurd this id
          | some z =>
            rw [hal] at this
            refine ⟨this.1, ?_⟩
            intro c hc
            rw [frame_block hI hol hli (hoth l hli hl) hfr]
            exact this.2 c hc

theorem moveAssign_ok {a : AState α} {w : World α} (hI : Inv w) (hR : R a w) {i j : Nat} {x y : Abs α}
    (hij : j ≠ i) (hx : a i = some x) (hy : a j = some y) :
    ∃ w', moveAssign w i j = some w' ∧ Inv w' ∧
      R ((a.put i (some ⟨x.ns, y.contents⟩)).put j (some ⟨y.ns, none⟩)) w' := by
  obtain ⟨oj, hj, hrelj⟩ := hR.object hy
  simp only [moveAssign, hj, Option.bind_eq_bind, Option.bind_some]
  by_cases hd : oj.dyn.map Loc.heap = some oj.ptr
  · rw [if_pos hd]
    exact steal_ok hI hR hij hx hy hj hd
  · rw [if_neg hd]
    obtain ⟨w', h1, h2, h3⟩ := copyInto_ok hI hR hij hx hy
    refine ⟨w', h1, h2, ?_⟩
    -- forgetting the contents of the source
    intro l
    by_cases hl : l = j
    · subst hl
      rw [put_self]
      obtain ⟨ol, hol, hr⟩ := h3.object (i := l) (x := y) (by rw [put_ne _ _ hij]; exact hy)
      rw [hol]
      exact ⟨hr.1, fun c hc => by cases hc⟩
    · rw [put_ne _ _ hl]; exact h3 l

theorem pushBack_ok {a : AState α} {w : World α} (hI : Inv w) (hR : R a w) {i : Nat} {v : α} {x : Abs α}
    (hx : a i = some x) :
    ∃ w', pushBack w i v = some w' ∧ Inv w' ∧ R (a.put i (some ⟨x.ns, x.contents.map (· ++ [some v])⟩)) w' := by
  obtain ⟨o, ho, hrel⟩ := hR.object hx
  have hw := hI.wf i o ho
  -- growth
  obtain ⟨w1, o1, h1, hI1, hR1, ho1, hlt⟩ : ∃ w1 o1, pushGrow w i = some w1 ∧ Inv w1 ∧ R a w1 ∧ w1.obj i = some o1 ∧
      o1.used < o1.cap := by
    simp only [pushGrow, ho, Option.bind_eq_bind, Option.bind_some]
    by_cases h : o.used = o.cap
    · rw [if_pos h]
      obtain ⟨w1, o1, e1, e2, e3, e4, e5, e6⟩ := reserve_ok hI hR (n := o.cap * 2) ho
      refine ⟨w1, o1, e1, e2, e3, e4, ?_⟩
      have := hw.cap
      rw [e5, e6]; omega
    · rw [if_neg h]
      exact ⟨w, o, rfl, hI, hR, ho, by have := hw.used; omega⟩
  -- store
  obtain ⟨x', hx', hrel1⟩ := hR1.abs ho1
  rw [hx] at hx'; cases hx'
  obtain ⟨b, hb, hbl⟩ := hI1.wfBlock ho1
  have hw1 := hI1.wf i o1 ho1
  have hstore : w1.store o1.ptr o1.used (some v) = some (w1.setBlock o1.ptr (b.set o1.used (some v))) := by
    simp only [World.store, hb, Option.bind_eq_bind, Option.bind_some]
    rw [if_pos (by omega)]
  -- first count the element, then write it: the same final state
  obtain ⟨hI2, hR2, o2, ho2, hu2, hc2, hp2⟩ := setBlock_ok hI1 hR1 ho1 (b := b.set o1.used (some v))
    (by simp [hbl]) x.contents hx (by
      intro l hl
      obtain ⟨b', hb', hc⟩ := hrel1.2 l hl
      rw [hb] at hb'; cases hb'
      rw [List.take_set_of_le (Nat.le_refl _)]
      exact hc)
  have hx2 : (a.put i (some ⟨x.ns, x.contents⟩)) i = some ⟨x.ns, x.contents⟩ := put_self _ _ _
  have hb2 : (w1.setBlock o1.ptr (b.set o1.used (some v))).block o2.ptr = some (b.set o1.used (some v)) := by
    rw [hp2]
    rcases hw1.storage with ⟨q1, _, _⟩ | ⟨k, b', q1, _⟩
    · rw [q1]; simp [World.setBlock, World.block, ho1]
    · rw [q1]; simp [World.setBlock, World.block]
  have hblock3 : ((w1.setBlock o1.ptr (b.set o1.used (some v))).setObj i { o2 with used := o2.used + 1 }).block o2.ptr
      = some (b.set o1.used (some v)) := by
    rw [← hb2]
    have hw2 := hI2.wf i o2 ho2
    rcases hw2.storage with ⟨q1, _, _⟩ | ⟨k, b', q1, _⟩
    · rw [q1]; simp only [World.setObj, World.block, upd_self, ho2, Option.map_some]
    · rw [q1]; rfl
  refine ⟨(w1.setBlock o1.ptr (b.set o1.used (some v))).setObj i { o2 with used := o2.used + 1 }, ?_, ?_⟩
  · simp only [pushBack, h1, pushStore, ho1, hstore, ho2, Option.bind_eq_bind, Option.bind_some]
  · have hw2 := hI2.wf i o2 ho2
    have := single hI2 hR2 (w' := (w1.setBlock o1.ptr (b.set o1.used (some v))).setObj i { o2 with used := o2.used + 1 })
      i { o2 with used := o2.used + 1 } ⟨x.ns, x.contents.map (· ++ [some v])⟩ rfl (fun _ _ _ => rfl) ?_ ?_ ?_ ?_
    · rw [put_put] at this; exact this
    · exact ⟨hw2.ns, hw2.stat, by simp only; omega, hw2.cap, hw2.storage⟩
    · intro k hk
      refine ⟨(hI2.live k hk).1, ?_⟩
      by_cases h : o2.dyn = some k
      · exact Or.inl h
      · exact Or.inr ⟨hk, by rw [ownedBy_iff ho2]; exact h⟩
    · intro k hk; exact Or.inl ⟨o2, ho2, hk⟩
    · obtain ⟨z, hz, hrz⟩ := hR2.abs ho2
      rw [hx2] at hz; cases hz
      refine ⟨hrz.1, ?_⟩
      intro l hl
      refine ⟨_, hblock3, ?_⟩
      simp only [Option.map_eq_some_iff] at hl
      obtain ⟨l0, hl0, rfl⟩ := hl
      obtain ⟨b', hb', hc⟩ := hrel1.2 l0 hl0
      rw [hb] at hb'; cases hb'
      have hlen : l0.length = o1.used := by
        have := hc.1; simp only [List.length_take] at this; omega
      have he : (b.set o1.used (some v)).take (o2.used + 1) = b.take o1.used ++ [some v] := by
        rw [hu2]
        apply List.ext_getElem?
        intro m
        rw [List.getElem?_take, List.getElem?_set, List.getElem?_append, List.getElem?_take]
        simp only [List.length_take]
        by_cases hm : m < o1.used
        · rw [if_pos (by omega), if_neg (by omega), if_pos (by omega), if_pos hm]
        · by_cases hm' : m = o1.used
          · subst hm'
            rw [if_pos (by omega), if_pos rfl, if_pos (by omega), if_neg (by omega)]
            have : o1.used - min o1.used b.length = 0 := by omega
            rw [this]; rfl
          · rw [if_neg (by omega), if_neg (by omega)]
            rw [List.getElem?_eq_none]
            simp only [List.length_cons, List.length_nil]; omega
      simp only [he]
      refine ⟨by simp only [List.length_append, hc.1], ?_⟩
      intro idx u hu
      rw [List.getElem?_append] at hu ⊢
      have hlen' := hc.1
      by_cases hidx : idx < l0.length
      · rw [if_pos hidx] at hu
        rw [if_pos (by rw [← hc.1]; exact hidx)]
        exact hc.2 idx u hu
      · rw [if_neg hidx] at hu
        rw [if_neg (by rw [← hc.1]; exact hidx), ← hc.1]
        exact hu

theorem write_ok {a : AState α} {w : World α} (hI : Inv w) (hR : R a w) {i idx : Nat} {v : α} {x : Abs α}
    {l : List (Option α)} (hx : a i = some x) (hl : x.contents = some l) (hidx : idx < l.length) :
    ∃ w', write w i idx v = some w' ∧ Inv w' ∧ R (a.put i (some ⟨x.ns, some (l.set idx (some v))⟩)) w' := by
  obtain ⟨o, ho, hrel⟩ := hR.object hx
  have hw := hI.wf i o ho
  obtain ⟨b, hb, hbl⟩ := hI.wfBlock ho
  obtain ⟨b', hb', hc⟩ := hrel.2 l hl
  rw [hb] at hb'; cases hb'
  have hlen : l.length = o.used := by
    have h1 := hc.1
    have h2 := hw.used
    simp only [List.length_take] at h1; omega
  have hu := hw.used
  have hs : w.store o.ptr idx (some v) = some (w.setBlock o.ptr (b.set idx (some v))) := by
    simp only [World.store, hb, Option.bind_eq_bind, Option.bind_some]
    rw [if_pos (by omega)]
  refine ⟨w.setBlock o.ptr (b.set idx (some v)), by simp only [write, ho, hs, Option.bind_eq_bind, Option.bind_some], ?_⟩
  have := setBlock_ok hI hR ho (b := b.set idx (some v)) (by simp [hbl]) (some (l.set idx (some v))) hx ?_
  · exact ⟨this.1, this.2.1⟩
  · intro m hm
    cases hm
    refine ⟨by simp only [List.length_set, List.length_take]; omega, ?_⟩
    intro p u hp
    rw [List.getElem?_set] at hp
    rw [List.getElem?_take, List.getElem?_set]
    by_cases hpi : idx = p
    · rw [if_pos hpi] at hp
      rw [if_pos (by omega), if_pos hpi, if_pos (by omega)]
      split at hp
      · exact hp
      · exact absurd hidx (by assumption)
    · rw [if_neg hpi] at hp
      have := hc.2 p u hp
      rw [List.getElem?_take] at this
      rw [if_neg hpi]; exact this

theorem resizeStatic_ok {a : AState α} {w : World α} (hI : Inv w) (hR : R a w) {i : Nat} {x : Abs α}
    (hx : a i = some x) : ∃ w', resizeStatic w i = some w' ∧ Inv w' ∧ R (a.put i (some (x.resize x.ns))) w' := by
  obtain ⟨o, ho, hrel⟩ := hR.object hx
  have hw := hI.wf i o ho
  obtain ⟨b, hb, hbl⟩ := hI.wfBlock ho
  simp only [resizeStatic, ho, Option.bind_eq_bind, Option.bind_some]
  rcases hw.storage with ⟨h1, h2, h3⟩ | ⟨k, b', h1, hd, hb', hbl'⟩
  · rw [if_neg (by rw [h2, h1]; simp)]
    refine ⟨_, rfl, ?_⟩
    have := setUsed_ok hI hR ho hx (n := o.cap) (Nat.le_refl _)
    have he : x.ns = o.cap := by rw [hrel.1, h3]
    rw [he]; exact this
  · rw [if_pos (by rw [hd, h1]; rfl)]
    have hbk : b = b' := by
      rw [h1] at hb; simp only [World.block] at hb; rw [hb] at hb'; exact Option.some.inj hb'
    subst hbk
    have hs := hw.stat
    have hu := hw.used
    have hn : min o.used o.ns ≤ o.ns := Nat.min_le_right _ _
    -- the copy into the static array
    have hcp : w.copyN o.ptr (min o.used o.ns) (.stat i) =
        some { w with obj := upd w.obj i (some { o with stat := b.take (min o.used o.ns) ++ o.stat.drop (min o.used o.ns) }) } := by
      simp only [World.copyN, hb, Option.bind_eq_bind, Option.bind_some]
      simp only [World.block, ho, Option.map_some, Option.bind_some, World.setBlock]
      rw [if_pos ⟨by omega, by omega⟩]
    have hobj : ({ w with obj := upd w.obj i (some { o with stat := b.take (min o.used o.ns) ++ o.stat.drop (min o.used o.ns) }) } : World α).obj i
        = some { o with stat := b.take (min o.used o.ns) ++ o.stat.drop (min o.used o.ns) } := upd_self _ _ _
    have hfree : ({ w with obj := upd w.obj i (some { o with stat := b.take (min o.used o.ns) ++ o.stat.drop (min o.used o.ns) }) } : World α).free o.dyn
        = some { w with obj := upd w.obj i (some { o with stat := b.take (min o.used o.ns) ++ o.stat.drop (min o.used o.ns) }), heap := heapMinus w o.dyn } := by
      apply free_ok
      intro m hm
      rw [hd] at hm; cases hm; rw [hb']; simp
    rw [hcp]
    simp only [toStatic, Option.bind_eq_bind]
    rw [Option.bind_some, hobj, Option.bind_some, hfree, Option.bind_some, Option.bind_some]
    simp only [World.setObj, upd_self, Option.bind_some, upd_upd]
    refine ⟨_, rfl, ?_⟩
    refine single hI hR i _ _ rfl ?_ ?_ ?_ ?_ ?_
    · intro m hm hmo
      rw [ownedBy_iff ho] at hmo
      simp [heapMinus, hmo]
    · refine ⟨hw.ns, ?_, Nat.le_refl _, hw.ns, Or.inl ⟨rfl, rfl, rfl⟩⟩
      simp only [List.length_append, List.length_take, List.length_drop]
      omega
    · intro m hm
      simp only [heapMinus] at hm
      split at hm
      · exact absurd rfl hm
      · rename_i hdm
        exact ⟨(hI.live m hm).1, Or.inr ⟨hm, by rw [ownedBy_iff ho]; exact hdm⟩⟩
    · intro m hm; cases hm
    · refine ⟨hrel.1, ?_⟩
      intro l hl
      refine ⟨b.take (min o.used o.ns) ++ o.stat.drop (min o.used o.ns), by simp [World.block], ?_⟩
      simp only [Abs.resize, Option.some.injEq] at hl
      subst hl
      have hlen : (b.take (min o.used o.ns) ++ o.stat.drop (min o.used o.ns)).length = o.ns := by
        simp only [List.length_append, List.length_take, List.length_drop]; omega
      simp only
      rw [List.take_of_length_le (by omega)]
      cases hc : x.contents with
      | none =>
        refine ⟨?_, ?_⟩
        · rw [hlen]; simp [resized, hrel.1]
        · intro idx v hv
          simp only [resized, Option.getD_none, List.take_nil, List.nil_append, List.getElem?_replicate] at hv
          split at hv <;> simp at hv
      | some l =>
        obtain ⟨b0, hb0, hcov⟩ := hrel.2 l hc
        rw [hb] at hb0; cases hb0
        have hl := hcov.1
        simp only [List.length_take] at hl
        refine ⟨?_, ?_⟩
        · rw [hlen]; simp [resized, hrel.1]; omega
        · intro idx v hv
          simp only [resized, Option.getD_some] at hv
          rw [List.getElem?_append] at hv
          split at hv
          · rename_i hlt
            simp only [List.length_take] at hlt
            rw [List.getElem?_take] at hv
            split at hv
            · have h1 := hcov.2 idx v hv
              have h2 := hrel.1
              rw [List.getElem?_take] at h1
              rw [List.getElem?_append, if_pos (by simp only [List.length_take]; omega), List.getElem?_take,
                if_pos (by omega)]
              split at h1
              · exact h1
              · cases h1
            · cases hv
          · rw [List.getElem?_replicate] at hv
            split at hv <;> simp at hv

theorem destroy_ok {a : AState α} {w : World α} (hI : Inv w) (hR : R a w) {i : Nat} {x : Abs α}
    (hx : a i = some x) : ∃ w', destroy w i = some w' ∧ Inv w' ∧ R (a.put i none) w' := by
  obtain ⟨o, ho, hrel⟩ := hR.object hx
  refine ⟨{ obj := upd w.obj i none, heap := heapMinus w o.dyn, next := w.next }, ?_, ⟨?_, ?_, ?_⟩, ?_⟩
  · simp only [destroy, ho, hI.free ho, Option.bind_eq_bind, Option.bind_some]
  · intro j oj hj
    simp only [upd] at hj
    split at hj
    · cases hj
    · rename_i hji
      have hwj := hI.wf j oj hj
      refine ⟨hwj.ns, hwj.stat, hwj.used, hwj.cap, ?_⟩
      rcases hwj.storage with h | ⟨m, bm, e1, e2, e3, e4⟩
      · exact Or.inl h
      · refine Or.inr ⟨m, bm, e1, e2, ?_, e4⟩
        simp only [heapMinus]
        rw [if_neg]
        · exact e3
        · intro h; exact hji (hI.uniq j i oj o m hj ho e2 h)
  · intro p q op oq m hp hq
    simp only [upd] at hp hq
    split at hp
    · cases hp
    · split at hq
      · cases hq
      · exact hI.uniq p q op oq m hp hq
  · intro m hm
    simp only [heapMinus] at hm
    split at hm
    · exact absurd rfl hm
    · rename_i hdm
      obtain ⟨h1, j, oj, hj, hdj⟩ := hI.live m hm
      refine ⟨h1, j, oj, ?_, hdj⟩
      simp only [upd]
      rw [if_neg]
      · exact hj
      · intro h; subst h; rw [ho] at hj; cases hj; exact hdm hdj
  · intro j
    by_cases hj : j = i
    · subst hj; simp [upd]
    · rw [put_ne _ _ hj]
      have hoj' : ({ obj := upd w.obj i none, heap := heapMinus w o.dyn, next := w.next } : World α).obj j = w.obj j :=
        upd_ne _ _ hj
      rw [hoj']
      have := hR j
      cases hoj : w.obj j with
      | none => rw [hoj] at this; cases haj : a j with
        | none => trivial
        | some x => rw [haj] at this; exact absurd this id
      | some oj =>
        rw [hoj] at this
        cases haj : a j with
        | none => rw [haj] at this; exact absurd this id
        | some z =>
          rw [haj] at this
          refine ⟨this.1, ?_⟩
          intro c hc
          rw [frame_block hI hoj hj hoj' ?_]
          · exact this.2 c hc
          · intro m _ hm
            rw [ownedBy_iff ho] at hm
            simp [heapMinus, hm]

/-- Every allowed operation is defined, keeps the invariant, and has the specified effect. -/
theorem step_ok {a : AState α} {w : World α} (hI : Inv w) (hR : R a w) (op : Op α) (h : Allowed a op) :
    ∃ w', step w op = some w' ∧ Inv w' ∧ R (specStep a op) w' := by
  cases op with
  | construct i ns n =>
    obtain ⟨w', _, h1, h2, h3, _⟩ := construct_ok hI hR (n := n) h.1 h.2
    exact ⟨w', h1, h2, h3⟩
  | destroy i =>
    obtain ⟨x, hx⟩ := Option.ne_none_iff_exists'.mp h
    obtain ⟨w', h1, h2, h3⟩ := destroy_ok hI hR hx
    exact ⟨w', h1, h2, h3⟩
  | resize i n =>
    obtain ⟨x, hx⟩ := Option.ne_none_iff_exists'.mp h
    obtain ⟨w', h1, h2, h3⟩ := resize_ok hI hR (n := n) hx
    exact ⟨w', h1, h2, by simpa [specStep, hx] using h3⟩
  | reserve i n =>
    obtain ⟨x, hx⟩ := Option.ne_none_iff_exists'.mp h
    obtain ⟨o, ho, _⟩ := hR.object hx
    obtain ⟨w', _, h1, h2, h3, _⟩ := reserve_ok hI hR (n := n) ho
    exact ⟨w', h1, h2, h3⟩
  | resizeStatic i =>
    obtain ⟨x, hx⟩ := Option.ne_none_iff_exists'.mp h
    obtain ⟨w', h1, h2, h3⟩ := resizeStatic_ok hI hR hx
    exact ⟨w', h1, h2, by simpa [specStep, hx] using h3⟩
  | clear i =>
    obtain ⟨x, hx⟩ := Option.ne_none_iff_exists'.mp h
    obtain ⟨o, ho, _⟩ := hR.object hx
    obtain ⟨w', h1, _, h2, h3, _⟩ := toStatic_ok hI hR ho hx (Nat.zero_le _)
    exact ⟨w', h1, h2, by simpa [specStep, hx] using h3⟩
  | pushBack i v =>
    obtain ⟨x, hx⟩ := Option.ne_none_iff_exists'.mp h
    obtain ⟨w', h1, h2, h3⟩ := pushBack_ok hI hR (v := v) hx
    exact ⟨w', h1, h2, by simpa [specStep, hx] using h3⟩
  | write i idx v =>
    obtain ⟨x, l, hx, hl, hidx⟩ := h
    obtain ⟨w', h1, h2, h3⟩ := write_ok hI hR (v := v) hx hl hidx
    exact ⟨w', h1, h2, by simpa [specStep, hx, hl] using h3⟩
  | copyConstruct i ns j =>
    obtain ⟨hi, hns, y, hy, hne⟩ := h
    have hij : j ≠ i := by intro h; rw [h, hi] at hy; cases hy
    obtain ⟨w1, o1, h1, h2, h3, h4, h5, _⟩ := construct_ok hI hR (n := 0) hi hns
    obtain ⟨w', e1, e2, e3⟩ := copyInto_ok h2 h3 hij (put_self _ _ _) (by rw [put_ne _ _ hij]; exact hy)
    refine ⟨w', ?_, e2, ?_⟩
    · simp only [step, copyConstruct, h1, Option.bind_eq_bind, Option.bind_some]; exact e1
    · simpa [specStep, hy] using e3
  | moveConstruct i ns j =>
    obtain ⟨hi, hns, y, hy, hne⟩ := h
    have hij : j ≠ i := by intro h; rw [h, hi] at hy; cases hy
    obtain ⟨w1, o1, h1, h2, h3, h4, h5, _⟩ := construct_ok hI hR (n := 0) hi hns
    obtain ⟨w', e1, e2, e3⟩ := moveAssign_ok h2 h3 hij (put_self _ _ _) (by rw [put_ne _ _ hij]; exact hy)
    refine ⟨w', ?_, e2, ?_⟩
    · simp only [step, moveConstruct, h1, Option.bind_eq_bind, Option.bind_some]; exact e1
    · simpa [specStep, hy] using e3
  | copyAssign i j =>
    obtain ⟨x, y, hx, hy, hne⟩ := h
    have hij : j ≠ i := by intro h; rw [h, hx] at hy; cases hy; exact hne rfl
    obtain ⟨w', e1, e2, e3⟩ := copyInto_ok hI hR hij hx hy
    exact ⟨w', e1, e2, by simpa [specStep, hx, hy] using e3⟩
  | moveAssign i j =>
    obtain ⟨x, y, hx, hy, hne⟩ := h
    have hij : j ≠ i := by intro h; rw [h, hx] at hy; cases hy; exact hne rfl
    obtain ⟨w', e1, e2, e3⟩ := moveAssign_ok hI hR hij hx hy
    exact ⟨w', e1, e2, by simpa [specStep, hx, hy] using e3⟩

theorem exec_ok {a : AState α} {w : World α} (hI : Inv w) (hR : R a w) (ops : List (Op α)) (h : AllowedAll a ops) :
    ∃ w', exec w ops = some w' ∧ Inv w' ∧ R (specExec a ops) w' := by
  induction ops generalizing a w with
  | nil => exact ⟨w, rfl, hI, hR⟩
  | cons op ops ih =>
    obtain ⟨w1, h1, h2, h3⟩ := step_ok hI hR op h.1
    obtain ⟨w', e1, e2, e3⟩ := ih h2 h3 h.2
    exact ⟨w', by simp only [exec, h1, Option.bind_some]; exact e1, e2, e3⟩

/-- `push_back` of an element of the buffer itself, when no heap block has to be replaced. -/
theorem pushBackRef_ok {w : World α} (hI : Inv w) {i j : Nat} {v : α} {o : Obj α} (ho : w.obj i = some o)
    (hg : get w i j = some (some v)) (hs : o.used < o.cap ∨ o.ptr = .stat i) :
    pushBackRef w i j = pushBack w i v := by
  have hw := hI.wf i o ho
  simp only [get, ho, Option.bind_some] at hg
  simp only [pushBackRef, pushBack, ho, Option.bind_eq_bind, Option.bind_some]
  by_cases hu : o.used = o.cap
  · have hp : o.ptr = .stat i := by
      rcases hs with h | h
      · omega
      · exact h
    have hc := hw.cap
    cases hpg : pushGrow w i with
    | none => rfl
    | some w1 =>
      simp only [Option.bind_some]
      have hl : w1.load o.ptr j = some (some v) := by
        rw [← hg, hp]
        simp only [pushGrow, ho, Option.bind_eq_bind, Option.bind_some, if_pos hu, reserve] at hpg
        rw [if_pos (by omega)] at hpg
        simp only [grow, ho, Option.bind_eq_bind, Option.bind_some, Option.bind_eq_some_iff] at hpg
        obtain ⟨w2, h2, w3, h3, h4⟩ := hpg
        cases h4
        have e2 : w2.obj = w.obj := by
          simp only [World.copyN, Option.bind_eq_bind, Option.bind_eq_some_iff] at h2
          obtain ⟨b, _, d, _, h2⟩ := h2
          split at h2
          · cases h2; rfl
          · cases h2
        have e3 : w3.obj = w2.obj := by
          cases hd : o.dyn with
          | none => rw [hd] at h3; cases h3; rfl
          | some k =>
            rw [hd] at h3
            simp only [World.free] at h3
            split at h3
            · cases h3
            · cases h3; rfl
        simp only [World.load, World.block, World.setObj, upd_self, ho, Option.map_some]
      rw [hl]; rfl
  · have hpg : pushGrow w i = some w := by
      simp only [pushGrow, ho, Option.bind_eq_bind, Option.bind_some, if_neg hu]
    rw [hpg]
    simp only [Option.bind_some, hg]

theorem inv_empty : Inv (World.empty : World α) := by
  refine ⟨?_, ?_, ?_⟩
  · intro i o h; cases h
  · intro i j oi oj k h; cases h
  · intro k h; exact absurd rfl h

theorem R_empty : R (AState.empty : AState α) World.empty := fun _ => trivial

end Litiv.AutoBuffer
