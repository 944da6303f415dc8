import Verif.Spec.Views
import Mathlib.Data.List.Forall2
import Mathlib.Algebra.BigOperators.Group.List.Basic
import Mathlib.Tactic.Ring
import Mathlib.Tactic.Linarith

namespace Litiv.Views

/-- all indices in row-major order -/
def indices : List Nat → List (List Nat)
  | [] => [[]]
  | n :: ns => (List.range n).flatMap (fun i => (indices ns).map (fun t => i :: t))

theorem mem_indices : ∀ (sizes idx : List Nat), idx ∈ indices sizes ↔ InB sizes idx := by
  intro sizes
  induction sizes with
  | nil =>
    intro idx
    simp only [indices, InB, List.mem_singleton]
    constructor
    · rintro rfl; exact List.Forall₂.nil
    · intro h; cases h; rfl
  | cons n ns ih =>
    intro idx
    simp only [indices, List.mem_flatMap, List.mem_range, List.mem_map]
    constructor
    · rintro ⟨i, hi, t, ht, rfl⟩
      exact List.Forall₂.cons hi ((ih t).mp ht)
    · intro h
      cases h with
      | cons hi ht => exact ⟨_, hi, _, (ih _).mpr ht, rfl⟩

theorem offsets_indices : ∀ dims : List (Nat × Nat),
    offsets dims = (indices (dims.map Prod.fst)).map (addr dims) := by
  intro dims
  induction dims with
  | nil => rfl
  | cons d ds ih =>
    obtain ⟨n, s⟩ := d
    simp only [offsets, List.map_cons, indices, List.map_flatMap, List.map_map]
    congr 1
    funext i
    rw [ih, List.map_map]
    rfl

theorem elems_indices {β : Type} (mem : Nat → β) (m : Mat) (h : m.dims ≠ []) :
    m.elems mem = (indices m.sizes).map (m.elem mem) := by
  unfold Mat.elems
  rw [if_neg h, offsets_indices, List.map_map]
  rfl

theorem indices_length : ∀ sizes : List Nat, (indices sizes).length = sizes.prod := by
  intro sizes
  induction sizes with
  | nil => rfl
  | cons n ns ih => simp [indices, List.length_flatMap, ih, List.prod_cons]

theorem flatMap_get {γ : Type} (P : Nat) : ∀ (n : Nat) (f : Nat → List γ) (i j : Nat),
    (∀ i, (f i).length = P) → i < n → j < P → ((List.range n).flatMap f)[i * P + j]? = (f i)[j]? := by
  intro n
  induction n with
  | zero => intro f i j _ h; omega
  | succ n ih =>
    intro f i j hf hi hj
    rw [List.range_succ, List.flatMap_append]
    have hlen : ((List.range n).flatMap f).length = n * P := by
      simp [List.length_flatMap, hf]
    rcases Nat.lt_or_ge i n with c | c
    · rw [List.getElem?_append_left (by
        rw [hlen]
        calc i * P + j < i * P + P := by omega
          _ = (i + 1) * P := by ring
          _ ≤ n * P := Nat.mul_le_mul_right _ c)]
      exact ih f i j hf c hj
    · have : i = n := by omega
      subst this
      rw [List.getElem?_append_right (by rw [hlen]; omega), hlen]
      simp

theorem lin_lt : ∀ (sizes idx : List Nat), InB sizes idx → lin sizes idx < sizes.prod := by
  intro sizes
  induction sizes with
  | nil => intro idx h; cases h; simp [lin]
  | cons n ns ih =>
    intro idx h
    cases h with
    | @cons _ i _ is hi ht =>
      have := ih is ht
      rw [lin, List.prod_cons]
      calc i * ns.prod + lin ns is < i * ns.prod + ns.prod := by omega
        _ = (i + 1) * ns.prod := by ring
        _ ≤ n * ns.prod := Nat.mul_le_mul_right _ hi

theorem indices_get : ∀ (sizes idx : List Nat), InB sizes idx → (indices sizes)[lin sizes idx]? = some idx := by
  intro sizes
  induction sizes with
  | nil => intro idx h; cases h; rfl
  | cons n ns ih =>
    intro idx h
    cases h with
    | @cons _ i _ is hi ht =>
      rw [indices, lin, flatMap_get ns.prod n _ i _ (fun i => by rw [List.length_map, indices_length]) hi
        (lin_lt ns is ht), List.getElem?_map, ih is ht]
      rfl

theorem elems_get {β : Type} (mem : Nat → β) (m : Mat) (idx : List Nat) (h : m.dims ≠ [])
    (hi : InB m.sizes idx) : (m.elems mem)[lin m.sizes idx]? = some (m.elem mem idx) := by
  rw [elems_indices mem m h, List.getElem?_map, indices_get _ _ hi]
  rfl

/-! ## Continuous matrices -/

theorem packed_addr (esz : Nat) : ∀ (sizes idx : List Nat), InB sizes idx →
    addr (packed esz sizes) idx = lin sizes idx * esz := by
  intro sizes
  induction sizes with
  | nil => intro idx h; cases h; simp [packed, addr, lin]
  | cons n ns ih =>
    intro idx h
    cases h with
    | @cons _ i _ is hi ht =>
      rw [packed, addr, lin, ih is ht]
      ring

theorem packed_sizes (esz : Nat) : ∀ sizes : List Nat, (packed esz sizes).map Prod.fst = sizes := by
  intro sizes
  induction sizes with
  | nil => rfl
  | cons n ns ih => rw [packed, List.map_cons, ih]

theorem contFrom_packed (esz : Nat) : ∀ dims : List (Nat × Nat), Nested esz dims → contFrom dims = true →
    dims = packed esz (dims.map Prod.fst) := by
  intro dims
  induction dims with
  | nil => intro _ _; rfl
  | cons d ds ih =>
    obtain ⟨n, s⟩ := d
    intro hn hc
    cases ds with
    | nil =>
      simp only [Nested] at hn
      simp [packed, hn]
    | cons d' ds =>
      obtain ⟨n1, s1⟩ := d'
      simp only [Nested] at hn
      simp only [contFrom, Bool.and_eq_true, decide_eq_true_eq] at hc
      have := ih hn.2 hc.2
      rw [List.map_cons, packed, ← this]
      have hs : s = ((((n1, s1) :: ds).map Prod.fst).prod * esz) := by
        have h1 : s1 = (ds.map Prod.fst).prod * esz := by
          rw [List.map_cons, packed] at this
          injection this with a b
          injection a
        rw [List.map_cons, List.prod_cons]
        have : s = s1 * n1 := by omega
        rw [this, h1]
        ring
      rw [← hs]

theorem cont_addr (esz : Nat) : ∀ (dims : List (Nat × Nat)) (idx : List Nat), Nested esz dims →
    cont dims = true → InB (dims.map Prod.fst) idx → addr dims idx = lin (dims.map Prod.fst) idx * esz := by
  intro dims
  induction dims with
  | nil => intro idx _ _ h; cases h; simp [addr, lin]
  | cons d ds ih =>
    obtain ⟨n, s⟩ := d
    intro idx hn hc h
    by_cases h1 : n ≤ 1
    · simp only [cont, if_pos h1] at hc
      cases h with
      | @cons _ i _ is hi ht =>
        have : i = 0 := by simp only at hi; omega
        subst this
        have hn' : Nested esz ds := by
          cases ds with
          | nil => trivial
          | cons d' ds => exact hn.2
        rw [addr, List.map_cons, lin, ih is hn' hc ht]
        ring
    · simp only [cont, if_neg h1] at hc
      rw [contFrom_packed esz _ hn hc, packed_sizes]
      exact packed_addr esz _ _ h

theorem range_mul : ∀ n P : Nat, List.range (n * P) =
    (List.range n).flatMap (fun i => (List.range P).map (fun j => i * P + j)) := by
  intro n P
  induction n with
  | zero => simp
  | succ n ih =>
    rw [Nat.succ_mul, List.range_add, ih, List.range_succ, List.flatMap_append]
    simp

theorem lin_indices : ∀ sizes : List Nat, (indices sizes).map (lin sizes) = List.range sizes.prod := by
  intro sizes
  induction sizes with
  | nil => rfl
  | cons n ns ih =>
    rw [List.prod_cons, range_mul, indices, List.map_flatMap]
    congr 1
    funext i
    rw [List.map_map, ← ih, List.map_map]
    rfl

theorem cont_elems {β : Type} (mem : Nat → β) (m : Mat) (hd : m.dims ≠ []) (hn : Nested m.esz m.dims)
    (hc : cont m.dims = true) :
    m.elems mem = (List.range m.total).map (fun k => (List.range m.esz).map (fun c => mem (m.base + k * m.esz + c))) := by
  rw [elems_indices mem m hd, show m.total = m.sizes.prod by unfold Mat.total; rw [if_neg hd],
    ← lin_indices, List.map_map]
  apply List.map_congr_left
  intro idx hi
  rw [mem_indices] at hi
  unfold Mat.elem
  rw [cont_addr m.esz m.dims idx hn hc hi]
  rfl

theorem cont_flatten {β : Type} (mem : Nat → β) (m : Mat) (hd : m.dims ≠ []) (hn : Nested m.esz m.dims)
    (hc : cont m.dims = true) :
    (m.elems mem).flatten = (List.range (m.total * m.esz)).map (fun k => mem (m.base + k)) := by
  rw [cont_elems mem m hd hn hc, range_mul, List.map_flatMap, List.flatMap_def]
  congr 1
  apply List.map_congr_left
  intro k _
  rw [List.map_map]
  apply List.map_congr_left
  intro c _
  simp only [Function.comp]
  rw [Nat.add_assoc]

/-! ## Comparisons -/

theorem equal_iff {γ : Type} (E : γ → γ → Bool) : ∀ x y : List γ, x.length = y.length →
    (equal E x y = true ↔ List.Forall₂ (fun p q => E p q = true) x y) := by
  intro x
  induction x with
  | nil =>
    intro y h
    cases y with
    | nil => simp [equal]
    | cons => simp at h
  | cons p x ih =>
    intro y h
    cases y with
    | nil => simp at h
    | cons q y =>
      have := ih y (by simpa using h)
      simp only [equal, List.zip_cons_cons, List.all_cons, Bool.and_eq_true] at this ⊢
      rw [List.forall₂_cons, this]

theorem equal_eq {γ : Type} (E : γ → γ → Bool) (hE : ∀ p q, E p q = true ↔ p = q) (x y : List γ)
    (h : x.length = y.length) : equal E x y = true ↔ x = y := by
  rw [equal_iff E x y h]
  have : (fun p q => E p q = true) = (fun p q : γ => p = q) := by funext p q; exact propext (hE p q)
  rw [this, List.forall₂_eq_eq_eq]

theorem chunks_flatten {β : Type} (w : Nat) : ∀ (k : Nat) (l : List β), l.length = k * w →
    (chunks w k l).flatten = l := by
  intro k
  induction k with
  | zero => intro l h; rw [Nat.zero_mul] at h; rw [List.length_eq_zero_iff.mp h]; rfl
  | succ k ih =>
    intro l h
    rw [chunks, List.flatten_cons, ih _ (by rw [List.length_drop, h, Nat.succ_mul]; omega),
      List.take_append_drop]

theorem chunks_length {β : Type} (w : Nat) : ∀ (k : Nat) (l : List β), (chunks w k l).length = k := by
  intro k
  induction k with
  | zero => intro l; rfl
  | succ k ih => intro l; rw [chunks, List.length_cons, ih]

theorem flatten_inj {β : Type} (w : Nat) : ∀ x y : List (List β), x.length = y.length →
    (∀ l ∈ x, l.length = w) → (∀ l ∈ y, l.length = w) → x.flatten = y.flatten → x = y := by
  intro x
  induction x with
  | nil => intro y h _ _ _; cases y with
    | nil => rfl
    | cons => simp at h
  | cons p x ih =>
    intro y h hx hy he
    cases y with
    | nil => simp at h
    | cons q y =>
      rw [List.flatten_cons, List.flatten_cons] at he
      have hl : p.length = q.length := by
        rw [hx p (by simp), hy q (by simp)]
      obtain ⟨a, b⟩ := List.append_inj he hl
      rw [a, ih y (by simpa using h) (fun l hl => hx l (by simp [hl])) (fun l hl => hy l (by simp [hl])) b]

theorem elems_length {β : Type} (mem : Nat → β) (m : Mat) (h : m.dims ≠ []) :
    (m.elems mem).length = m.sizes.prod := by
  rw [elems_indices mem m h, List.length_map, indices_length]

/-- equality of the element lists, by index -/
theorem elems_eq_iff {β : Type} (mem : Nat → β) (a b : Mat) (ha : a.dims ≠ []) (hb : b.dims ≠ [])
    (hs : a.sizes = b.sizes) :
    a.elems mem = b.elems mem ↔ ∀ idx, InB a.sizes idx → a.elem mem idx = b.elem mem idx := by
  rw [elems_indices mem a ha, elems_indices mem b hb, ← hs, List.map_inj_left]
  constructor
  · intro h idx hi
    exact h idx ((mem_indices _ _).mpr hi)
  · intro h idx hi
    exact h idx ((mem_indices _ _).mp hi)

/-! ## Selections -/

theorem select_spec : ∀ (dims : List (Nat × Nat)) (base k a b : Nat) (hk : k < dims.length),
    ((select base dims k a b).2.map Prod.fst = (dims.map Prod.fst).set k (b - a)) ∧
    ∀ idx, idx.length = dims.length →
      (select base dims k a b).1 + addr (select base dims k a b).2 idx =
        base + addr dims (idx.modify k (· + a)) := by
  intro dims
  induction dims with
  | nil => intro base k a b hk; simp at hk
  | cons d ds ih =>
    obtain ⟨n, s⟩ := d
    intro base k a b hk
    cases k with
    | zero =>
      refine ⟨by simp [select], ?_⟩
      intro idx hi
      cases idx with
      | nil => simp at hi
      | cons i is =>
        simp only [select, addr, List.modify_zero_cons]
        ring
    | succ k =>
      obtain ⟨h1, h2⟩ := ih base k a b (by simpa using hk)
      refine ⟨by simp [select, h1], ?_⟩
      intro idx hi
      cases idx with
      | nil => simp at hi
      | cons i is =>
        have := h2 is (by simpa using hi)
        simp only [select, addr, List.modify_succ_cons]
        omega

/-! ## Squeezing -/

/-- the dimensions with several elements address the same elements -/
theorem addr_drop : ∀ (dims : List (Nat × Nat)) (idx : List Nat), InB (dims.map Prod.fst) idx →
    addr (dims.filter (fun d => decide (1 < d.1))) (dropSingles (dims.map Prod.fst) idx) = addr dims idx ∧
    InB ((dims.filter (fun d => decide (1 < d.1))).map Prod.fst) (dropSingles (dims.map Prod.fst) idx) ∧
    (dims.filter (fun d => decide (1 < d.1))).map Prod.fst =
      dropSingles (dims.map Prod.fst) (dims.map Prod.fst) := by
  intro dims
  induction dims with
  | nil => intro idx h; cases h; exact ⟨rfl, List.Forall₂.nil, rfl⟩
  | cons d ds ih =>
    obtain ⟨n, s⟩ := d
    intro idx h
    cases h with
    | @cons _ i _ is hi ht =>
      obtain ⟨h1, h2, h3⟩ := ih is ht
      simp only at hi
      by_cases hn : 1 < n
      · simp only [List.map_cons, dropSingles, if_pos hn, List.filter_cons, decide_eq_true hn,
          if_true, addr, h1, h3]
        exact ⟨trivial, List.Forall₂.cons hi (by rw [← h3]; exact h2), trivial⟩
      · simp only [List.map_cons, dropSingles, if_neg hn, List.filter_cons, decide_eq_false hn,
          addr, h1, h3]
        have : i = 0 := by omega
        subst this
        refine ⟨by simp [addr, h1], ?_, by simp [h3]⟩
        simpa using h2

theorem header_append (esz : Nat) : ∀ ds : List (Nat × Nat), header esz (ds ++ [(1, esz)]) = ds ++ [(1, esz)] := by
  intro ds
  induction ds with
  | nil => rfl
  | cons d ds ih =>
    cases ds with
    | nil => rfl
    | cons d' ds => rw [List.cons_append, List.cons_append, header, ← List.cons_append, ih]; simp

theorem addr_append (esz : Nat) : ∀ (ds : List (Nat × Nat)) (idx : List Nat), idx.length = ds.length →
    addr (ds ++ [(1, esz)]) (idx ++ [0]) = addr ds idx := by
  intro ds
  induction ds with
  | nil => intro idx h; rw [List.length_eq_zero_iff.mp h]; simp [addr]
  | cons d ds ih =>
    intro idx h
    cases idx with
    | nil => simp at h
    | cons i is =>
      obtain ⟨n, s⟩ := d
      simp only [List.cons_append, addr]
      rw [ih is (by simpa using h)]

theorem lin_append : ∀ (ns idx : List Nat), idx.length = ns.length → lin (ns ++ [1]) (idx ++ [0]) = lin ns idx := by
  intro ns
  induction ns with
  | nil => intro idx h; rw [List.length_eq_zero_iff.mp h]; simp [lin]
  | cons n ns ih =>
    intro idx h
    cases idx with
    | nil => simp at h
    | cons i is =>
      simp only [List.cons_append, lin]
      rw [ih is (by simpa using h)]
      simp

theorem inB_append (ns idx : List Nat) (h : InB ns idx) : InB (ns ++ [1]) (idx ++ [0]) := by
  unfold InB at *
  exact List.rel_append h (List.Forall₂.cons (by norm_num) List.Forall₂.nil)

end Litiv.Views
