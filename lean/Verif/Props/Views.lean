import Verif.Lemmas.Views
import Mathlib.Algebra.BigOperators.Ring.List

/-!
# C83: selecting, squeezing and concatenating matrices; C84: comparing matrices
-/

namespace Litiv.Views

/-- C83: `getSubMat` is accepted exactly for a dimension and a range within the matrix, and the
result's elements are those of the matrix at the indices shifted by the start of the range. -/
theorem subMat_spec {β : Type} (mem : Nat → β) (m : Mat) (dim a b : Int) :
    ((∃ m', getSubMat m dim a b = some m') ↔
      0 ≤ dim ∧ 0 ≤ a ∧ a ≤ b ∧ ∃ n, m.sizes[dim.toNat]? = some n ∧ b ≤ n) ∧
    ∀ m', getSubMat m dim a b = some m' →
      m'.sizes = m.sizes.set dim.toNat (b - a).toNat ∧
      ∀ idx, InB m'.sizes idx → InB m.sizes (idx.modify dim.toNat (· + a.toNat)) ∧
        m'.elem mem idx = m.elem mem (idx.modify dim.toNat (· + a.toNat)) := by
  constructor
  · unfold getSubMat
    by_cases h0 : dim < 0
    · rw [if_pos h0]
      constructor
      · rintro ⟨m', h⟩; cases h
      · rintro ⟨h, -⟩; omega
    · rw [if_neg h0]
      by_cases h1 : dim.toNat < m.dims.length
      · rw [dif_pos h1]
        have e : m.sizes[dim.toNat]? = some m.dims[dim.toNat].1 := by
          unfold Mat.sizes
          rw [List.getElem?_map, List.getElem?_eq_getElem h1]
          rfl
        by_cases h2 : 0 ≤ a ∧ b ≤ (m.dims[dim.toNat].1 : Int) ∧ a ≤ b
        · rw [if_pos h2]
          constructor
          · intro _
            exact ⟨by omega, h2.1, h2.2.2, _, e, h2.2.1⟩
          · intro _; exact ⟨_, rfl⟩
        · rw [if_neg h2]
          constructor
          · rintro ⟨m', h⟩; cases h
          · rintro ⟨-, ha, hab, n, hn, hb⟩
            rw [e] at hn
            injection hn with hn
            subst hn
            exact absurd ⟨ha, hb, hab⟩ h2
      · rw [dif_neg h1]
        constructor
        · rintro ⟨m', h⟩; cases h
        · rintro ⟨-, -, -, n, hn, -⟩
          unfold Mat.sizes at hn
          rw [List.getElem?_map, List.getElem?_eq_none (by omega)] at hn
          cases hn
  · intro m' h
    unfold getSubMat at h
    split at h
    · cases h
    · split at h
      · rename_i h0 h1
        split at h
        · rename_i h2
          dsimp only at h
          injection h with h
          subst h
          obtain ⟨s1, s2⟩ := select_spec m.dims m.base dim.toNat a.toNat b.toNat h1
          have hsz : Mat.sizes ⟨(select m.base m.dims dim.toNat a.toNat b.toNat).1, m.esz,
              (select m.base m.dims dim.toNat a.toNat b.toNat).2⟩ =
              m.sizes.set dim.toNat (b - a).toNat := by
            show (select m.base m.dims dim.toNat a.toNat b.toNat).2.map Prod.fst = _
            rw [s1]
            congr 1
            omega
          refine ⟨hsz, ?_⟩
          intro idx hi
          rw [hsz] at hi
          have hl : idx.length = m.dims.length := by
            have := List.Forall₂.length_eq hi
            rw [List.length_set] at this
            unfold Mat.sizes at this
            rw [List.length_map] at this
            exact this.symm
          constructor
          · unfold InB at hi ⊢
            rw [List.forall₂_iff_get] at hi ⊢
            obtain ⟨l1, l2⟩ := hi
            refine ⟨by rw [List.length_modify]; simpa using l1, ?_⟩
            intro i p q
            have := l2 i (by simpa using p) (by simpa using q)
            simp only [List.get_eq_getElem, List.getElem_set, List.getElem_modify] at this ⊢
            by_cases c : dim.toNat = i
            · rw [if_pos c] at this ⊢
              have e : m.sizes[i]'(by simpa using p) = m.dims[dim.toNat].1 := by
                subst c
                exact List.getElem_map ..
              rw [e]
              omega
            · rw [if_neg c] at this ⊢
              exact this
          · unfold Mat.elem
            dsimp only
            rw [s2 idx hl]
        · cases h
      · cases h

/-- C83: selecting one index of a dimension is selecting the range of length one. -/
theorem subMatAt_spec (m : Mat) (dim i : Int) :
    getSubMatAt m dim i = (if i < 0 then none else getSubMat m dim i (i + 1)) := by
  unfold getSubMatAt
  by_cases hi : i < 0
  · rw [if_pos hi]
    split
    · rfl
    · split
      · rw [if_neg (by omega)]
      · rfl
  · rw [if_neg hi]
    split
    · rename_i h; unfold getSubMat; rw [if_pos h]
    · rename_i h
      split
      · rename_i h1
        split
        · rfl
        · unfold getSubMat
          rw [if_neg h, dif_pos h1, if_neg (by omega)]
      · rename_i h1
        unfold getSubMat
        rw [if_neg h, dif_neg h1]

/-- non-vacuity: columns 1 and 2 of a 2×4 matrix -/
example : getSubMat ⟨0, 1, [(2, 4), (4, 1)]⟩ 1 1 3 = some ⟨1, 1, [(2, 4), (2, 1)]⟩ := by decide +kernel

/-- C83: `squeeze` keeps every element, in order, and removes exactly the dimensions of size one
from matrices with more than two dimensions (keeping at least two). -/
theorem squeeze_spec {β : Type} (mem : Nat → β) (m : Mat) (hd : 2 < m.dims.length) (ht : m.total ≠ 0) :
    (squeeze mem m).sizes = atLeast2 1 (dropSingles m.sizes m.sizes) ∧
    (squeeze mem m).data.length = (squeeze mem m).sizes.prod ∧
    ∀ idx, InB m.sizes idx →
      InB (squeeze mem m).sizes (atLeast2 0 (dropSingles m.sizes idx)) ∧
      (squeeze mem m).elem (atLeast2 0 (dropSingles m.sizes idx)) = some (m.elem mem idx) := by
  have hne : m.dims ≠ [] := by intro h; rw [h] at hd; simp at hd
  -- some index is within bounds
  have hex : ∃ idx, InB m.sizes idx := by
    refine ⟨m.sizes.map (fun _ => 0), ?_⟩
    unfold InB
    rw [List.forall₂_map_right_iff]
    have hp : m.sizes.prod ≠ 0 := by
      unfold Mat.total at ht
      rwa [if_neg hne] at ht
    have hall : ∀ n ∈ m.sizes, 0 < n := by
      intro n hn
      rcases Nat.eq_zero_or_pos n with c | c
      · subst c
        exact absurd (List.prod_eq_zero hn) hp
      · exact c
    rw [List.forall₂_same]
    exact hall
  obtain ⟨idx0, h0⟩ := hex
  have hshape := (addr_drop m.dims idx0 h0).2.2
  have hread : ∀ idx, InB m.sizes idx → addr (m.dims.filter (fun d => decide (1 < d.1))) (dropSingles m.sizes idx) =
      addr m.dims idx ∧ InB ((m.dims.filter (fun d => decide (1 < d.1))).map Prod.fst) (dropSingles m.sizes idx) :=
    fun idx h => ⟨(addr_drop m.dims idx h).1, (addr_drop m.dims idx h).2.1⟩
  change _ = dropSingles m.sizes m.sizes at hshape
  rw [← hshape]
  unfold squeeze
  rw [if_neg (by rintro (h | h) <;> omega)]
  generalize m.dims.filter (fun d => decide (1 < d.1)) = ds at *
  -- reading the copy of a header
  have hcopy : ∀ (dims : List (Nat × Nat)) (idx : List Nat), dims ≠ [] → InB (dims.map Prod.fst) idx →
      (Mat.elems mem ⟨m.base, m.esz, dims⟩)[lin (dims.map Prod.fst) idx]? =
        some ((List.range m.esz).map (fun c => mem (m.base + addr dims idx + c))) := by
    intro dims idx h hi
    exact elems_get mem ⟨m.base, m.esz, dims⟩ idx h hi
  have hlen : ∀ (dims : List (Nat × Nat)), dims ≠ [] →
      (Mat.elems mem ⟨m.base, m.esz, dims⟩).length = (dims.map Prod.fst).prod :=
    fun dims h => elems_length mem ⟨m.base, m.esz, dims⟩ h
  match ds, hread with
  | [], hread =>
    refine ⟨rfl, ?_, ?_⟩
    · have := hlen (packed m.esz [1, 1]) (by simp [packed])
      rw [packed_sizes] at this
      show (Mat.elems mem ⟨m.base, m.esz, packed m.esz [1, 1]⟩).length = _
      rw [this]
      rfl
    · intro idx hi
      obtain ⟨r1, r2⟩ := hread idx hi
      have e : dropSingles m.sizes idx = [] := by
        generalize dropSingles m.sizes idx = w at r2
        cases r2
        rfl
      rw [e] at r1
      refine ⟨?_, ?_⟩
      · rw [e]
        exact List.Forall₂.cons (by norm_num) (List.Forall₂.cons (by norm_num) List.Forall₂.nil)
      · rw [e]
        unfold Copy.elem Mat.elem
        rw [← r1]
        have := hcopy (packed m.esz [1, 1]) [0, 0] (by simp [packed]) (by
          rw [packed_sizes]
          exact List.Forall₂.cons (by norm_num) (List.Forall₂.cons (by norm_num) List.Forall₂.nil))
        have a0 : addr (packed m.esz [1, 1]) [0, 0] = addr [] [] := by simp [packed, addr]
        rw [a0] at this
        exact this
  | [(n, s)], hread =>
    refine ⟨rfl, ?_, ?_⟩
    · have := hlen (header m.esz [(n, s), (1, m.esz)]) (by simp [header])
      simpa [header, Mat.copyTo] using this
    · intro idx hi
      obtain ⟨r1, r2⟩ := hread idx hi
      obtain ⟨i, e, hin⟩ : ∃ i, dropSingles m.sizes idx = [i] ∧ i < n := by
        generalize dropSingles m.sizes idx = w at r2
        cases r2 with
        | cons h t => cases t; exact ⟨_, rfl, h⟩
      rw [e] at r1
      refine ⟨?_, ?_⟩
      · rw [e]
        exact List.Forall₂.cons (by norm_num) (List.Forall₂.cons hin List.Forall₂.nil)
      · rw [e]
        unfold Copy.elem Mat.elem
        have := hcopy (header m.esz [(n, s), (1, m.esz)]) [i, 0] (by simp [header])
          (List.Forall₂.cons hin (List.Forall₂.cons (by norm_num) List.Forall₂.nil))
        have l1 : lin ((header m.esz [(n, s), (1, m.esz)]).map Prod.fst) [i, 0] = i := by
          simp [header, lin]
        have a1 : addr (header m.esz [(n, s), (1, m.esz)]) [i, 0] = addr m.dims idx := by
          rw [← r1]; simp [header, addr]
        rw [l1, a1] at this
        have l2 : lin [1, n] (atLeast2 0 [i]) = i := by simp [atLeast2, lin]
        show (Mat.elems mem ⟨m.base, m.esz, header m.esz [(n, s), (1, m.esz)]⟩)[lin [1, n] (atLeast2 0 [i])]? = _
        rw [l2]
        exact this
  | d :: d' :: ds, hread =>
    have hh := header_append m.esz (d :: d' :: ds)
    refine ⟨rfl, ?_, ?_⟩
    · have := hlen (header m.esz ((d :: d' :: ds) ++ [(1, m.esz)])) (by rw [hh]; simp)
      rw [hh] at this
      show (Mat.elems mem ⟨m.base, m.esz, header m.esz ((d :: d' :: ds) ++ [(1, m.esz)])⟩).length = _
      rw [hh, this]
      simp
    · intro idx hi
      obtain ⟨r1, r2⟩ := hread idx hi
      have hl : (dropSingles m.sizes idx).length = (d :: d' :: ds).length := by
        have := List.Forall₂.length_eq r2
        rw [List.length_map] at this
        exact this.symm
      have e : atLeast2 0 (dropSingles m.sizes idx) = dropSingles m.sizes idx := by
        generalize dropSingles m.sizes idx = w at hl
        match w, hl with
        | [], hl => simp at hl
        | [_], hl => simp at hl
        | _ :: _ :: _, _ => rfl
      refine ⟨?_, ?_⟩
      · rw [e]; exact r2
      · rw [e]
        unfold Copy.elem
        show (Mat.elems mem ⟨m.base, m.esz, header m.esz ((d :: d' :: ds) ++ [(1, m.esz)])⟩)[lin
          ((d :: d' :: ds).map Prod.fst) (dropSingles m.sizes idx)]? = _
        rw [hh]
        have := hcopy ((d :: d' :: ds) ++ [(1, m.esz)]) (dropSingles m.sizes idx ++ [0]) (by simp)
          (by rw [List.map_append]; exact inB_append _ _ r2)
        rw [List.map_append, show [((1 : Nat), m.esz)].map Prod.fst = [1] from rfl,
          lin_append _ _ (by rw [List.length_map]; exact hl), addr_append _ _ _ hl, r1] at this
        exact this

/-- C83: matrices with up to two dimensions, and empty ones, are copied. -/
theorem squeeze_small {β : Type} (mem : Nat → β) (m : Mat) (h : m.dims.length ≤ 2 ∨ m.total = 0) :
    (squeeze mem m).sizes = m.sizes ∧
    ∀ idx, m.dims ≠ [] → InB m.sizes idx → (squeeze mem m).elem idx = some (m.elem mem idx) := by
  unfold squeeze
  rw [if_pos h]
  refine ⟨rfl, ?_⟩
  intro idx hd hi
  exact elems_get mem m idx hd hi

/-- non-vacuity: a 2×1×3 selection of a larger matrix -/
example : squeeze (fun i => i) ⟨5, 1, [(2, 12), (1, 4), (3, 1)]⟩ =
    ⟨[2, 3], [[5], [6], [7], [17], [18], [19]]⟩ := by decide +kernel

/-! ## Concatenation -/

/-- the image placed in the output -/
def fitted {β : Type} (resize : Img β → Nat → Nat → Img β) (h w : Nat) (m : Img β) : Img β :=
  if m.rows = h ∧ m.cols = w then m else resize m h w

theorem loop_spec {β : Type} (resize : Img β → Nat → Nat → Img β)
    (hr : ∀ m h w, (resize m h w).rows = h ∧ (resize m h w).cols = w) (h w : Nat) (horiz : Bool) :
    ∀ (ms : List (Img β)) (k : Nat) (out : Img β),
    (concatLoop resize h w horiz k ms out).rows = out.rows ∧
    (concatLoop resize h w horiz k ms out).cols = out.cols ∧
    (concatLoop resize h w horiz k ms out).type = out.type ∧
    (∀ j m, ms[j]? = some m → ∀ y x, y < h → x < w →
      (concatLoop resize h w horiz k ms out).px (if horiz then y else h * (k + j) + y)
        (if horiz then w * (k + j) + x else x) = (fitted resize h w m).px y x) ∧
    (∀ j, j < k → ∀ y x, y < h → x < w →
      (concatLoop resize h w horiz k ms out).px (if horiz then y else h * j + y)
        (if horiz then w * j + x else x) =
      out.px (if horiz then y else h * j + y) (if horiz then w * j + x else x)) := by
  intro ms
  induction ms with
  | nil =>
    intro k out
    refine ⟨rfl, rfl, rfl, ?_, ?_⟩
    · intro j m hm; simp at hm
    · intro j _ y x _ _; rfl
  | cons m ms ih =>
    intro k out
    have hf : (fitted resize h w m).rows = h ∧ (fitted resize h w m).cols = w := by
      unfold fitted
      split
      · assumption
      · exact hr m h w
    obtain ⟨i1, i2, i3, i4, i5⟩ := ih (k + 1)
      (blit out (if horiz then 0 else h * k) (if horiz then w * k else 0) (fitted resize h w m))
    have e : concatLoop resize h w horiz k (m :: ms) out = concatLoop resize h w horiz (k + 1) ms
      (blit out (if horiz then 0 else h * k) (if horiz then w * k else 0) (fitted resize h w m)) := rfl
    rw [e]
    refine ⟨i1, i2, i3, ?_, ?_⟩
    · intro j m' hj y x hy hx
      cases j with
      | zero =>
        rw [List.getElem?_cons_zero] at hj
        injection hj with hj
        subst hj
        simp only [Nat.add_zero]
        rw [i5 k (by omega) y x hy hx]
        unfold blit
        cases horiz <;> simp [hf.1, hf.2, hy, hx]
      | succ j =>
        rw [List.getElem?_cons_succ] at hj
        have := i4 j m' hj y x hy hx
        rw [show k + 1 + j = k + (j + 1) by omega] at this
        exact this
    · intro j hj y x hy hx
      rw [i5 j (by omega) y x hy hx]
      unfold blit
      cases horiz
      · have hlt : h * j + y < h * k := by
          calc h * j + y < h * j + h := by omega
            _ = h * (j + 1) := by ring
            _ ≤ h * k := Nat.mul_le_mul_left _ hj
        simp only [Bool.false_eq_true, if_false]
        rw [if_neg (by omega)]
      · have hlt : w * j + x < w * k := by
          calc w * j + x < w * j + w := by omega
            _ = w * (j + 1) := by ring
            _ ≤ w * k := Nat.mul_le_mul_left _ hj
        simp only [if_true]
        rw [if_neg (by omega)]

/-- C83: concatenating images of one type places each of them, resized to the first one's size if
needed, side by side (or on top of each other), whatever the memory of the output contained. -/
theorem concat_spec {β : Type} (resize : Img β → Nat → Nat → Img β)
    (hr : ∀ m h w, (resize m h w).rows = h ∧ (resize m h w).cols = w) (garbage : Nat → Nat → β)
    (m : Img β) (ms : List (Img β)) (horiz : Bool) (htype : ∀ q ∈ ms, q.type = m.type) :
    ∃ out, concat resize garbage (m :: ms) horiz = some out ∧ out.type = m.type ∧
      out.rows = (if horiz then m.rows else m.rows * (ms.length + 1)) ∧
      out.cols = (if horiz then m.cols * (ms.length + 1) else m.cols) ∧
      ∀ k q, (m :: ms)[k]? = some q → ∀ y x, y < m.rows → x < m.cols →
        out.px (if horiz then y else m.rows * k + y) (if horiz then m.cols * k + x else x) =
          (if q.rows = m.rows ∧ q.cols = m.cols then q else resize q m.rows m.cols).px y x := by
  cases ms with
  | nil =>
    refine ⟨m, rfl, rfl, by cases horiz <;> simp, by cases horiz <;> simp, ?_⟩
    intro k q hq y x hy hx
    cases k with
    | zero =>
      rw [List.getElem?_cons_zero] at hq
      injection hq with hq
      subst hq
      cases horiz <;> simp
    | succ k => simp at hq
  | cons m1 ms =>
    have hall : (m1 :: ms).all (fun q => decide (q.type = m.type)) = true := by
      rw [List.all_eq_true]
      intro q hq
      exact decide_eq_true (htype q hq)
    unfold concat
    dsimp only
    rw [if_pos hall]
    obtain ⟨l1, l2, l3, l4, l5⟩ := loop_spec resize hr m.rows m.cols horiz (m1 :: ms) 1
      (blit ⟨if horiz then m.rows else m.rows * ((m1 :: ms).length + 1),
        if horiz then m.cols * ((m1 :: ms).length + 1) else m.cols, m.type, garbage⟩ 0 0 m)
    refine ⟨_, rfl, l3, l1, l2, ?_⟩
    intro k q hq y x hy hx
    cases k with
    | zero =>
      rw [List.getElem?_cons_zero] at hq
      injection hq with hq
      subst hq
      rw [l5 0 (by omega) y x hy hx, if_pos (show m.rows = m.rows ∧ m.cols = m.cols from ⟨rfl, rfl⟩)]
      unfold blit
      cases horiz <;> simp [hy, hx]
    | succ k =>
      rw [List.getElem?_cons_succ] at hq
      have := l4 k q hq y x hy hx
      rw [Nat.add_comm 1 k] at this
      exact this

/-- C83: no image, or images of different types, are rejected. -/
theorem concat_rejects {β : Type} (resize : Img β → Nat → Nat → Img β) (garbage : Nat → Nat → β)
    (ms : List (Img β)) (horiz : Bool) :
    concat resize garbage ms horiz = none ↔ ms = [] ∨ ∃ p ∈ ms, ∃ q ∈ ms, p.type ≠ q.type := by
  match ms with
  | [] => simp [concat]
  | [m] => simp [concat]
  | m :: m1 :: ms =>
    unfold concat
    dsimp only
    by_cases h : (m1 :: ms).all (fun q => decide (q.type = m.type)) = true
    · rw [if_pos h]
      rw [List.all_eq_true] at h
      have h' : ∀ q ∈ m :: m1 :: ms, q.type = m.type := by
        intro q hq
        rcases List.mem_cons.mp hq with rfl | hq
        · rfl
        · exact of_decide_eq_true (h q hq)
      constructor
      · intro hc; cases hc
      · rintro (hc | ⟨p, hp, q, hq, hne⟩)
        · cases hc
        · exact absurd ((h' p hp).trans (h' q hq).symm) hne
    · rw [if_neg h]
      refine ⟨fun _ => Or.inr ?_, fun _ => rfl⟩
      rw [List.all_eq_true] at h
      push Not at h
      obtain ⟨q, hq, hne⟩ := h
      refine ⟨q, List.mem_cons_of_mem _ hq, m, by simp, ?_⟩
      intro hc
      exact hne (decide_eq_true hc)

/-- non-vacuity: two images side by side -/
example : ((concat (fun m _ _ => m) (fun _ _ => 9) [⟨1, 2, 0, fun _ x => x⟩, ⟨1, 2, 0, fun _ x => x + 5⟩] true).map
    (fun o => (o.rows, o.cols, (List.range 4).map (o.px 0)))) = some (1, 4, [0, 1, 5, 6]) := by
  decide +kernel

/-! ## Comparisons -/

/-- C84: with an element type which divides the matrix elements (and is as large as them if a
matrix is not continuous), the comparison is accepted and decides whether both matrices are empty
or have the same shape, type and elements. -/
theorem isEqual_partial {β : Type} (w : Nat) (E : List β → List β → Bool) (hE : ∀ p q, E p q = true ↔ p = q)
    (mem : Nat → β) (ta tb : Nat) (a b : Mat) (hdiv : w ∣ a.esz) (hpos : 0 < a.esz)
    (htype : ta = tb → a.esz = b.esz) (ha : Nested a.esz a.dims) (hb : Nested b.esz b.dims)
    (hcont : cont a.dims = true ∧ cont b.dims = true ∨ a.esz = w) :
    ∃ r, isEqual w E mem ta tb a b = some r ∧
      (r = true ↔ (a.total = 0 ∧ b.total = 0) ∨
        (a.sizes = b.sizes ∧ ta = tb ∧ ∀ idx, InB a.sizes idx → a.elem mem idx = b.elem mem idx)) := by
  unfold isEqual
  by_cases h1 : a.total = 0 ∧ b.total = 0
  · rw [if_pos h1]
    exact ⟨true, rfl, by simp [h1]⟩
  rw [if_neg h1]
  by_cases h2 : a.dims.length ≠ b.dims.length ∨ a.sizes ≠ b.sizes ∨ ta ≠ tb
  · rw [if_pos h2]
    refine ⟨false, rfl, ?_⟩
    constructor
    · intro h; cases h
    · rintro (h | ⟨hs, ht, -⟩)
      · exact absurd h h1
      · rcases h2 with h | h | h
        · have : a.sizes.length = b.sizes.length := by rw [hs]
          unfold Mat.sizes at this
          rw [List.length_map, List.length_map] at this
          exact absurd this h
        · exact absurd hs h
        · exact absurd ht h
  rw [if_neg h2]
  push Not at h2
  obtain ⟨hl, hs, ht⟩ := h2
  have hesz := htype ht
  have hda : a.dims ≠ [] := by
    intro h
    apply h1
    have hb0 : b.dims = [] := by rw [h] at hl; exact List.length_eq_zero_iff.mp hl.symm
    exact ⟨by simp [Mat.total, h], by simp [Mat.total, hb0]⟩
  have hdb : b.dims ≠ [] := by
    intro h
    apply hda
    rw [h] at hl
    exact List.length_eq_zero_iff.mp hl
  have htot : a.total = b.total := by
    unfold Mat.total
    rw [if_neg hda, if_neg hdb, hs]
  have hlen : (a.elems mem).length = (b.elems mem).length := by
    rw [elems_length mem a hda, elems_length mem b hdb, hs]
  have final : (a.elems mem = b.elems mem) ↔ ((a.total = 0 ∧ b.total = 0) ∨
        (a.sizes = b.sizes ∧ ta = tb ∧ ∀ idx, InB a.sizes idx → a.elem mem idx = b.elem mem idx)) := by
    rw [elems_eq_iff mem a b hda hdb hs]
    constructor
    · intro h; exact Or.inr ⟨hs, ht, h⟩
    · rintro (h | ⟨-, -, h⟩)
      · exact absurd h h1
      · exact h
  by_cases hc : (cont a.dims && cont b.dims) = true
  · rw [if_pos hc, if_pos (Nat.le_of_dvd hpos hdiv),
      if_pos (Nat.mod_eq_zero_of_dvd (Dvd.dvd.mul_left hdiv _))]
    rw [Bool.and_eq_true] at hc
    refine ⟨_, rfl, ?_⟩
    rw [equal_eq E hE _ _ (by rw [chunks_length, chunks_length]), ← final]
    have hn : a.total * a.esz = a.total * a.esz / w * w :=
      (Nat.div_mul_cancel (Dvd.dvd.mul_left hdiv _)).symm
    have fa := cont_flatten mem a hda ha hc.1
    have fb := cont_flatten mem b hdb hb hc.2
    rw [← htot, ← hesz] at fb
    constructor
    · intro h
      have h' := congrArg List.flatten h
      rw [chunks_flatten w _ _ (by rw [List.length_map, List.length_range]; exact hn),
        chunks_flatten w _ _ (by rw [List.length_map, List.length_range]; exact hn)] at h'
      apply flatten_inj a.esz _ _ hlen
      · intro l hl
        unfold Mat.elems at hl
        rw [if_neg hda, List.mem_map] at hl
        obtain ⟨o, -, rfl⟩ := hl
        simp
      · intro l hl
        unfold Mat.elems at hl
        rw [if_neg hdb, List.mem_map] at hl
        obtain ⟨o, -, rfl⟩ := hl
        simp [hesz]
      · rw [fa, fb]
        exact h'
    · intro h
      have h' := congrArg List.flatten h
      rw [fa, fb] at h'
      rw [h']
  · rw [if_neg hc]
    have hw' : a.esz = w := by
      rcases hcont with h | h
      · exact absurd (by rw [h.1, h.2]; rfl) hc
      · exact h
    rw [if_pos hw']
    refine ⟨_, rfl, ?_⟩
    rw [equal_eq E hE _ _ hlen, final]

/-- non-vacuity: two views of one column each, equal although the memory between differs -/
example : isEqual 1 (fun x y => x == y) (fun i => [1, 5, 2, 6, 1, 7, 2, 8].getD i 0) 0 0
    ⟨0, 1, [(2, 2), (1, 1)]⟩ ⟨4, 1, [(2, 2), (1, 1)]⟩ = some true := by decide +kernel

/-- C84 refuted: comparing a single three-byte element through a two-byte type is undefined although the
assertion on the element size holds. -/
theorem isEqual_refuted : isEqual 2 (fun x y => x == y) (fun _ => 0) 0 0
    ⟨0, 3, [(1, 3), (1, 3)]⟩ ⟨4, 3, [(1, 3), (1, 3)]⟩ = none ∧
    isEqual 1 (fun x y => x == y) (fun _ => 0) 0 0 ⟨0, 3, [(2, 9), (1, 3)]⟩ ⟨0, 3, [(2, 9), (1, 3)]⟩ = none := by
  decide +kernel

theorem basic_dims (m : Mat) : (getBasicMat m).dims = packed 1 (getBasicMat m).sizes := by
  unfold getBasicMat Mat.sizes
  split <;> dsimp only <;> rw [packed_sizes]

/-- C84: on a continuous matrix, `getBasicMat` exposes each channel as an element of an additional
last dimension. -/
theorem getBasicMat_partial {β : Type} (mem : Nat → β) (m : Mat) (hn : Nested m.esz m.dims)
    (hc : cont m.dims = true) (idx : List Nat) (hi : InB m.sizes idx) (c : Nat) (hch : c < m.esz) :
    (getBasicMat m).sizes = (if m.esz = 1 then m.sizes else m.sizes ++ [m.esz]) ∧
    (getBasicMat m).elem mem (if m.esz = 1 then idx else idx ++ [c]) =
      [(m.elem mem idx)[c]'(by unfold Mat.elem; simpa using hch)] := by
  have hl : ∀ (ns idx : List Nat) (k c : Nat), InB ns idx → lin (ns ++ [k]) (idx ++ [c]) = lin ns idx * k + c := by
    intro ns
    induction ns with
    | nil => intro idx k c h; cases h; simp [lin]
    | cons n ns ih =>
      intro idx k c h
      cases h with
      | @cons _ i _ is hi ht =>
        simp only [List.cons_append, lin]
        rw [ih is k c ht]
        simp
        ring
  have ha := cont_addr m.esz m.dims idx hn hc hi
  constructor
  · unfold getBasicMat Mat.sizes
    split <;> dsimp only <;> rw [packed_sizes]
  · unfold Mat.elem getBasicMat
    by_cases h1 : m.esz = 1
    · simp only [h1, if_true]
      have hc0 : c = 0 := by omega
      subst hc0
      rw [packed_addr 1 _ _ hi, ha]
      simp [h1, Mat.sizes]
    · simp only [h1, if_false]
      rw [packed_addr 1 _ _ (by
        unfold InB
        exact List.rel_append hi (List.Forall₂.cons hch List.Forall₂.nil)), hl _ _ _ _ hi, ha]
      simp [Mat.sizes, Nat.add_assoc]

/-- non-vacuity -/
example : Nested 3 [(2, 6), (2, 3)] ∧ cont [(2, 6), (2, 3)] = true := by
  constructor
  · exact ⟨by norm_num, rfl⟩
  · decide +kernel

/-- C84 refuted: on a view of some columns `getBasicMat` shows elements which are not part of the
view. -/
theorem getBasicMat_refuted : Mat.elems (fun i => i) ⟨0, 1, [(2, 4), (2, 1)]⟩ = [[0], [1], [4], [5]] ∧
    Mat.elems (fun i => i) (getBasicMat ⟨0, 1, [(2, 4), (2, 1)]⟩) = [[0], [1], [2], [3]] := by
  decide +kernel

/-- C84: on continuous matrices, the tolerant comparison decides whether both matrices are empty or have the
same shape and type and all their channel values differ by at most the tolerance. -/
theorem isNearlyEqual_partial (mem : Nat → ℚ) (eps : ℚ) (ta tb : Nat) (a b : Mat)
    (hpos : 0 < a.esz) (htype : ta = tb → a.esz = b.esz) (ha : Nested a.esz a.dims) (hb : Nested b.esz b.dims)
    (hca : cont a.dims = true) (hcb : cont b.dims = true) :
    isNearlyEqual mem eps ta tb a b = true ↔ (a.total = 0 ∧ b.total = 0) ∨
      (a.sizes = b.sizes ∧ ta = tb ∧ ∀ idx, InB a.sizes idx →
        List.Forall₂ (fun p q => |p - q| ≤ eps) (a.elem mem idx) (b.elem mem idx)) := by
  unfold isNearlyEqual
  by_cases h1 : a.total = 0 ∧ b.total = 0
  · rw [if_pos h1]
    simp [h1]
  rw [if_neg h1]
  by_cases h2 : a.dims.length ≠ b.dims.length ∨ a.sizes ≠ b.sizes ∨ ta ≠ tb
  · rw [if_pos h2]
    constructor
    · intro h; cases h
    · rintro (h | ⟨hs, ht, -⟩)
      · exact absurd h h1
      · rcases h2 with h | h | h
        · have : a.sizes.length = b.sizes.length := by rw [hs]
          unfold Mat.sizes at this
          rw [List.length_map, List.length_map] at this
          exact absurd this h
        · exact absurd hs h
        · exact absurd ht h
  rw [if_neg h2]
  push Not at h2
  obtain ⟨hl, hs, ht⟩ := h2
  have hesz := htype ht
  have hda : a.dims ≠ [] := by
    intro h
    apply h1
    have hb0 : b.dims = [] := by rw [h] at hl; exact List.length_eq_zero_iff.mp hl.symm
    exact ⟨by simp [Mat.total, h], by simp [Mat.total, hb0]⟩
  have hdb : b.dims ≠ [] := by
    intro h
    apply hda
    rw [h] at hl
    exact List.length_eq_zero_iff.mp hl
  -- headers without steps are continuous
  have hpc : ∀ ns : List Nat, cont (packed 1 ns) = true := by
    have hcf : ∀ ns : List Nat, contFrom (packed 1 ns) = true := by
      intro ns
      induction ns with
      | nil => rfl
      | cons n ns ih =>
        cases ns with
        | nil => rfl
        | cons n1 ns =>
          simp only [packed] at ih ⊢
          simp only [contFrom, List.prod_cons, Bool.and_eq_true, decide_eq_true_eq]
          refine ⟨decide_eq_true (le_of_eq ?_), ih⟩
          ring
    intro ns
    induction ns with
    | nil => rfl
    | cons n ns ih =>
      have := hcf (n :: ns)
      simp only [packed, cont] at this ⊢
      split
      · exact ih
      · exact this
  have ht1 : ∀ m : Mat, m.dims ≠ [] → (getBasicMat m).total = m.total * m.esz := by
    intro m hm
    have hms : m.sizes ≠ [] := by unfold Mat.sizes; simpa using hm
    unfold getBasicMat Mat.total
    split
    · rename_i h
      have : packed 1 m.sizes ≠ [] := by
        intro hc
        have := congrArg (List.map Prod.fst) hc
        rw [packed_sizes] at this
        exact hms this
      simp only [if_neg this, if_neg hm, h]
      unfold Mat.sizes
      dsimp only
      rw [packed_sizes]
      simp
    · have : packed 1 (m.sizes ++ [m.esz]) ≠ [] := by
        intro hc
        have := congrArg (List.map Prod.fst) hc
        rw [packed_sizes] at this
        simp at this
      simp only [if_neg this, if_neg hm]
      unfold Mat.sizes
      dsimp only
      rw [packed_sizes]
      simp
  have hbase : ∀ m : Mat, (getBasicMat m).base = m.base := by
    intro m; unfold getBasicMat; split <;> rfl
  have hcb' : (cont (getBasicMat a).dims && cont (getBasicMat b).dims) = true := by
    rw [basic_dims a, basic_dims b, hpc, hpc]; rfl
  dsimp only
  rw [if_pos hcb', ht1 a hda, hbase, hbase, equal_iff _ _ _ (by simp)]
  have fa := cont_flatten mem a hda ha hca
  have fb := cont_flatten mem b hdb hb hcb
  have htot : a.total = b.total := by
    unfold Mat.total
    rw [if_neg hda, if_neg hdb, hs]
  rw [← htot, ← hesz] at fb
  rw [← fa, ← fb]
  -- elementwise
  have hflat : ∀ x y : List (List ℚ), x.length = y.length → (∀ l ∈ x, l.length = a.esz) → (∀ l ∈ y, l.length = a.esz) →
      (List.Forall₂ (fun p q => decide (|p - q| ≤ eps) = true) x.flatten y.flatten ↔
        List.Forall₂ (fun u v => List.Forall₂ (fun p q => |p - q| ≤ eps) u v) x y) := by
    intro x
    induction x with
    | nil => intro y h _ _; cases y with
      | nil => simp
      | cons => simp at h
    | cons u x ih =>
      intro y h hx hy
      cases y with
      | nil => simp at h
      | cons v y =>
        rw [List.flatten_cons, List.flatten_cons, List.forall₂_cons,
          ← ih y (by simpa using h) (fun l hl => hx l (by simp [hl])) (fun l hl => hy l (by simp [hl]))]
        have huv : u.length = v.length := by rw [hx u (by simp), hy v (by simp)]
        have hdec : (fun p q : ℚ => decide (|p - q| ≤ eps) = true) = (fun p q => |p - q| ≤ eps) := by
          funext p q; simp
        rw [hdec]
        constructor
        · intro h'
          have h1 := List.forall₂_take_append (R := fun p q : ℚ => |p - q| ≤ eps) _ v y.flatten h'
          have h2 := List.forall₂_drop_append (R := fun p q : ℚ => |p - q| ≤ eps) _ v y.flatten h'
          rw [← huv, List.take_left] at h1
          rw [← huv, List.drop_left] at h2
          exact ⟨h1, h2⟩
        · rintro ⟨h1, h2⟩
          exact List.rel_append h1 h2
  rw [hflat _ _ (by rw [elems_length mem a hda, elems_length mem b hdb, hs]) (by
      intro l hl
      unfold Mat.elems at hl
      rw [if_neg hda, List.mem_map] at hl
      obtain ⟨o, -, rfl⟩ := hl
      simp) (by
      intro l hl
      unfold Mat.elems at hl
      rw [if_neg hdb, List.mem_map] at hl
      obtain ⟨o, -, rfl⟩ := hl
      simp [hesz])]
  rw [elems_indices mem a hda, elems_indices mem b hdb, ← hs, List.forall₂_map_left_iff,
    List.forall₂_map_right_iff, List.forall₂_same]
  constructor
  · intro h
    exact Or.inr ⟨rfl, ht, fun idx hi => h idx ((mem_indices _ _).mpr hi)⟩
  · rintro (h | ⟨-, -, h⟩)
    · exact absurd h h1
    · intro idx hi
      exact h idx ((mem_indices _ _).mp hi)

/-- C84 refuted: two views with the same elements are reported as different. -/
theorem isNearlyEqual_refuted :
    let mem : Nat → ℚ := fun i => [1, 5, 2, 6, 1, 7, 2, 8].getD i 0
    let a : Mat := ⟨0, 1, [(2, 2), (1, 1)]⟩
    let b : Mat := ⟨4, 1, [(2, 2), (1, 1)]⟩
    a.elems mem = b.elems mem ∧ isNearlyEqual mem 0 0 0 a b = false := by decide +kernel

/-- non-vacuity: a tolerance of a half -/
example : isNearlyEqual (fun i => [1, 2, 3 / 2, 5 / 2].getD i 0) (1 / 2) 0 0 ⟨0, 2, [(1, 2), (1, 2)]⟩
    ⟨2, 2, [(1, 2), (1, 2)]⟩ = true := by decide +kernel

end Litiv.Views
