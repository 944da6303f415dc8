import Verif.Spec.MatIO
import Mathlib.Algebra.BigOperators.Group.List.Basic
import Mathlib.Algebra.Order.BigOperators.Group.List
import Mathlib.Tactic.Ring

namespace Litiv.MatIO
open Spec

theorem leBytes_length (k n : Nat) : (leBytes k n).length = k := by
  induction k generalizing n with
  | zero => rfl
  | succ k ih => simp [leBytes, ih]

theorem leVal_leBytes (k n : Nat) (h : n < 256 ^ k) : leVal (leBytes k n) = n := by
  induction k generalizing n with
  | zero => simp at h; simp [leBytes, leVal, h]
  | succ k ih =>
    have h1 : n / 256 < 256 ^ k := by
      rw [Nat.div_lt_iff_lt_mul (by norm_num)]; rw [pow_succ] at h; exact h
    simp only [leBytes, leVal, ih _ h1, BitVec.toNat_ofNat]
    omega

theorem total_eq_prod (l : List Nat) (h : l ≠ []) : total l = l.prod := by
  cases l with
  | nil => exact absurd rfl h
  | cons a t =>
    have : ∀ (t : List Nat) (a : Nat), t.foldl (· * ·) a = a * t.prod := by
      intro t
      induction t with
      | nil => intro a; simp
      | cons b t ih => intro a; rw [List.foldl_cons, ih, List.prod_cons, Nat.mul_assoc]
    simp [total, this]

theorem depthBytes_pos (d : Nat) : 0 < depthBytes d := by
  unfold depthBytes; split_ifs <;> omega

theorem elemSize_pos (t : Nat) : 0 < elemSize t :=
  Nat.mul_pos (depthBytes_pos _) (by unfold channels; omega)

theorem alloc_length (f : Nat → Byte) (n : Nat) : (alloc f n).length = n := by simp [alloc]

theorem readInto_bad (k : Nat) (o : List Byte) (s : IStr) (h : s.good = false) :
    readInto k o s = (o, s) := if_pos h

theorem readInto_ok (k : Nat) (o : List Byte) (s : IStr) (h : s.good = true)
    (hk : k ≤ s.rest.length) :
    readInto k o s = (s.rest.take k, ⟨s.rest.drop k, true⟩) := by
  unfold readInto; rw [if_neg (by simp [h]), if_pos hk]

theorem readInto_short (k : Nat) (o : List Byte) (s : IStr)
    (hk : s.rest.length < k) : (readInto k o s).2.good = false := by
  unfold readInto
  split
  · assumption
  · rw [if_neg (by omega)]

/-- a successful read had enough bytes and took them -/
theorem readInto_good (k : Nat) (o : List Byte) (s : IStr) (h : (readInto k o s).2.good = true) :
    s.good = true ∧ k ≤ s.rest.length ∧
      readInto k o s = (s.rest.take k, ⟨s.rest.drop k, true⟩) := by
  have hg : s.good = true := by
    by_contra hb
    have hb' : s.good = false := by simpa using hb
    rw [readInto_bad k o s hb'] at h; exact hb h
  have hk : k ≤ s.rest.length := by
    by_contra hb
    rw [readInto_short k o s (by omega)] at h; exact absurd h (by simp)
  exact ⟨hg, hk, readInto_ok k o s hg hk⟩

/-- reading a field that is at the front of the file -/
theorem readInto_field (k : Nat) (o : List Byte) (n : Nat) (r : List Byte) :
    readInto k o ⟨leBytes k n ++ r, true⟩ = (leBytes k n, ⟨r, true⟩) := by
  rw [readInto_ok _ _ _ rfl (by simp [leBytes_length])]
  simp [leBytes_length]

theorem readSizes_good (n : Nat) (s : IStr) (h : (readSizes n s).2.good = true) :
    s.good = true ∧ 4 * n ≤ s.rest.length := by
  induction n generalizing s with
  | zero => exact ⟨h, by omega⟩
  | succ n ih =>
    simp only [readSizes] at h
    have h1 := ih _ h
    have h2 := readInto_good _ _ _ h1.1
    refine ⟨h2.1, ?_⟩
    have := h1.2
    rw [h2.2.2] at this
    simp at this
    omega

theorem readSizes_length (n : Nat) (s : IStr) : (readSizes n s).1.length = n := by
  induction n generalizing s with
  | zero => rfl
  | succ n ih => simp [readSizes, ih]

theorem readSizes_field (l : List Nat) (r : List Byte) (hl : ∀ x ∈ l, x < 2 ^ 31) :
    readSizes l.length ⟨l.flatMap (leBytes 4) ++ r, true⟩ = (l, ⟨r, true⟩) := by
  induction l with
  | nil => rfl
  | cons a t ih =>
    have ha : a < 256 ^ 4 := by have := hl a (by simp); omega
    simp only [List.length_cons, List.flatMap_cons, readSizes, List.append_assoc,
      readInto_field, ih (fun x hx => hl x (by simp [hx])), leVal_leBytes _ _ ha]

theorem header_length (m : Mat) : (header m).length = 24 + 4 * m.sizes.length := by
  have : (m.sizes.flatMap (leBytes 4)).length = 4 * m.sizes.length := by
    induction m.sizes with
    | nil => rfl
    | cons a t ih => simp [List.flatMap_cons, ih, leBytes_length]; omega
  simp only [header, List.length_append, leBytes_length, this]
  omega

/-- the header fields of a matrix -/
def hdrOf (m : Mat) : Hdr :=
  ⟨m.type, elemSize m.type, total m.sizes, m.sizes.length, m.sizes⟩

theorem Spec.Valid.total_eq {m : Mat} (h : Valid m) : total m.sizes = m.sizes.prod :=
  total_eq_prod _ (by intro e; have := h.dims_ge; rw [e] at this; simp at this)

theorem Spec.Valid.elem_eq {m : Mat} (h : Valid m) :
    elemSize m.type = depthBytes (m.type % 8) * (m.type / 8 + 1) := by
  unfold elemSize depth channels
  have := h.type_lt
  rw [Nat.mod_eq_of_lt (a := m.type / 8) (by omega)]

theorem Spec.Valid.len' {m : Mat} (h : Valid m) :
    m.data.length = elemSize m.type * total m.sizes := by
  rw [h.len, h.total_eq, h.elem_eq, Nat.mul_comm]

theorem Spec.Valid.total_pos {m : Mat} (h : Valid m) : 0 < total m.sizes := by
  rw [h.total_eq]; 
  have : ∀ l : List Nat, (∀ x ∈ l, 0 < x) → 0 < l.prod := by
    intro l
    induction l with
    | nil => intro _; simp
    | cons a t ih =>
      intro hl
      rw [List.prod_cons]
      exact Nat.mul_pos (hl a (by simp)) (ih (fun x hx => hl x (by simp [hx])))
  exact this _ h.size_pos

theorem Spec.Valid.nbytes {m : Mat} (h : Valid m) :
    elemSize m.type * total m.sizes % 2 ^ 64 = m.data.length := by
  have := h.fits
  rw [← h.len', Nat.mod_eq_of_lt (by omega)]

theorem elemSize_lt (t : Nat) : elemSize t < 256 ^ 8 := by
  unfold elemSize depth channels depthBytes
  split_ifs <;> omega

theorem Spec.Valid.count_lt {m : Mat} (h : Valid m) : total m.sizes < 256 ^ 8 := by
  have h1 := h.len'
  have h2 := h.fits
  have h3 : total m.sizes ≤ elemSize m.type * total m.sizes :=
    Nat.le_mul_of_pos_left _ (elemSize_pos _)
  omega

/-- reading back a complete header -/
theorem readHdr_full (j : Junk) {m : Mat} (h : Valid m) (r : List Byte) :
    readHdr j ⟨header m ++ r, true⟩ = some (hdrOf m, ⟨r, true⟩) := by
  have h4 : leVal (leBytes 4 m.sizes.length) = m.sizes.length :=
    leVal_leBytes _ _ (by have := h.dims_le; omega)
  simp only [readHdr, header, List.append_assoc, readInto_field, h4,
    readSizes_field _ _ h.size_lt]
  rw [if_neg (by have := h.dims_le; omega),
    leVal_leBytes _ _ (by have := h.type_lt; omega), leVal_leBytes _ _ (elemSize_lt _),
    leVal_leBytes _ _ h.count_lt]
  rfl

/-- a stream that is still good after the header had a complete header -/
theorem readHdr_good (j : Junk) (s : IStr) (hd : Hdr) (s' : IStr)
    (h : readHdr j s = some (hd, s')) (hg : s'.good = true) :
    s.good = true ∧ 24 ≤ s.rest.length ∧
      24 + 4 * leVal ((s.rest.drop 20).take 4) ≤ s.rest.length := by
  simp only [readHdr] at h
  split at h
  · exact absurd h (by simp)
  · simp only [Option.some.injEq, Prod.mk.injEq] at h
    obtain ⟨-, h⟩ := h
    rw [← h] at hg
    have h5 := readSizes_good _ _ hg
    have h4 := readInto_good _ _ _ h5.1
    have h3 := readInto_good _ _ _ h4.1
    have h2 := readInto_good _ _ _ h3.1
    have h1 := readInto_good _ _ _ h2.1
    have e1 := h1.2.2
    have e2 := h2.2.2
    have e3 := h3.2.2
    have e4 := h4.2.2
    have l5 := h5.2
    have l4 := h4.2.1
    rw [e4] at l5
    rw [e3] at l5 l4
    rw [e2] at l5 l4
    rw [e1] at l5 l4
    simp only [List.drop_drop, List.length_drop] at l5 l4
    refine ⟨h1.1, ?_, ?_⟩
    · have := h1.2.1; omega
    · have := h1.2.1; norm_num at l5 l4 ⊢; omega

theorem create_hdrOf (j : Junk) {m : Mat} (h : Valid m) :
    create j (hdrOf m) = some ⟨m.type, m.sizes, alloc j.heap m.data.length⟩ := by
  unfold create hdrOf
  have h1 : ¬ (32 < m.sizes.length ∨ (m.sizes.any fun s => decide (2 ^ 31 ≤ s)) = true) := by
    rintro (h1 | h1)
    · have := h.dims_le; omega
    · rw [List.any_eq_true] at h1
      obtain ⟨x, hx, hx2⟩ := h1
      have := h.size_lt x hx
      simp at hx2; omega
  have h2 : ¬ m.sizes.length = 1 := by have := h.dims_ge; omega
  simp only [h1, h2, if_false]
  rw [Nat.mod_eq_of_lt h.type_lt, h.len', Nat.mul_comm]

theorem readData_bad (n : Nat) (m : Mat) (s : IStr) (h : s.good = false) :
    readData n m s = .ok (m, s) := if_pos h

theorem readData_full (t : Nat) (sz : List Nat) (buf d : List Byte) (hb : buf.length = d.length)
    (hd : d.length < 2 ^ 63) :
    readData d.length ⟨t, sz, buf⟩ ⟨d, true⟩ = .ok (⟨t, sz, d⟩, ⟨[], true⟩) := by
  unfold readData
  rw [if_neg (by simp), if_neg (by omega), if_neg (by simp [hb]), if_pos (by simp)]
  simp [← hb]

theorem readData_short (n : Nat) (m : Mat) (r : List Byte) (hb : m.data.length = n)
    (hn : n < 2 ^ 63) (hr : r.length < n) :
    ∃ m', readData n m ⟨r, true⟩ = .ok (m', ⟨[], false⟩) := by
  unfold readData
  rw [if_neg (by simp), if_neg (by omega), if_neg (by simp [hb]), if_neg (by simp; omega)]
  exact ⟨_, rfl⟩

/-- the bytes of the dimension count, in a file long enough to hold them -/
theorem dims_field (m : Mat) (r : List Byte) (k : Nat) (hk : 24 ≤ k) :
    (((header m ++ r).take k).drop 20).take 4 = leBytes 4 m.sizes.length := by
  have e : header m ++ r = (leBytes 4 m.type ++ leBytes 8 (elemSize m.type) ++
      leBytes 8 (total m.sizes)) ++ (leBytes 4 m.sizes.length ++
      (m.sizes.flatMap (leBytes 4) ++ r)) := by
    simp [header]
  rw [List.drop_take, List.take_take, e, List.drop_left' (by simp [leBytes_length])]
  rw [show min 4 (k - 20) = 4 by omega, List.take_left' (leBytes_length _ _)]

/-- a truncated header leaves a failed stream or an exception -/
theorem readHdr_short (j : Junk) {m : Mat} (h : Valid m) (r : List Byte) (k : Nat)
    (hk : k < (header m).length) (hd : Hdr) (s' : IStr)
    (e : readHdr j ⟨(header m ++ r).take k, true⟩ = some (hd, s')) : s'.good = false := by
  by_contra hb
  have hg : s'.good = true := by simpa using hb
  obtain ⟨-, h1, h2⟩ := readHdr_good j _ hd s' e hg
  have hl : ((header m ++ r).take k).length ≤ k := by simp
  have hk24 : 24 ≤ k := by simp only at h1; omega
  simp only at h2
  rw [dims_field m r k hk24, leVal_leBytes _ _ (by have := h.dims_le; omega)] at h2
  rw [header_length] at hk
  omega

theorem take_header (m : Mat) (r : List Byte) (k : Nat) (hk : (header m).length ≤ k) :
    (header m ++ r).take k = header m ++ r.take (k - (header m).length) := by
  rw [List.take_append, List.take_of_length_le hk]

/-! ### packing -/

theorem scan_spec (ms : List Mat) (s : Scan) :
    (ms.foldl Scan.next s).tot = s.tot + (ms.map Mat.bytes).sum := by
  induction ms generalizing s with
  | nil => simp
  | cons m ms ih =>
    rw [List.foldl_cons, ih, List.map_cons, List.sum_cons]
    unfold Scan.next
    split <;> simp <;> omega

/-- when the flag survives, every non-empty matrix has the recorded type -/
theorem scan_same (ms : List Mat) (s : Scan) (h : (ms.foldl Scan.next s).same = true) :
    s.same = true ∧ (∀ f, s.first = some f → (ms.foldl Scan.next s).first = some f) ∧
    (∀ m ∈ ms, 0 < m.bytes → (ms.foldl Scan.next s).first = some m.type) := by
  induction ms generalizing s with
  | nil => exact ⟨h, fun f hf => hf, fun m hm => absurd hm (by simp)⟩
  | cons m ms ih =>
    rw [List.foldl_cons] at h ⊢
    have h1 := ih _ h
    by_cases hb : 0 < m.bytes
    · have e : s.next m = ⟨s.tot + m.bytes, some (s.first.getD m.type),
          s.same && decide (m.type = s.first.getD m.type)⟩ := by
        unfold Scan.next; rw [if_pos hb]
      have hs := h1.1
      rw [e] at hs
      simp only [Bool.and_eq_true, decide_eq_true_eq] at hs
      have hf := h1.2.1 (s.first.getD m.type) (by rw [e])
      refine ⟨hs.1, fun f h2 => ?_, fun x hx hx0 => ?_⟩
      · rw [hf, h2]; rfl
      · rcases List.mem_cons.mp hx with rfl | hx
        · rw [hf, ← hs.2]
        · exact h1.2.2 x hx hx0
    · have e : s.next m = s := by unfold Scan.next; rw [if_neg hb]
      rw [e] at h1 ⊢
      refine ⟨h1.1, h1.2.1, fun x hx hx0 => ?_⟩
      rcases List.mem_cons.mp hx with rfl | hx
      · exact absurd hx0 hb
      · exact h1.2.2 x hx hx0

/-- the bytes each matrix contributes -/
def chunks (ms : List Mat) : List Byte := ms.flatMap (·.data)

/-- valid or hollow -/
def Okay (m : Mat) : Prop := m.data.length = m.bytes

theorem packFold (ms : List Mat) (hm : ∀ m ∈ ms, Okay m) (buf : List Byte) (off : Nat)
    (h : off + (ms.map Mat.bytes).sum ≤ buf.length) :
    ∃ n, ms.foldlM packStep (buf, off) =
      some (buf.take off ++ chunks ms ++ buf.drop (off + (ms.map Mat.bytes).sum), n) := by
  induction ms generalizing buf off with
  | nil => exact ⟨off, by simp [chunks]⟩
  | cons m ms ih =>
    have hlen := hm m (by simp)
    unfold Okay at hlen
    simp only [List.map_cons, List.sum_cons] at h ⊢
    rw [List.foldlM_cons]
    by_cases hb : 0 < m.bytes
    · have e : packStep (buf, off) m = some (buf.take off ++ m.data ++
          buf.drop (off + m.data.length), off + m.bytes) := by
        simp only [packStep, if_pos hb, blit]
        rw [if_pos (by omega)]; rfl
      rw [e]
      obtain ⟨n, hn⟩ := ih (fun x hx => hm x (by simp [hx]))
        (buf.take off ++ m.data ++ buf.drop (off + m.data.length)) (off + m.bytes)
        (by simp; omega)
      refine ⟨n, ?_⟩
      simp only [Option.bind_eq_bind, Option.bind_some]
      rw [hn]
      congr 2
      have hlo : (buf.take off ++ m.data).length = off + m.bytes := by simp; omega
      rw [List.take_left' hlo]
      rw [List.drop_append, hlo, List.drop_of_length_le (by omega), List.drop_drop, hlen]
      simp only [chunks, List.flatMap_cons, List.nil_append, List.append_assoc]
      congr 4
      omega
    · have e : packStep (buf, off) m = some (buf, off) := by simp [packStep, hb]
      rw [e]
      obtain ⟨n, hn⟩ := ih (fun x hx => hm x (by simp [hx])) buf off (by omega)
      refine ⟨n, ?_⟩
      simp only [Option.bind_eq_bind, Option.bind_some]
      have h0 : m.bytes = 0 := by omega
      have hd : m.data = [] := List.eq_nil_of_length_eq_zero (by omega)
      rw [hn, h0]
      simp [chunks, hd]

theorem chunks_length (ms : List Mat) (hm : ∀ m ∈ ms, Okay m) :
    (chunks ms).length = (ms.map Mat.bytes).sum := by
  induction ms with
  | nil => rfl
  | cons m ms ih =>
    have := hm m (by simp)
    unfold Okay at this
    simp only [chunks, List.flatMap_cons, List.length_append, List.map_cons, List.sum_cons] at ih ⊢
    rw [ih (fun x hx => hm x (by simp [hx])), this]

/-- what unpacking yields for each original -/
def shown (m : Mat) : Mat := if total m.sizes = 0 then Mat.empty else m

theorem unpackFold (ms : List Mat) (hm : ∀ m ∈ ms, Okay m) (p : Mat) (pre : List Byte)
    (acc : List Mat) (h : p.data = pre ++ chunks ms) :
    ∃ n, (ms.map (fun m => (⟨m.sizes, m.type⟩ : Info))).foldlM (unpackStep p) (acc, pre.length) =
      some (acc ++ ms.map shown, n) := by
  induction ms generalizing pre acc with
  | nil => exact ⟨pre.length, by simp⟩
  | cons m ms ih =>
    have hlen := hm m (by simp)
    unfold Okay at hlen
    rw [List.map_cons, List.foldlM_cons]
    have hp : p.data = (pre ++ m.data) ++ chunks ms := by
      rw [h]; simp [chunks]
    have hib : (Info.bytes ⟨m.sizes, m.type⟩) = m.bytes := rfl
    by_cases hb : 0 < m.bytes
    · have e : unpackStep p (acc, pre.length) ⟨m.sizes, m.type⟩ =
          some (acc ++ [m], pre.length + m.bytes) := by
        simp only [unpackStep, hib, if_pos hb]
        rw [if_pos (by rw [hp]; simp; omega)]
        have : (p.data.drop pre.length).take m.bytes = m.data := by
          rw [hp, List.append_assoc, List.drop_left' rfl, List.take_left' hlen]
        rw [this]
      rw [e]
      obtain ⟨n, hn⟩ := ih (fun x hx => hm x (by simp [hx])) (pre ++ m.data) (acc ++ [m]) hp
      refine ⟨n, ?_⟩
      simp only [Option.bind_eq_bind, Option.bind_some]
      rw [show pre.length + m.bytes = (pre ++ m.data).length by simp [hlen], hn]
      have ht : total m.sizes ≠ 0 := by
        intro e; unfold Mat.bytes at hb; rw [e] at hb; simp at hb
      simp [shown, ht]
    · have e : unpackStep p (acc, pre.length) ⟨m.sizes, m.type⟩ =
          some (acc ++ [Mat.empty], pre.length) := by
        simp only [unpackStep, hib, if_neg hb]
      rw [e]
      have h0 : m.bytes = 0 := by omega
      have hd : m.data = [] := List.eq_nil_of_length_eq_zero (by omega)
      obtain ⟨n, hn⟩ := ih (fun x hx => hm x (by simp [hx])) pre (acc ++ [Mat.empty])
        (by rw [hp, hd]; simp)
      refine ⟨n, ?_⟩
      simp only [Option.bind_eq_bind, Option.bind_some]
      rw [hn]
      have ht : total m.sizes = 0 := by
        unfold Mat.bytes at h0
        rcases Nat.mul_eq_zero.mp h0 with h | h
        · exact h
        · exact absurd h (Nat.pos_iff_ne_zero.mp (elemSize_pos _))
      simp [shown, ht]

theorem mapM_infoOf (ms : List Mat) (h : ∀ m ∈ ms, Simple m) :
    ms.mapM infoOf = some (ms.map (fun m => (⟨m.sizes, m.type⟩ : Info))) := by
  induction ms with
  | nil => rfl
  | cons m ms ih =>
    have hs := h m (by simp)
    have e : infoOf m = some ⟨m.sizes, m.type⟩ := by
      unfold infoOf depth channels
      unfold Simple at hs
      rw [if_pos (by omega)]
    rw [List.mapM_cons, e, ih (fun x hx => h x (by simp [hx]))]
    rfl

theorem sum_foldl (l : List Nat) (a : Nat) : l.foldl (· + ·) a = a + l.sum := by
  induction l generalizing a with
  | nil => simp
  | cons b t ih => rw [List.foldl_cons, ih, List.sum_cons]; omega

end Litiv.MatIO
