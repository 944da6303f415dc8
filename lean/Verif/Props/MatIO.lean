import Verif.Lemmas.MatIO

/-!
# Matrix archives and packing: properties

`Valid m` describes the non-empty matrices that can exist.  The readers are run with arbitrary
contents (`Junk`) in every local variable they have not assigned and in the buffer they
allocate.
-/

namespace Litiv.MatIO
open Spec

/-- a 2×3 matrix of type CV_8UC3 (id 16) -/
def sample : Mat := ⟨16, [2, 3], (List.range 18).map (BitVec.ofNat 8)⟩
/-- a 1×1 matrix of type CV_8UC1 -/
def tiny : Mat := ⟨0, [1, 1], [7#8]⟩

theorem sample_valid : Valid sample := by
  constructor <;> decide

theorem tiny_valid : Valid tiny := by
  constructor <;> decide

/-- locals that happen to hold zeros -/
def zeroJunk : Junk := ⟨0, 0, 0, 0, 0, fun _ => 0xCD#8⟩

/-! ## C24: archives -/

/-- C24: every matrix written in the binary format can be read back unchanged: same type, same
dimensions, same bytes. -/
theorem bin_roundtrip (m : Mat) (h : Valid m) :
    ∃ f, writeBin m = .ok f ∧ ∀ j, readBin j f = .ok m := by
  refine ⟨header m ++ m.data, ?_, fun j => ?_⟩
  · unfold writeBin
    rw [if_neg (Nat.pos_iff_ne_zero.mp h.total_pos), h.nbytes, List.take_length]
  · simp only [readBin, readHdr_full j h, create_hdrOf j h]
    rw [show (hdrOf m).esize * (hdrOf m).count % 2 ^ 64 = m.data.length from h.nbytes]
    rw [readData_full _ _ _ _ (alloc_length _ _) h.fits]
    rfl

example : ∃ f, writeBin sample = .ok f ∧ f.length = 50 ∧
    readBin zeroJunk f = .ok sample := by
  refine ⟨header sample ++ sample.data, ?_⟩
  decide +kernel

/-- C24: a binary archive cut anywhere before its end is refused, whatever the uninitialised
locals hold, and nothing is written out of bounds. -/
theorem bin_truncated (m : Mat) (h : Valid m) (f : List Byte) (hf : writeBin m = .ok f)
    (k : Nat) (hk : k < f.length) (j : Junk) : readBin j (f.take k) = .rejected := by
  have e : f = header m ++ m.data := by
    unfold writeBin at hf
    rw [if_neg (Nat.pos_iff_ne_zero.mp h.total_pos), h.nbytes, List.take_length] at hf
    injection hf with hf
    exact hf.symm
  subst e
  by_cases hc : k < (header m).length
  · simp only [readBin]
    cases hr : readHdr j ⟨(header m ++ m.data).take k, true⟩ with
    | none => rfl
    | some q =>
      obtain ⟨hd, s'⟩ := q
      have hb := readHdr_short j h m.data k hc hd s' hr
      dsimp only
      cases hcr : create j hd with
      | none => rfl
      | some m' => simp only [readData_bad _ _ _ hb, hb]; rfl
  · have hc' : (header m).length ≤ k := by omega
    simp only [readBin, take_header m _ k hc', readHdr_full j h, create_hdrOf j h]
    rw [show (hdrOf m).esize * (hdrOf m).count % 2 ^ 64 = m.data.length from h.nbytes]
    obtain ⟨m', hm'⟩ := readData_short m.data.length
      ⟨m.type, m.sizes, alloc j.heap m.data.length⟩ (m.data.take (k - (header m).length))
      (alloc_length _ _) h.fits (by simp at hk ⊢; omega)
    rw [hm']
    rfl

example : readBin zeroJunk ((header sample ++ sample.data).take 49) = .rejected ∧
    readBin zeroJunk ((header sample ++ sample.data).take 13) = .rejected ∧
    readBin ⟨5, 6, 7, 2, 9, fun _ => 0⟩ ((header sample ++ sample.data).take 3) = .rejected := by
  decide +kernel

/-- C24: empty matrices are refused by both writers. -/
theorem write_hollow (m : Mat) (h : Hollow m) (c : Codec) :
    writeBin m = .rejected ∧ writeLz4 c m = .rejected :=
  ⟨if_pos h.1, if_pos h.1⟩

example : Hollow ⟨5, [0, 4], []⟩ := ⟨rfl, rfl⟩

/-- C24 (finding): the reader trusts the byte count stored in the file.  An archive declaring
a 1×1 byte matrix but five elements makes it store five bytes in a one-byte buffer. -/
theorem bin_overflow_refuted :
    ¬ ∀ (j : Junk) (f : List Byte), readBin j f ≠ .ub := by
  intro h
  refine h zeroJunk (leBytes 4 0 ++ leBytes 8 1 ++ leBytes 8 5 ++ leBytes 4 2 ++ leBytes 4 1 ++
    leBytes 4 1 ++ [1, 2, 3, 4, 5]) ?_
  decide +kernel

/-- C24: the binary reader stays in bounds on every file whose declared byte count
(element size times element count) is the one its declared type and sizes call for. -/
theorem bin_safe_partial (j : Junk) (f : List Byte)
    (h : ∀ hd s, readHdr j ⟨f, true⟩ = some (hd, s) → ∀ m, create j hd = some m →
      hd.esize * hd.count % 2 ^ 64 ≤ m.data.length) : readBin j f ≠ .ub := by
  simp only [readBin]
  cases hr : readHdr j ⟨f, true⟩ with
  | none => simp
  | some q =>
    obtain ⟨hd, s⟩ := q
    dsimp only
    cases hc : create j hd with
    | none => simp
    | some m =>
      have hn := h hd s hr m hc
      dsimp only
      have : ∃ x, readData (hd.esize * hd.count % 2 ^ 64) m s = .ok x := by
        unfold readData
        split
        · exact ⟨_, rfl⟩
        · split
          · exact ⟨_, rfl⟩
          · rw [if_neg (by omega)]
            split <;> exact ⟨_, rfl⟩
      obtain ⟨⟨m', s'⟩, hx⟩ := this
      rw [hx]
      dsimp only
      split <;> simp

example : ∀ hd s, readHdr zeroJunk ⟨header tiny ++ [7#8], true⟩ = some (hd, s) →
    ∀ m, create zeroJunk hd = some m → hd.esize * hd.count % 2 ^ 64 ≤ m.data.length := by
  intro hd s h m hm
  rw [readHdr_full _ tiny_valid] at h
  injection h with h
  injection h with h1 h2
  subst h1
  rw [create_hdrOf _ tiny_valid] at hm
  injection hm with hm
  subst hm
  decide

/-- a codec that recognises runs of one byte value -/
def runCodec : Codec where
  compress src cap :=
    match src with
    | [] => []
    | b :: _ => if src = List.replicate src.length b ∧ 1 ≤ cap then [b] else []
  decompress src cap :=
    match src with
    | [b] => some (List.replicate cap b)
    | _ => none

theorem runCodec_lossless : Lossless runCodec := by
  constructor
  · intro src cap
    cases src with
    | nil => simp [runCodec]
    | cons b t =>
      simp only [runCodec]
      split
      · rename_i h; simpa using h.2
      · simp
  · intro src cap h
    cases src with
    | nil => simp [runCodec] at h
    | cons b t =>
      simp only [runCodec] at h ⊢
      split at h
      · rename_i hc
        rw [if_pos hc]
        exact congrArg some hc.1.symm
      · exact absurd rfl h

/-- the complete LZ4 archive of a matrix -/
theorem writeLz4_eq (c : Codec) (hc : Lossless c) (m : Mat) (h : Valid m)
    (hn : m.data.length < 2 ^ 31 - 1) :
    writeLz4 c m = .ok (header m ++ (leBytes 4 (c.compress m.data m.data.length).length ++
      if (c.compress m.data m.data.length).length = 0 then m.data
      else c.compress m.data m.data.length)) := by
  simp only [writeLz4, h.nbytes]
  rw [if_neg (Nat.pos_iff_ne_zero.mp h.total_pos), if_neg (by omega),
    if_neg (by have := hc.fits m.data m.data.length; omega), List.take_length]

/-- C24: with a lossless codec, every matrix of fewer than 2^31-1 bytes written in the LZ4
format can be read back unchanged. -/
theorem lz4_roundtrip (c : Codec) (hc : Lossless c) (m : Mat) (h : Valid m)
    (hn : m.data.length < 2 ^ 31 - 1) :
    ∃ f, writeLz4 c m = .ok f ∧ ∀ j, readLz4 c j f = .ok m := by
  refine ⟨_, writeLz4_eq c hc m h hn, fun j => ?_⟩
  have hz := hc.fits m.data m.data.length
  have hi := hc.inv m.data m.data.length
  generalize c.compress m.data m.data.length = z at hz hi
  simp only [readLz4, readHdr_full j h, create_hdrOf j h, readInto_field]
  rw [show (hdrOf m).esize * (hdrOf m).count % 2 ^ 64 = m.data.length from h.nbytes]
  rw [leVal_leBytes _ _ (by omega), if_neg (by simp),
    if_neg (Nat.pos_iff_ne_zero.mp h.total_pos), if_neg (by omega)]
  by_cases h0 : z.length = 0
  · rw [if_pos h0, if_pos h0, readData_full _ _ _ _ (alloc_length _ _) h.fits]
  · rw [if_neg h0, if_neg h0]
    rw [readInto_ok _ _ _ rfl (by simp)]
    simp only [List.take_length]
    rw [if_neg (by simp), if_neg (by omega),
      hi (by intro e; rw [e] at h0; exact h0 rfl)]
    dsimp only
    rw [if_neg (by simp [alloc_length]), if_pos rfl,
      List.drop_of_length_le (by simp [alloc_length]), List.append_nil]

example : ∃ f, writeLz4 runCodec ⟨2, [2, 2], List.replicate 8 9#8⟩ = .ok f ∧ f.length = 37 ∧
    readLz4 runCodec zeroJunk f = .ok ⟨2, [2, 2], List.replicate 8 9#8⟩ := by
  refine ⟨header ⟨2, [2, 2], []⟩ ++ leBytes 4 1 ++ [9], ?_⟩
  decide +kernel

/-- C24 (finding): an LZ4 archive that stores its matrix uncompressed is not checked after the
data is read: cutting the last byte off gives a matrix with uninitialised contents. -/
theorem lz4_truncated_refuted :
    ¬ ∀ (c : Codec), Lossless c → ∀ (m : Mat), Valid m → ∀ f, writeLz4 c m = .ok f →
      ∀ k, k < f.length → ∀ j, readLz4 c j (f.take k) = .rejected := by
  intro h
  have := h ⟨fun _ _ => [], fun _ _ => none⟩ ⟨fun _ _ => by simp, fun _ _ h => absurd rfl h⟩
    tiny tiny_valid (header tiny ++ (leBytes 4 0 ++ [7#8])) (by decide +kernel) 36
    (by decide +kernel) zeroJunk
  revert this
  decide +kernel

/-- C24: what does hold for LZ4 archives: a file cut inside the header is refused, and so is
one cut inside compressed data.  Missing: cuts inside the stored compressed size, and inside
data that was stored uncompressed (`lz4_truncated_refuted`). -/
theorem lz4_truncated_partial (c : Codec) (hc : Lossless c) (m : Mat) (h : Valid m)
    (f : List Byte) (hf : writeLz4 c m = .ok f) (k : Nat) (hk : k < f.length) (j : Junk)
    (hcut : k < 24 + 4 * m.sizes.length ∨
      (c.compress m.data m.data.length ≠ [] ∧ 28 + 4 * m.sizes.length ≤ k)) :
    readLz4 c j (f.take k) = .rejected := by
  have hn : m.data.length < 2 ^ 31 - 1 := by
    by_contra hb
    have : writeLz4 c m = .rejected := by
      simp only [writeLz4, h.nbytes]
      rw [if_neg (Nat.pos_iff_ne_zero.mp h.total_pos), if_pos (by omega)]
    rw [this] at hf; exact absurd hf (by simp)
  rw [writeLz4_eq c hc m h hn] at hf
  injection hf with hf
  subst hf
  have hz := hc.fits m.data m.data.length
  generalize hzc : c.compress m.data m.data.length = z at *
  have hl := header_length m
  rcases hcut with hcut | ⟨hne, hcut⟩
  · simp only [readLz4]
    cases hr : readHdr j ⟨List.take k (header m ++ (leBytes 4 z.length ++
        if z.length = 0 then m.data else z)), true⟩ with
    | none => rfl
    | some q =>
      obtain ⟨hd, s'⟩ := q
      have hb := readHdr_short j h _ k (by omega) hd s' hr
      dsimp only
      cases hcr : create j hd with
      | none => rfl
      | some m' => dsimp only; rw [if_pos hb]
  · have h0 : z.length ≠ 0 := fun e => hne (List.eq_nil_of_length_eq_zero e)
    rw [if_neg h0] at hk ⊢
    simp only [List.length_append, leBytes_length] at hk
    have e : List.take k (header m ++ (leBytes 4 z.length ++ z)) =
        header m ++ (leBytes 4 z.length ++ z.take (k - (header m).length - 4)) := by
      rw [take_header _ _ _ (by omega), List.take_append,
        List.take_of_length_le (by rw [leBytes_length]; omega), leBytes_length]
    simp only [e, readLz4, readHdr_full j h, create_hdrOf j h, readInto_field]
    rw [show (hdrOf m).esize * (hdrOf m).count % 2 ^ 64 = m.data.length from h.nbytes]
    rw [leVal_leBytes _ _ (by omega), if_neg (by simp),
      if_neg (Nat.pos_iff_ne_zero.mp h.total_pos), if_neg (by omega), if_neg h0]
    rw [if_pos]
    exact readInto_short _ _ _ (by simp; omega)

example : readLz4 runCodec zeroJunk ((header tiny ++ leBytes 4 1 ++ [7#8]).take 36) = .rejected := by
  decide +kernel

/-! ## C25: packing -/

/-- C25: packing any list of matrices and unpacking the result with the recorded info gives
back the matrices, in order; a matrix without elements comes back as `cv::Mat()`. -/
theorem pack_roundtrip (heap : Nat → Byte) (ms : List Mat) (hv : ∀ m ∈ ms, Valid m ∨ Hollow m)
    (hs : ∀ m ∈ ms, Simple m) (hb : (ms.map (·.data.length)).sum < 2 ^ 31 - 1) :
    ∃ p infos, packData heap ms = some (p, infos) ∧
      infos = ms.map (fun m => ⟨m.sizes, m.type⟩) ∧
      p.data = ms.flatMap (·.data) ∧
      unpackData p infos = some (ms.map fun m => if total m.sizes = 0 then Mat.empty else m) := by
  have ho : ∀ m ∈ ms, Okay m := by
    intro m hm
    unfold Okay Mat.bytes
    rcases hv m hm with h | h
    · rw [h.len', Nat.mul_comm]
    · rw [h.1, h.2]; simp
  have hsum : (ms.map (·.data.length)).sum = (ms.map Mat.bytes).sum := by
    congr 1
    exact List.map_congr_left ho
  rw [hsum] at hb
  have hbytes0 : ∀ m : Mat, m.bytes = 0 → total m.sizes = 0 := by
    intro m h0
    unfold Mat.bytes at h0
    rcases Nat.mul_eq_zero.mp h0 with h | h
    · exact h
    · exact absurd h (Nat.pos_iff_ne_zero.mp (elemSize_pos _))
  -- the general unpacking step
  have hun : ∀ p : Mat, p.data = chunks ms → p.bytes = (ms.map Mat.bytes).sum →
      total p.sizes ≠ 0 → (ms.map Mat.bytes).sum ≠ 0 →
      unpackData p (ms.map (fun m => (⟨m.sizes, m.type⟩ : Info))) = some (ms.map shown) := by
    intro p hp hpb hpt h0
    have hne : ms ≠ [] := by rintro rfl; exact h0 rfl
    have e : ((ms.map (fun m => (⟨m.sizes, m.type⟩ : Info))).map Info.bytes).foldl (· + ·) 0 =
        (ms.map Mat.bytes).sum := by
      rw [sum_foldl, List.map_map, Nat.zero_add]; rfl
    simp only [unpackData]
    rw [if_neg hpt, if_neg (by simpa using hne), e, if_neg h0, if_neg (by simp [hpb])]
    obtain ⟨n, hn⟩ := unpackFold ms ho p [] [] (by simpa using hp)
    rw [List.length_nil] at hn
    rw [hn]; simp
  -- all empty
  have hempty : (ms.map Mat.bytes).sum = 0 →
      unpackData Mat.empty (ms.map (fun m => (⟨m.sizes, m.type⟩ : Info))) =
        some (ms.map shown) ∧ chunks ms = [] := by
    intro h0
    have hz : ∀ m ∈ ms, total m.sizes = 0 := by
      intro m hm
      apply hbytes0
      exact List.sum_eq_zero_iff.mp h0 _ (List.mem_map_of_mem hm)
    constructor
    · unfold unpackData
      rw [if_pos (show total Mat.empty.sizes = 0 from rfl), if_pos (by simpa using hz), List.length_map]
      congr 1
      rw [← List.map_const']
      exact List.map_congr_left (fun m hm => by simp [shown, hz m hm])
    · apply List.eq_nil_of_length_eq_zero
      rw [chunks_length ms ho, h0]
  unfold packData
  rw [mapM_infoOf ms hs]
  rcases ms with _ | ⟨a, _ | ⟨b, t⟩⟩
  · exact ⟨_, _, rfl, rfl, rfl, rfl⟩
  · refine ⟨_, _, rfl, rfl, ?_, ?_⟩
    · unfold clone
      split
      · rename_i h0
        have : a.data = [] := by
          apply List.eq_nil_of_length_eq_zero
          have := ho a (by simp)
          unfold Okay at this
          rw [this]; unfold Mat.bytes; rw [h0]; simp
        simp [this, Mat.empty]
      · simp
    · by_cases h0 : total a.sizes = 0
      · have := (hempty (by simp [Mat.bytes, h0])).1
        simpa [clone, h0, shown] using this
      · have hb0 : a.bytes ≠ 0 := fun e => h0 (hbytes0 a e)
        have := hun a (by simp [chunks]) (by simp) h0 (by simpa using hb0)
        simpa [clone, h0, shown] using this
  · dsimp only
    generalize a :: b :: t = ms at *
    suffices hm : ∃ p, packMany heap ms = some p ∧ p.data = chunks ms ∧
        unpackData p (ms.map (fun m => (⟨m.sizes, m.type⟩ : Info))) = some (ms.map shown) by
      obtain ⟨p, h1, h2, h3⟩ := hm
      exact ⟨p, _, by rw [h1]; rfl, rfl, h2, h3⟩
    simp only [packMany]
    have htot := scan_spec ms ⟨0, none, true⟩
    simp only [Nat.zero_add] at htot
    rw [htot]
    by_cases h0 : (ms.map Mat.bytes).sum = 0
    · rw [if_pos h0]
      exact ⟨_, rfl, (hempty h0).2.symm, (hempty h0).1⟩
    · rw [if_neg h0, if_neg (by omega)]
      -- packet geometry: element count times element size is the byte total
      have hgeo : ∀ s : Scan, s = ms.foldl Scan.next ⟨0, none, true⟩ →
          (if s.same then (ms.map Mat.bytes).sum / elemSize (s.first.getD 0)
            else (ms.map Mat.bytes).sum) *
          elemSize (if s.same then s.first.getD 0 else 0) = (ms.map Mat.bytes).sum := by
        intro s hse
        by_cases hsame : s.same = true
        · rw [if_pos hsame, if_pos hsame]
          apply Nat.div_mul_cancel
          rw [hse] at hsame
          have h3 := (scan_same ms _ hsame).2.2
          have hdvd : ∀ (d : Nat) (l : List Nat), (∀ x ∈ l, d ∣ x) → d ∣ l.sum := by
            intro d l
            induction l with
            | nil => intro _; simp
            | cons y l ih =>
              intro hl
              rw [List.sum_cons]
              exact Nat.dvd_add (hl y (by simp)) (ih (fun x hx => hl x (by simp [hx])))
          apply hdvd
          intro x hx
          obtain ⟨m, hm, rfl⟩ := List.mem_map.mp hx
          by_cases hm0 : 0 < m.bytes
          · rw [hse, h3 m hm hm0]
            exact Dvd.intro_left _ rfl
          · rw [show m.bytes = 0 by omega]; exact dvd_zero _
        · rw [if_neg hsame, if_neg hsame]
          simp [elemSize, depth, channels, depthBytes]
      have hgeo' := hgeo _ rfl
      generalize ms.foldl Scan.next ⟨0, none, true⟩ = s at hgeo' ⊢
      generalize (if s.same then (ms.map Mat.bytes).sum / elemSize (s.first.getD 0)
            else (ms.map Mat.bytes).sum) = n at hgeo' ⊢
      generalize (if s.same then s.first.getD 0 else 0) = ty at hgeo' ⊢
      obtain ⟨e, he⟩ := packFold ms ho (alloc heap (n * elemSize ty)) 0
        (by rw [alloc_length, hgeo']; omega)
      rw [he]
      have hd : (List.take 0 (alloc heap (n * elemSize ty)) ++ chunks ms ++
          List.drop (0 + (ms.map Mat.bytes).sum) (alloc heap (n * elemSize ty))) = chunks ms := by
        rw [List.drop_of_length_le (by rw [alloc_length, hgeo']; omega)]; simp
      rw [hd]
      refine ⟨_, rfl, rfl, ?_⟩
      apply hun _ rfl
      · simpa [Mat.bytes, total] using hgeo'
      · simp only [total, List.foldl_cons, List.foldl_nil, Nat.one_mul]
        intro hn0; rw [hn0] at hgeo'; simp at hgeo'; exact h0 hgeo'.symm
      · exact h0

/-- two matrices of different types and an empty one -/
def mixed : List Mat := [sample, ⟨5, [0, 4], []⟩, ⟨2, [1, 2], [1, 2, 3, 4]⟩]

example : (∀ m ∈ mixed, Valid m ∨ Hollow m) ∧ (∀ m ∈ mixed, Simple m) ∧
    (mixed.map (·.data.length)).sum = 22 := by
  refine ⟨?_, ?_, by decide⟩
  · intro m hm
    simp only [mixed, List.mem_cons, List.not_mem_nil, or_false] at hm
    rcases hm with rfl | rfl | rfl
    · exact Or.inl sample_valid
    · exact Or.inr ⟨rfl, rfl⟩
    · left; constructor <;> decide
  · intro m hm
    simp only [mixed, List.mem_cons, List.not_mem_nil, or_false] at hm
    rcases hm with rfl | rfl | rfl <;> (unfold Simple; decide)

example : (packData (fun _ => 0) mixed).map (fun q => (q.1.type, q.1.sizes)) = some (0, [1, 22]) ∧
    (packData (fun _ => 0) [sample, sample]).map (fun q => (q.1.type, q.1.sizes)) =
      some (16, [1, 12]) := by decide +kernel

/-- C25 (finding): the shape and type of a matrix without elements are recorded but not
restored. -/
theorem pack_hollow_refuted :
    ¬ ∀ (heap : Nat → Byte) (ms : List Mat), (∀ m ∈ ms, Valid m ∨ Hollow m) →
      (∀ m ∈ ms, Simple m) → ∀ p infos, packData heap ms = some (p, infos) →
      unpackData p infos = some ms := by
  intro h
  have := h (fun _ => 0) [⟨5, [0, 4], []⟩] (by intro m hm; simp at hm; subst hm; exact Or.inr ⟨rfl, rfl⟩)
    (by intro m hm; simp at hm; subst hm; unfold Simple; decide) Mat.empty [⟨[0, 4], 5⟩]
    (by decide)
  revert this
  decide

/-- C25: matrices with more than four channels cannot be packed with info. -/
theorem pack_channels (heap : Nat → Byte) (ms : List Mat) (m : Mat) (hm : m ∈ ms)
    (h : ¬ Simple m) : packData heap ms = none := by
  have : ms.mapM infoOf = none := by
    clear heap
    induction ms with
    | nil => simp at hm
    | cons a t ih =>
      rw [List.mapM_cons]
      rcases List.mem_cons.mp hm with rfl | hm
      · have : infoOf m = none := by
          unfold Simple at h
          unfold infoOf depth channels
          rw [if_neg (by omega)]
        rw [this]; rfl
      · rw [ih hm]
        cases infoOf a <;> rfl
  unfold packData
  rw [this]

example : ¬ Simple ⟨32, [1, 1], [1, 2, 3, 4, 5]⟩ := by unfold Simple; decide

theorem unpackFold_sound (p : Mat) (infos : List Info) (acc : List Mat) (off : Nat) (ms : List Mat)
    (n : Nat) (ho : (acc.flatMap (·.data)) = p.data.take off) (hoff : off ≤ p.data.length)
    (h : infos.foldlM (unpackStep p) (acc, off) = some (ms, n)) :
    ∃ new, ms = acc ++ new ∧ ms.flatMap (·.data) = p.data.take n ∧
      n = off + (infos.map Info.bytes).sum ∧
      List.Forall₂ (fun (i : Info) (m : Mat) => if 0 < i.bytes then
        m.sizes = i.sizes ∧ m.type = i.type ∧ m.data.length = i.bytes else m = Mat.empty)
        infos new := by
  induction infos generalizing acc off with
  | nil =>
    simp only [List.foldlM_nil, Option.pure_def, Option.some.injEq, Prod.mk.injEq] at h
    obtain ⟨rfl, rfl⟩ := h
    exact ⟨[], by simp, ho, by simp, .nil⟩
  | cons i infos ih =>
    rw [List.foldlM_cons] at h
    by_cases hb : 0 < i.bytes
    · by_cases hc : off + i.bytes ≤ p.data.length
      · have e : unpackStep p (acc, off) i = some (acc ++ [⟨i.type, i.sizes,
            (p.data.drop off).take i.bytes⟩], off + i.bytes) := by
          simp only [unpackStep, if_pos hb, if_pos hc]
        rw [e] at h
        obtain ⟨new, h1, h2, h3, h4⟩ := ih _ _
          (by rw [List.flatMap_append, ho]; simp [List.take_add]) hc h
        refine ⟨_ :: new, by rw [h1]; simp; rfl, h2, by rw [h3]; simp; omega, .cons ?_ h4⟩
        rw [if_pos hb]
        exact ⟨rfl, rfl, by simp; omega⟩
      · have e : unpackStep p (acc, off) i = none := by
          simp only [unpackStep, if_pos hb, if_neg hc]
        rw [e] at h; exact absurd h (by simp)
    · have e : unpackStep p (acc, off) i = some (acc ++ [Mat.empty], off) := by
        simp only [unpackStep, if_neg hb]
      rw [e] at h
      obtain ⟨new, h1, h2, h3, h4⟩ := ih _ _
        (by rw [List.flatMap_append, ho]; simp [Mat.empty]) hoff h
      refine ⟨_ :: new, by rw [h1]; simp; rfl, h2, by rw [h3]; simp; omega, .cons ?_ h4⟩
      rw [if_neg hb]

/-- C25: whenever unpacking a non-empty packet succeeds, every output has the shape and type
its info asks for, and the outputs are disjoint pieces that together make up the packet. -/
theorem unpack_sound (p : Mat) (infos : List Info) (ms : List Mat)
    (hp : p.data.length = total p.sizes * elemSize p.type) (hne : total p.sizes ≠ 0)
    (h : unpackData p infos = some ms) :
    ms.flatMap (·.data) = p.data ∧
    List.Forall₂ (fun (i : Info) (m : Mat) => if 0 < i.bytes then
        m.sizes = i.sizes ∧ m.type = i.type ∧ m.data.length = i.bytes else m = Mat.empty)
        infos ms := by
  simp only [unpackData] at h
  rw [if_neg hne] at h
  split at h
  · exact absurd h (by simp)
  · split at h
    · exact absurd h (by simp)
    · split at h
      · exact absurd h (by simp)
      · rename_i h1 h2 h3
        rw [sum_foldl, Nat.zero_add] at h3
        push Not at h3
        rw [Option.map_eq_some_iff] at h
        obtain ⟨⟨ms', n⟩, h4, rfl⟩ := h
        obtain ⟨new, e1, e2, e3, e4⟩ := unpackFold_sound p infos [] 0 ms' n (by simp) (by simp) h4
        simp only [List.nil_append] at e1
        subst e1
        refine ⟨?_, e4⟩
        rw [e2, e3, h3, Nat.zero_add]
        apply List.take_of_length_le
        rw [hp]; exact Nat.le_refl _

example : (unpackData sample [⟨[3, 3], 0⟩, ⟨[1, 3], 16⟩]).isSome = true := by decide +kernel

/-- C25: info that does not account for every byte of the packet is refused. -/
theorem unpack_mismatch (p : Mat) (infos : List Info)
    (h : (infos.map Info.bytes).sum ≠ p.bytes) (hne : total p.sizes ≠ 0) :
    unpackData p infos = none := by
  simp only [unpackData]
  rw [if_neg hne]
  split
  · rfl
  · split
    · rfl
    · rw [if_pos]
      rw [sum_foldl, Nat.zero_add]; exact h

example : unpackData sample [⟨[3, 3], 0⟩] = none := by decide +kernel

end Litiv.MatIO
