import Verif.Lemmas.Bits

/-!
# Properties C14 - C19, C55: bit-level helpers and integer distances
-/

namespace Litiv.Bits
open Spec

/-! ## C14: powers of two -/

/-- C14 (part): for every non-zero value of every width, `ispow2` holds exactly for the powers of two. Missing: the value
0, for which `ispow2` answers `true` (`ispow2_accepts_zero`). -/
theorem ispow2_spec_partial {w : Nat} (x : BitVec w) (h : x ≠ 0) : ispow2 x = true ↔ ∃ k, x.toNat = 2 ^ k := by
  rw [ispow2_iff, or_iff_right h]

example : (12#32 : BitVec 32) ≠ 0 ∧ ispow2 (12#32) = false ∧ ispow2 (64#32) = true := by decide

/-- C14 fails at 0 for every width: 0 is reported as a power of two. -/
theorem ispow2_accepts_zero (w : Nat) : ispow2 (0 : BitVec w) = true ∧ ¬ ∃ k, (0 : BitVec w).toNat = 2 ^ k := by
  refine ⟨(ispow2_iff _).2 (Or.inl rfl), ?_⟩
  rintro ⟨k, hk⟩
  have := Nat.two_pow_pos k
  simp at hk
  omega

/-- C14: `get_next_pow2` returns the least power of two that is at least its argument, for every argument for which one
is representable in 32 bits. -/
theorem getNextPow2_spec (x : BitVec 32) (h0 : 0 < x.toNat) (h1 : x.toNat ≤ 2 ^ 31) :
    LeastPow2 x.toNat (getNextPow2 x).toNat := by
  by_cases hx : x.toNat = 1
  · have : x = 1 := BitVec.eq_of_toNat_eq (by rw [hx]; rfl)
    subst this
    have e : (getNextPow2 1).toNat = 1 := by decide
    rw [e]
    refine ⟨⟨0, rfl⟩, by decide, fun k _ => Nat.one_le_two_pow⟩
  · obtain ⟨k, hk1, hk2, hk3⟩ := getNextPow2_zero_lt x (by omega)
    have hk : k + 1 < 32 := by
      have : 2 ^ k < 2 ^ 31 := by omega
      have := (Nat.pow_lt_pow_iff_right (a := 2) (by omega)).1 this
      omega
    rw [Nat.mod_eq_of_lt (Nat.pow_lt_pow_right (by omega) hk)] at hk3
    rw [hk3]
    refine ⟨⟨k + 1, rfl⟩, hk2, fun k' hk' => Nat.pow_le_pow_right (by omega) ?_⟩
    have : 2 ^ k < 2 ^ k' := by omega
    exact (Nat.pow_lt_pow_iff_right (a := 2) (by omega)).1 this

example : (0 < (1000#32).toNat ∧ (1000#32).toNat ≤ 2 ^ 31) ∧ getNextPow2 1000#32 = 1024#32 := by decide

/-- C14: outside that range (0, or more than `2^31`) the result is 0. -/
theorem getNextPow2_outside (x : BitVec 32) (h : x.toNat = 0 ∨ 2 ^ 31 < x.toNat) : getNextPow2 x = 0 := by
  rcases h with h | h
  · have : x = 0 := BitVec.eq_of_toNat_eq (by rw [h]; rfl)
    subst this; decide
  · obtain ⟨k, hk1, hk2, hk3⟩ := getNextPow2_zero_lt x (by omega)
    have h4 : 2 ^ 31 < 2 ^ (k + 1) := by omega
    have h5 := (Nat.pow_lt_pow_iff_right (a := 2) (by omega)).1 h4
    have hx := x.isLt
    have h6 : 2 ^ k < 2 ^ 32 := by omega
    have h7 := (Nat.pow_lt_pow_iff_right (a := 2) (by omega)).1 h6
    have : k = 31 := by omega
    subst this
    exact BitVec.eq_of_toNat_eq (by rw [hk3]; rfl)

example : 2 ^ 31 < (3000000000#32).toNat := by decide

/-! ## C15: bit counts -/

/-- C15: for every number of bytes and every value, the table-based bit count with an `o`-bit output is the number of set
bits, whenever the width itself is representable in the output (8 output bits suffice up to 31 bytes). -/
theorem popcount_spec (o : Nat) {n : Nat} (x : BitVec (8 * n)) (h : 8 * n < 2 ^ o) : (popcount o x).toNat = ones x := by
  rw [popcount_eq, BitVec.toNat_ofNat, Nat.mod_eq_of_lt (Nat.lt_of_le_of_lt (ones_le x) h)]

example : 8 * 8 < 2 ^ 8 ∧ (popcount 8 (n := 8) 0xF00000000000000F#64) = 8 := by decide +kernel

/-- C15: the single-byte lookup table is right at all 256 entries and covers every byte. -/
theorem popcount8_spec (x : BitVec 8) : (popcount8 8 x).toNat = ones x ∧ x.toNat < popcntLUT8.length := by
  refine ⟨?_, Nat.lt_of_lt_of_le x.isLt (by decide +kernel)⟩
  have h := ones_le x
  rw [popcount8, popcntLUT8_ok, BitVec.toNat_ofNat]
  exact Nat.mod_eq_of_lt (by omega)

/-- C15: `hdist` counts the differing bit positions. -/
theorem hdist_spec (o : Nat) {n : Nat} (a b : BitVec (8 * n)) (h : 8 * n < 2 ^ o) :
    (hdist o a b).toNat = differing a b := by
  rw [hdist, popcount_spec o _ h, ones_xor]

example : hdist 8 (n := 2) 0x00FF#16 0x0F0F#16 = 8 := by decide

/-! ## C16: metrics on descriptors -/

/-- C16: `hdist` (default 8-bit result, descriptors of up to 31 bytes) is a metric bounded by the bit width. -/
theorem hdist_metric {n : Nat} (hn : 8 * n < 2 ^ 8) (a b c : BitVec (8 * n)) :
    ((hdist 8 a b).toNat = 0 ↔ a = b) ∧ hdist 8 a b = hdist 8 b a ∧
      (hdist 8 a c).toNat ≤ (hdist 8 a b).toNat + (hdist 8 b c).toNat ∧ (hdist 8 a b).toNat ≤ 8 * n := by
  have e := fun a b : BitVec (8 * n) => hdist_spec 8 a b hn
  refine ⟨by rw [e, differing_eq_zero], BitVec.eq_of_toNat_eq (by rw [e, e, differing_comm]), ?_, by rw [e]; exact differing_le a b⟩
  rw [e, e, e]; exact differing_triangle a b c

example : 8 * 2 < 2 ^ 8 := by decide

/-- C16: `gdist` is the difference of the bit counts, and is bounded by `hdist`. -/
theorem gdist_spec {n : Nat} (hn : 8 * n < 2 ^ 8) (a b : BitVec (8 * n)) :
    (gdist a b).toNat = dist (ones a) (ones b) ∧ (gdist a b).toNat ≤ (hdist 8 a b).toNat := by
  have e : (gdist a b).toNat = dist (ones a) (ones b) := by
    rw [gdist, l1distU_eq, popcount_spec 8 a hn, popcount_spec 8 b hn]
  exact ⟨e, by rw [e, hdist_spec 8 a b hn]; exact dist_ones_le a b⟩

example : gdist (n := 2) 0x00FF#16 0xF0FF#16 = 4 ∧ gdist (n := 2) 0x00FF#16 0xFF00#16 = 0 := by decide

/-! ## C17: array forms -/

/-- C17 (part): the array bit count is the exact sum when it is representable in the output type. Missing: the
unconditional claim, false for the default output type (`popcountArr_wraps`). -/
theorem popcountArr_spec_partial (o : Nat) {n : Nat} (xs : List (BitVec (8 * n))) (h : (xs.map ones).sum < 2 ^ o) :
    (popcountArr o xs).toNat = (xs.map ones).sum := by
  have := fold_ofNat o (fun x : BitVec (8 * n) => popcount o x) ones (fun x => popcount_eq o x) xs 0
  simp only [Nat.zero_add] at this
  unfold popcountArr
  rw [show (0 : BitVec o) = BitVec.ofNat o 0 from rfl, this, BitVec.toNat_ofNat, Nat.mod_eq_of_lt h]

example : ([0xFFFF#16, 0x0001#16, 0x8000#16].map fun x : BitVec (8 * 2) => ones x).sum = 18 := by decide

/-- C17 (part): the array Hamming distance is the exact sum when it is representable in the output type; with the default
8-bit output this covers up to 15 channels of 16 bits. -/
theorem hdistArr_spec_partial (o : Nat) {n : Nat} (a b : List (BitVec (8 * n)))
    (h : ((a.zip b).map fun p => differing p.1 p.2).sum < 2 ^ o) :
    (hdistArr o a b).toNat = ((a.zip b).map fun p => differing p.1 p.2).sum := by
  have := fold_ofNat o (fun p : BitVec (8 * n) × BitVec (8 * n) => popcount o (p.1 ^^^ p.2)) (fun p => differing p.1 p.2)
    (fun x => by rw [popcount_eq, ones_xor]) (a.zip b) 0
  simp only [Nat.zero_add] at this
  unfold hdistArr
  rw [show (0 : BitVec o) = BitVec.ofNat o 0 from rfl, this, BitVec.toNat_ofNat, Nat.mod_eq_of_lt h]

/-- C17: for `nc` channels of `n` bytes, `8 * n * nc < 2^o` is enough for exactness of both. -/
theorem hdistArr_exact (o : Nat) {n : Nat} (a b : List (BitVec (8 * n))) (h : 8 * n * a.length < 2 ^ o) :
    (hdistArr o a b).toNat = ((a.zip b).map fun p => differing p.1 p.2).sum := by
  apply hdistArr_spec_partial
  refine Nat.lt_of_le_of_lt ?_ h
  have : ∀ l : List (BitVec (8 * n) × BitVec (8 * n)), (l.map fun p => differing p.1 p.2).sum ≤ 8 * n * l.length := by
    intro l
    induction l with
    | nil => simp
    | cons p l ih =>
      have := differing_le p.1 p.2
      simp only [List.map_cons, List.sum_cons, List.length_cons]
      rw [Nat.mul_add, Nat.mul_one]
      omega
  refine Nat.le_trans (this _) (Nat.mul_le_mul_left _ ?_)
  rw [List.length_zip]; exact Nat.min_le_left _ _

example : 8 * 2 * ([0xFFFF#16, 0x0001#16, 0x8000#16] : List (BitVec (8 * 2))).length < 2 ^ 8 := by decide

/-- C17 fails for the default 8-bit output type: sixteen 16-bit values with all bits set count as 0. -/
theorem popcountArr_wraps : popcountArr 8 (n := 2) (List.replicate 16 0xFFFF#16) = 0 := by decide +kernel

/-- C17 (part): the array L1 distance is the exact sum when it is representable in the output type. Missing: the
unconditional claim, false for the default output type of the fixed-size overload (`l1distArr_wraps`). -/
theorem l1distArr_spec_partial (o : Nat) {w : Nat} (a b : List (BitVec w))
    (h : ((a.zip b).map fun p => dist p.1.toNat p.2.toNat).sum < 2 ^ o) :
    (l1distArr o a b).toNat = ((a.zip b).map fun p => dist p.1.toNat p.2.toNat).sum := by
  have := fold_ofNat o (fun p : BitVec w × BitVec w => (l1distU p.1 p.2).setWidth o) (fun p => dist p.1.toNat p.2.toNat)
    (fun p => BitVec.eq_of_toNat_eq (by simp [l1distU_eq])) (a.zip b) 0
  simp only [Nat.zero_add] at this
  unfold l1distArr
  rw [show (0 : BitVec o) = BitVec.ofNat o 0 from rfl, this, BitVec.toNat_ofNat, Nat.mod_eq_of_lt h]

/-- C17: with the `size_t` output of the multi-element overload, 8-bit data is summed exactly for any array shorter than
`2^56`. -/
theorem l1distArr_exact_sizet (a b : List (BitVec 8)) (h : a.length < 2 ^ 56) :
    (l1distArr 64 a b).toNat = ((a.zip b).map fun p => dist p.1.toNat p.2.toNat).sum := by
  apply l1distArr_spec_partial
  have : ∀ l : List (BitVec 8 × BitVec 8), (l.map fun p => dist p.1.toNat p.2.toNat).sum ≤ 255 * l.length := by
    intro l
    induction l with
    | nil => simp
    | cons p l ih =>
      have := dist_lt p.1 p.2
      simp only [List.map_cons, List.sum_cons, List.length_cons]
      omega
  have h2 := this (a.zip b)
  rw [List.length_zip] at h2
  have : min a.length b.length ≤ a.length := Nat.min_le_left _ _
  omega

example : ([1#8, 200#8, 3#8] : List (BitVec 8)).length < 2 ^ 56 := by decide

/-- C17 fails for the default output type of the fixed-size overload: two 8-bit channels with differences 255 and 1 sum
to 0. -/
theorem l1distArr_wraps : l1distArr 8 [255#8, 1#8] [0#8, 0#8] = 0 ∧
    (([255#8, 1#8].zip [0#8, 0#8]).map fun p => dist p.1.toNat p.2.toNat).sum = 256 := by decide +kernel

/-- C17: the masked multi-element form sums exactly the elements whose mask byte is non-zero. -/
theorem l1distMasked_spec (a b : List (List (BitVec 8))) (m : List (BitVec 8))
    (h : (((a.zip b).zip m).map fun p => if p.2 ≠ 0 then ((p.1.1.zip p.1.2).map fun q => dist q.1.toNat q.2.toNat).sum else 0).sum < 2 ^ 64) :
    (l1distMasked 64 a b (some m)).toNat =
      (((a.zip b).zip m).map fun p => if p.2 ≠ 0 then ((p.1.1.zip p.1.2).map fun q => dist q.1.toNat q.2.toNat).sum else 0).sum := by
  have e1 : ∀ a b : List (BitVec 8), l1distArr 64 a b =
      BitVec.ofNat 64 ((a.zip b).map fun q => dist q.1.toNat q.2.toNat).sum := by
    intro a b
    have := fold_ofNat 64 (fun p : BitVec 8 × BitVec 8 => (l1distU p.1 p.2).setWidth 64) (fun p => dist p.1.toNat p.2.toNat)
      (fun p => BitVec.eq_of_toNat_eq (by simp [l1distU_eq])) (a.zip b) 0
    simp only [Nat.zero_add] at this
    exact this
  have e2 : (fun (r : BitVec 64) (p : (List (BitVec 8) × List (BitVec 8)) × BitVec 8) =>
      if p.2 ≠ 0 then r + l1distArr 64 p.1.1 p.1.2 else r) =
      fun r p => r + (if p.2 ≠ 0 then l1distArr 64 p.1.1 p.1.2 else 0#64) := by
    funext r p; split <;> simp
  have := fold_ofNat 64 (fun p : (List (BitVec 8) × List (BitVec 8)) × BitVec 8 =>
      if p.2 ≠ 0 then l1distArr 64 p.1.1 p.1.2 else 0#64)
    (fun p => if p.2 ≠ 0 then ((p.1.1.zip p.1.2).map fun q => dist q.1.toNat q.2.toNat).sum else 0)
    (fun p => by split
                 · rw [e1]
                 · rfl) ((a.zip b).zip m) 0
  simp only [Nat.zero_add] at this
  unfold l1distMasked
  dsimp only
  rw [e2, show (0 : BitVec 64) = BitVec.ofNat 64 0 from rfl, this, BitVec.toNat_ofNat, Nat.mod_eq_of_lt h]

example : l1distMasked 64 [[1#8, 2#8], [9#8, 9#8]] [[3#8, 0#8], [0#8, 0#8]] (some [255#8, 0#8]) = 4 := by decide

/-! ## C18: L1, L2 and colour distances -/

/-- C18: `L1dist` of unsigned integers of any width is the exact distance (hence symmetric, zero only on equal arguments,
obeying the triangle inequality, below `2^w`). -/
theorem l1distU_spec {w : Nat} (a b c : BitVec w) :
    (l1distU a b).toNat = dist a.toNat b.toNat ∧ ((l1distU a b).toNat = 0 ↔ a = b) ∧ l1distU a b = l1distU b a ∧
      (l1distU a c).toNat ≤ (l1distU a b).toNat + (l1distU b c).toNat := by
  refine ⟨l1distU_eq a b, ?_, BitVec.eq_of_toNat_eq ?_, ?_⟩
  · rw [l1distU_eq, dist]
    exact ⟨fun h => BitVec.eq_of_toNat_eq (by omega), fun h => by subst h; omega⟩
  · rw [l1distU_eq, l1distU_eq, dist, dist]; omega
  · rw [l1distU_eq, l1distU_eq, l1distU_eq, dist, dist, dist]; omega

/-- C18: `L1dist` of signed integers of any width is the exact distance. -/
theorem l1distS_spec {w : Nat} (a b : BitVec w) : (l1distS a b).toNat = (a.toInt - b.toInt).natAbs := l1distS_eq a b

example : l1distU 3#8 250#8 = 247 ∧ l1distS (-128#8) 127#8 = 255 := by decide

/-- C18: `L2sqrdist` of 8-bit data is defined and exact, hence at most `255^2`, symmetric and zero only on equal
arguments. -/
theorem l2sqrdist8_spec (a b : BitVec 8) :
    ∃ r, l2sqrdistU a b = some r ∧ r.toNat = dist a.toNat b.toNat ^ 2 ∧ r.toNat ≤ 255 ^ 2 ∧
      (r.toNat = 0 ↔ a = b) ∧ l2sqrdistU b a = some r := by
  have hlt : dist a.toNat b.toNat ≤ 255 := by have := dist_lt a b; omega
  have hsq : dist a.toNat b.toNat ^ 2 ≤ 255 ^ 2 := Nat.pow_le_pow_left hlt 2
  have e : (BitVec.ofNat (2 * 8) (dist a.toNat b.toNat ^ 2)).toNat = dist a.toNat b.toNat ^ 2 := by
    rw [BitVec.toNat_ofNat]; exact Nat.mod_eq_of_lt (by omega)
  refine ⟨_, l2sqr8 a b, e, by rw [e]; exact hsq, ?_, ?_⟩
  · rw [e]
    constructor
    · intro h
      have : dist a.toNat b.toNat = 0 := by simpa using h
      unfold dist at this
      exact BitVec.eq_of_toNat_eq (by omega)
    · rintro rfl; simp [dist]
  · rw [l2sqr8]; congr 2; unfold dist; congr 1; omega

/-- C18 does not extend to wider data: `L2sqrdist` of 16-bit values overflows a signed integer (undefined) as soon as the
values differ by 46341. -/
theorem l2sqrdist16_undefined : l2sqrdistU 0#16 46341#16 = none ∧ l2sqrdistU 0#16 46340#16 ≠ none := by decide

/-- C18 fails for the array form of `L2sqrdist` / `L2dist` on 8-bit data: the 16-bit accumulator wraps at two channels,
e.g. the black/white squared distance over 3 channels is 64003 instead of 195075. -/
theorem l2sqrdistArr8_wraps :
    (l2sqrdistArr8 16 [255#8, 255#8, 255#8] [0#8, 0#8, 0#8]).toNat = 64003 ∧ 3 * 255 ^ 2 = 195075 := by decide +kernel

/-- C18 (part): the array form is exact when the sum fits the output type. Missing: see `l2sqrdistArr8_wraps`. -/
theorem l2sqrdistArr8_spec_partial (o : Nat) (a b : List (BitVec 8))
    (h : ((a.zip b).map fun p => dist p.1.toNat p.2.toNat ^ 2).sum < 2 ^ o) :
    (l2sqrdistArr8 o a b).toNat = ((a.zip b).map fun p => dist p.1.toNat p.2.toNat ^ 2).sum := by
  have := fold_ofNat o (fun p : BitVec 8 × BitVec 8 => ((l2sqrdistU p.1 p.2).getD 0).setWidth o)
    (fun p => dist p.1.toNat p.2.toNat ^ 2)
    (fun p => BitVec.eq_of_toNat_eq (by
      obtain ⟨r, hr, hr2, _⟩ := l2sqrdist8_spec p.1 p.2
      simp [hr, hr2])) (a.zip b) 0
  simp only [Nat.zero_add] at this
  unfold l2sqrdistArr8
  rw [show (0 : BitVec o) = BitVec.ofNat o 0 from rfl, this, BitVec.toNat_ofNat, Nat.mod_eq_of_lt h]

example : (([255#8, 3#8].zip [0#8, 1#8]).map fun p => dist p.1.toNat p.2.toNat ^ 2).sum < 2 ^ 16 := by decide

/-- The exact sum of products of two colours. -/
def dotSpec (a b : List (BitVec 8)) : Nat := ((a.zip b).map fun p => p.1.toNat * p.2.toNat).sum

/-- A grey colour: all channels equal. -/
def Grey (l : List (BitVec 8)) : Prop := ∃ g n, l = List.replicate n g

/-- C18: for two 8-bit colours of the same number of channels, `cdist` has no wrap-around and no division by zero: it is 0
when both colours are grey or when they are equal, and otherwise the integer square root of
`|c|^2 - (c.b)^2/max(|b|^2,1)`, a subtraction that never goes below zero. -/
theorem cdist8_spec (curr bg : List (BitVec 8)) (hl : curr.length = bg.length) (hn : curr.length < 258) :
    (curr = bg ∨ (Grey curr ∧ Grey bg) → cdist8 curr bg = 0) ∧
    (¬ (curr = bg ∨ (Grey curr ∧ Grey bg)) →
      dotSpec curr bg ^ 2 / max (dotSpec bg bg) 1 ≤ dotSpec curr curr ∧
      cdist8 curr bg = Nat.sqrt (dotSpec curr curr - dotSpec curr bg ^ 2 / max (dotSpec bg bg) 1)) := by
  obtain ⟨h1, h2⟩ := cdist_core curr bg hl (by omega)
  have e : ∀ a b, dotN (a.zip b) = dotSpec a b := fun _ _ => rfl
  rw [e, e, e] at h1 h2
  rw [← Nat.pow_two] at h1 h2
  have hrep : ∀ l, nonConst l = false ↔ Grey l := nonConst_iff
  constructor
  · rintro h
    unfold cdist8
    rw [if_pos]
    rcases h with rfl | ⟨h3, h4⟩
    · simp
    · simp [(hrep _).2 h3, (hrep _).2 h4]
  · intro h
    refine ⟨h1, ?_⟩
    unfold cdist8
    rw [if_neg]
    · dsimp only
      rw [h2]
    · simp only [Bool.or_eq_true, Bool.not_eq_true', Bool.or_eq_false_iff, beq_iff_eq]
      rintro (⟨h3, h4⟩ | h3)
      · exact h (Or.inr ⟨(hrep _).1 h3, (hrep _).1 h4⟩)
      · exact h (Or.inl h3)

/-- C18: `cdist` is at most the norm of the current colour. -/
theorem cdist8_le (curr bg : List (BitVec 8)) (hl : curr.length = bg.length) (hn : curr.length < 258) :
    cdist8 curr bg ^ 2 ≤ dotSpec curr curr := by
  obtain ⟨h1, h2⟩ := cdist8_spec curr bg hl hn
  by_cases h : curr = bg ∨ (Grey curr ∧ Grey bg)
  · rw [h1 h]; simp
  · rw [(h2 h).2]
    exact Nat.le_trans (Nat.sqrt_le' _) (Nat.sub_le _ _)

/-- C18: colours on the same ray through the origin (equality in the Cauchy-Schwarz inequality) have no distortion. -/
theorem cdist8_parallel (curr bg : List (BitVec 8)) (hl : curr.length = bg.length) (hn : curr.length < 258)
    (h : dotSpec curr bg ^ 2 = dotSpec curr curr * dotSpec bg bg) (hb : 0 < dotSpec bg bg) : cdist8 curr bg = 0 := by
  obtain ⟨h1, h2⟩ := cdist8_spec curr bg hl hn
  by_cases h' : curr = bg ∨ (Grey curr ∧ Grey bg)
  · exact h1 h'
  · rw [(h2 h').2, h, Nat.max_eq_left hb, Nat.mul_div_cancel _ hb]
    simp

example : dotSpec [10#8, 20#8, 30#8] [20#8, 40#8, 60#8] ^ 2 =
      dotSpec [10#8, 20#8, 30#8] [10#8, 20#8, 30#8] * dotSpec [20#8, 40#8, 60#8] [20#8, 40#8, 60#8] ∧
    0 < dotSpec [20#8, 40#8, 60#8] [20#8, 40#8, 60#8] := by decide

example : ¬ ([10#8, 20#8, 30#8] = [100#8, 200#8, 100#8] ∨ (Grey [10#8, 20#8, 30#8] ∧ Grey [100#8, 200#8, 100#8])) ∧
    cdist8 [10#8, 20#8, 30#8] [100#8, 200#8, 100#8] = 18 := by
  have h : ¬ ([10#8, 20#8, 30#8] = [100#8, 200#8, 100#8] ∨ (Grey [10#8, 20#8, 30#8] ∧ Grey [100#8, 200#8, 100#8])) := by
    rintro (h | ⟨h, _⟩)
    · exact absurd h (by decide)
    · exact absurd ((nonConst_iff _).2 h) (by decide)
  refine ⟨h, ?_⟩
  rw [((cdist8_spec _ _ (by rfl) (by decide)).2 h).2]
  have : dotSpec [10#8, 20#8, 30#8] [10#8, 20#8, 30#8] -
    dotSpec [10#8, 20#8, 30#8] [100#8, 200#8, 100#8] ^ 2 / max (dotSpec [100#8, 200#8, 100#8] [100#8, 200#8, 100#8]) 1 = 334 := by
    decide
  rw [this, eq_comm, Nat.eq_sqrt']
  decide

/-! ## C19: bit expansion -/

/-- C19: for every unsigned type of at most 32 bits and every stride `s` between 1 and the width, `expand_bits<s>` is
defined and puts bit `i` of its input (for the first `w / s` bits) at position `i * s`, and 0 everywhere else. -/
theorem expandBits_spec {w : Nat} (hw : w ≤ 32) (s : Nat) (hs : 1 ≤ s) (hsw : s ≤ w) (x : BitVec w) :
    ∃ r, expandBits s x = some r ∧ ∀ j, j < w →
      (r.getLsbD j = true ↔ ∃ i, i < w / s ∧ j = i * s ∧ x.getLsbD i = true) := by
  have hdiv : 0 < w / s := Nat.div_pos hsw hs
  by_cases h1 : s = 1
  · subst h1
    refine ⟨x, rfl, fun j hj => ⟨fun h => ⟨j, by simpa using hj, by simp, h⟩, ?_⟩⟩
    rintro ⟨i, _, rfl, h⟩
    simpa using h
  · have hle : w / s * s ≤ w := Nat.div_mul_le_self w s
    have hlt : (w / s - 1) * s < w := by
      have : (w / s - 1) * s + s = w / s * s := by
        rw [← Nat.succ_mul]; congr 1; omega
      omega
    have hd2 : w / s ≤ w := Nat.div_le_self w s
    obtain ⟨r, hr, hb⟩ := expandBitsFrom_ok s hs x (w / s - 1) (by omega) (by omega) hlt
    refine ⟨r, by rw [expandBits, if_neg h1]; exact hr, fun j hj => ?_⟩
    rw [hb, Bool.and_eq_true, decide_eq_true_iff]
    constructor
    · rintro ⟨⟨⟨k, rfl⟩, h2⟩, h3⟩
      rw [Nat.mul_div_cancel_left k hs] at h2 h3
      exact ⟨k, by omega, Nat.mul_comm _ _, h3⟩
    · rintro ⟨i, hi, rfl, h⟩
      rw [Nat.mul_div_cancel i hs]
      exact ⟨⟨Dvd.intro_left _ rfl, by omega⟩, h⟩

example : expandBits 4 0b10110110#32 = some 0x10110110#32 := by decide

/-- C19: with a stride of at least 2, distinct values of the first `w / s` bits have distinct expansions. -/
theorem expandBits_injective {w : Nat} (hw : w ≤ 32) (s : Nat) (hs : 1 ≤ s) (hsw : s ≤ w) (x y : BitVec w)
    (h : expandBits s x = expandBits s y) (i : Nat) (hi : i < w / s) : x.getLsbD i = y.getLsbD i := by
  obtain ⟨r, hr, hb⟩ := expandBits_spec hw s hs hsw x
  obtain ⟨r', hr', hb'⟩ := expandBits_spec hw s hs hsw y
  rw [hr, hr', Option.some.injEq] at h
  subst h
  have hle : w / s * s ≤ w := Nat.div_mul_le_self w s
  have h2 : i * s + s ≤ w / s * s := by
    rw [← Nat.succ_mul]; exact Nat.mul_le_mul_right s hi
  have h3 := (hb (i * s) (by omega)).symm.trans (hb' (i * s) (by omega))
  have cancel : ∀ j, i * s = j * s → i = j := fun j hj => Nat.eq_of_mul_eq_mul_right hs hj
  have : x.getLsbD i = true ↔ y.getLsbD i = true := by
    constructor
    · intro hx
      obtain ⟨j, _, hj, hy⟩ := h3.1 ⟨i, hi, rfl, hx⟩
      rw [cancel j hj]; exact hy
    · intro hy
      obtain ⟨j, _, hj, hx⟩ := h3.2 ⟨i, hi, rfl, hy⟩
      rw [cancel j hj]; exact hx
  cases hx : x.getLsbD i <;> cases hy : y.getLsbD i <;> simp_all

/-- C19 fails for 64-bit types: the shifts are done on 32-bit integers and their amount goes out of range, e.g. for
stride 4 (up to 60) on every input. -/
theorem expandBits_undefined_64 (x : BitVec 64) : expandBits 4 x = none := rfl

/-! ## C55: bit extension -/

/-- C55: for `o ≤ e ≤ 2 * o`, `extend_bits` maps `o`-bit values to `e`-bit values, sends 0 to 0 and the largest to the
largest, is monotone, and keeps the input in its high bits. -/
theorem extendBits_spec {w : Nat} (o e : Nat) (ho : o ≤ e) (he : e ≤ 2 * o) (hw : e ≤ w) (v v' : BitVec w)
    (hv : v.toNat < 2 ^ o) (hv' : v'.toNat < 2 ^ o) :
    (extendBits v o e).toNat < 2 ^ e ∧ (v.toNat = 0 → (extendBits v o e).toNat = 0) ∧
      (v.toNat = 2 ^ o - 1 → (extendBits v o e).toNat = 2 ^ e - 1) ∧
      (v.toNat ≤ v'.toNat → (extendBits v o e).toNat ≤ (extendBits v' o e).toNat) ∧
      (extendBits v o e).toNat / 2 ^ (e - o) = v.toNat := by
  have small : ∀ u : Nat, u < 2 ^ o → u / 2 ^ (o - (e - o)) < 2 ^ (e - o) := by
    intro u hu
    rw [Nat.div_lt_iff_lt_mul (Nat.two_pow_pos _), ← Nat.pow_add]
    exact Nat.lt_of_lt_of_le hu (Nat.pow_le_pow_right (by omega) (by omega))
  have hsplit : 2 ^ o * 2 ^ (e - o) = 2 ^ e := by rw [← Nat.pow_add]; congr 1; omega
  have hE : 0 < 2 ^ (e - o) := Nat.two_pow_pos _
  rw [extendBits_toNat v o e hv ho hw, extendBits_toNat v' o e hv' ho hw]
  refine ⟨?_, ?_, ?_, ?_, ?_⟩
  · have h1 := small _ hv
    have h2 : (v.toNat + 1) * 2 ^ (e - o) ≤ 2 ^ o * 2 ^ (e - o) := Nat.mul_le_mul_right _ hv
    rw [Nat.succ_mul] at h2
    omega
  · intro h; rw [h]; simp
  · intro h
    rw [h]
    have h3 : (2 ^ o - 1) / 2 ^ (o - (e - o)) = 2 ^ (e - o) - 1 := by
      have hs2 : 2 ^ (o - (e - o)) * 2 ^ (e - o) = 2 ^ o := by rw [← Nat.pow_add]; congr 1; omega
      have hp : 0 < 2 ^ (o - (e - o)) := Nat.two_pow_pos _
      apply Nat.div_eq_of_lt_le
      · rw [Nat.sub_mul, Nat.mul_comm, hs2]; omega
      · rw [Nat.succ_mul, Nat.sub_mul, Nat.mul_comm (2 ^ (e - o)), hs2]
        have : 2 ^ (o - (e - o)) ≤ 2 ^ o := Nat.pow_le_pow_right (by omega) (by omega)
        omega
    rw [h3, Nat.sub_mul, hsplit, Nat.one_mul]
    have : 2 ^ (e - o) ≤ 2 ^ e := Nat.pow_le_pow_right (by omega) (by omega)
    omega
  · intro h
    exact Nat.add_le_add (Nat.mul_le_mul_right _ h) (Nat.div_le_div_right h)
  · rw [Nat.mul_comm, Nat.mul_add_div hE, Nat.div_eq_of_lt (small _ hv)]; omega

example : extendBits 0b10110#32 5 8 = 0b10110101#32 ∧ (0b10110#32).toNat < 2 ^ 5 := by decide

/-- C55 fails when more than doubling the bit count: the largest value is not mapped to the largest, e.g. the single-bit
value 1 extended to 8 bits is 129. -/
theorem extendBits_not_max : extendBits 1#8 1 8 = 129#8 := by decide

end Litiv.Bits
