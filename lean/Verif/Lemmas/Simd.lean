import Verif.Model.Simd
import Mathlib.Tactic.Ring
import Mathlib.Tactic.IntervalCases
import Mathlib.Tactic.NormNum

namespace Litiv.Simd

theorem u32_bytes (r : Reg) (i : Nat) : u32 r i = (r (4 * i)).toNat +
    256 * (r (4 * i + 1)).toNat + 65536 * (r (4 * i + 2)).toNat +
    16777216 * (r (4 * i + 3)).toNat := by
  unfold u32 u16
  rw [show 2 * (2 * i) = 4 * i by ring, show 2 * (2 * i + 1) = 4 * i + 2 by ring,
    show 4 * i + 2 + 1 = 4 * i + 3 by ring]
  ring

theorem u64_bytes (r : Reg) (i : Nat) : u64 r i = (r (8 * i)).toNat +
    256 * (r (8 * i + 1)).toNat + 65536 * (r (8 * i + 2)).toNat +
    16777216 * (r (8 * i + 3)).toNat + 4294967296 * ((r (8 * i + 4)).toNat +
    256 * (r (8 * i + 5)).toNat + 65536 * (r (8 * i + 6)).toNat +
    16777216 * (r (8 * i + 7)).toNat) := by
  unfold u64
  rw [u32_bytes, u32_bytes, show 4 * (2 * i) = 8 * i by ring,
    show 4 * (2 * i + 1) = 8 * i + 4 by ring, show 8 * i + 4 + 1 = 8 * i + 5 by ring,
    show 8 * i + 4 + 2 = 8 * i + 6 by ring, show 8 * i + 4 + 3 = 8 * i + 7 by ring]

theorem u16_lt (r : Reg) (i : Nat) : u16 r i < 65536 := by
  unfold u16
  have := (r (2 * i)).isLt
  have := (r (2 * i + 1)).isLt
  omega

theorem u32_lt (r : Reg) (i : Nat) : u32 r i < 4294967296 := by
  unfold u32
  have := u16_lt r (2 * i)
  have := u16_lt r (2 * i + 1)
  omega

theorem u16_mk16 (f : Nat → Nat) (i : Nat) : u16 (mk16 f) i = f i % 65536 := by
  simp only [u16, mk16, BitVec.toNat_ofNat]
  rw [show 2 * i / 2 = i by omega, show 2 * i % 2 = 0 by omega,
    show (2 * i + 1) / 2 = i by omega, show (2 * i + 1) % 2 = 1 by omega]
  norm_num
  omega

theorem u32_mk32 (f : Nat → Nat) (i : Nat) : u32 (mk32 f) i = f i % 4294967296 := by
  rw [u32_bytes]
  simp only [mk32, BitVec.toNat_ofNat]
  rw [show 4 * i / 4 = i by omega, show 4 * i % 4 = 0 by omega,
    show (4 * i + 1) / 4 = i by omega, show (4 * i + 1) % 4 = 1 by omega,
    show (4 * i + 2) / 4 = i by omega, show (4 * i + 2) % 4 = 2 by omega,
    show (4 * i + 3) / 4 = i by omega, show (4 * i + 3) % 4 = 3 by omega]
  norm_num
  omega

theorem u32_mk64_lo (f : Nat → Nat) (i : Nat) : u32 (mk64 f) (2 * i) = f i % 4294967296 := by
  rw [u32_bytes]
  simp only [mk64, BitVec.toNat_ofNat]
  rw [show 4 * (2 * i) / 8 = i by omega, show 4 * (2 * i) % 8 = 0 by omega,
    show (4 * (2 * i) + 1) / 8 = i by omega, show (4 * (2 * i) + 1) % 8 = 1 by omega,
    show (4 * (2 * i) + 2) / 8 = i by omega, show (4 * (2 * i) + 2) % 8 = 2 by omega,
    show (4 * (2 * i) + 3) / 8 = i by omega, show (4 * (2 * i) + 3) % 8 = 3 by omega]
  norm_num
  omega

theorem u32_mk64_hi (f : Nat → Nat) (i : Nat) :
    u32 (mk64 f) (2 * i + 1) = f i / 4294967296 % 4294967296 := by
  rw [u32_bytes]
  simp only [mk64, BitVec.toNat_ofNat]
  rw [show 4 * (2 * i + 1) / 8 = i by omega, show 4 * (2 * i + 1) % 8 = 4 by omega,
    show (4 * (2 * i + 1) + 1) / 8 = i by omega, show (4 * (2 * i + 1) + 1) % 8 = 5 by omega,
    show (4 * (2 * i + 1) + 2) / 8 = i by omega, show (4 * (2 * i + 1) + 2) % 8 = 6 by omega,
    show (4 * (2 * i + 1) + 3) / 8 = i by omega, show (4 * (2 * i + 1) + 3) % 8 = 7 by omega]
  norm_num
  omega

theorem u64_mk64 (f : Nat → Nat) (i : Nat) : u64 (mk64 f) i = f i % 18446744073709551616 := by
  unfold u64
  rw [u32_mk64_lo, u32_mk64_hi]
  omega

/-- a byte of a register built from words -/
theorem mk16_even (f : Nat → Nat) (i : Nat) : mk16 f (2 * i) = BitVec.ofNat 8 (f i) := by
  unfold mk16
  rw [show 2 * i / 2 = i by omega, show 2 * i % 2 = 0 by omega]; simp

theorem mk16_odd (f : Nat → Nat) (i : Nat) : mk16 f (2 * i + 1) = BitVec.ofNat 8 (f i / 256) := by
  unfold mk16
  rw [show (2 * i + 1) / 2 = i by omega, show (2 * i + 1) % 2 = 1 by omega, pow_one]

theorem shuffle_u32 (r : Reg) (imm i : Nat) : u32 (shuffle_epi32 r imm) i = u32 r (sel imm i) := by
  rw [u32_bytes, u32_bytes]
  simp only [shuffle_epi32]
  rw [show 4 * i / 4 = i by omega, show 4 * i % 4 = 0 by omega,
    show (4 * i + 1) / 4 = i by omega, show (4 * i + 1) % 4 = 1 by omega,
    show (4 * i + 2) / 4 = i by omega, show (4 * i + 2) % 4 = 2 by omega,
    show (4 * i + 3) / 4 = i by omega, show (4 * i + 3) % 4 = 3 by omega]
  rfl

theorem srli_u32 (r : Reg) (i : Nat) (h : i < 3) : u32 (srli_si128 r 4) i = u32 r (i + 1) := by
  rw [u32_bytes, u32_bytes]
  simp only [srli_si128]
  rw [if_pos (by omega), if_pos (by omega), if_pos (by omega), if_pos (by omega)]
  rfl

theorem srli8_u64 (r : Reg) : u64 (srli_si128 r 8) 0 = u64 r 1 := by
  rw [u64_bytes, u64_bytes]
  simp [srli_si128]

/-- disjoint bits: or is addition -/
theorem or_words (a b : Reg) (i : Nat) : u16 (or_si128 a b) i = u16 a i ||| u16 b i := by
  unfold u16 or_si128
  simp only [BitVec.toNat_or]
  have key : ∀ x y : Nat, x < 256 → x + 256 * y = y * 2 ^ 8 ||| x := by
    intro x y hx
    rw [← Nat.shiftLeft_eq, ← Nat.shiftLeft_add_eq_or_of_lt (by omega), Nat.shiftLeft_eq]; omega
  have h1 := (a (2 * i)).isLt
  have h2 := (b (2 * i)).isLt
  rw [key _ _ (Nat.or_lt_two_pow (n := 8) h1 h2), key _ _ h1, key _ _ h2]
  apply Nat.eq_of_testBit_eq
  intro j
  simp only [Nat.testBit_or, Nat.testBit_mul_two_pow]
  cases decide (8 ≤ j) <;>
    cases (a (2 * i)).toNat.testBit j <;> cases (b (2 * i)).toNat.testBit j <;>
    cases (a (2 * i + 1)).toNat.testBit (j - 8) <;>
    cases (b (2 * i + 1)).toNat.testBit (j - 8) <;> rfl

theorem and_words (a b : Reg) (i : Nat) : u16 (and_si128 a b) i = u16 a i &&& u16 b i := by
  unfold u16 and_si128
  simp only [BitVec.toNat_and]
  have key : ∀ x y : Nat, x < 256 → x + 256 * y = y * 2 ^ 8 ||| x := by
    intro x y hx
    rw [← Nat.shiftLeft_eq, ← Nat.shiftLeft_add_eq_or_of_lt (by omega), Nat.shiftLeft_eq]; omega
  have h1 := (a (2 * i)).isLt
  have h2 := (b (2 * i)).isLt
  have t1 : ∀ x : Nat, x < 256 → ∀ j, 8 ≤ j → x.testBit j = false := by
    intro x hx j hj
    exact Nat.testBit_lt_two_pow (Nat.lt_of_lt_of_le (m := 2 ^ 8) hx
      (Nat.pow_le_pow_right (by omega) hj))
  rw [key _ _ (Nat.lt_of_le_of_lt Nat.and_le_left h1), key _ _ h1, key _ _ h2]
  apply Nat.eq_of_testBit_eq
  intro j
  simp only [Nat.testBit_or, Nat.testBit_and, Nat.testBit_mul_two_pow]
  by_cases hj : 8 ≤ j
  · rw [t1 _ h1 j hj, t1 _ h2 j hj]; simp [hj]
  · simp [hj]

theorem u16_slli (r : Reg) (n i : Nat) : u16 (slli_epi16 r n) i = u16 r i * 2 ^ n % 65536 :=
  u16_mk16 _ _

theorem u16_srli (r : Reg) (n i : Nat) : u16 (srli_epi16 r n) i = u16 r i / 2 ^ n := by
  unfold srli_epi16
  rw [u16_mk16]
  apply Nat.mod_eq_of_lt
  have := u16_lt r i
  exact Nat.lt_of_le_of_lt (Nat.div_le_self _ _) this

theorem u16_unpack (low : Bool) (r : Reg) (i : Nat) :
    u16 (unpack8to16 low r) i = (r (if low then i else i + 8)).toNat := by
  unfold u16 unpack8to16
  cases low
  · simp only [Bool.false_eq_true, if_false, unpackhi_epi8, setzero]
    rw [if_pos (by omega), if_neg (by omega), show 2 * i / 2 = i by omega]; simp
  · simp only [if_true, unpacklo_epi8, setzero]
    rw [if_pos (by omega), if_neg (by omega), show 2 * i / 2 = i by omega]; simp

/-- the packed word of one pixel -/
theorem enc_word (y cr cb : Nat) (hy : y < 256) (hcr : cr < 256) (hcb : cb < 256) :
    y ||| (cr / 2 ^ 4 * 2 ^ 8 % 65536 ||| cb / 2 ^ 4 * 2 ^ 12 % 65536) =
      y + cr / 2 ^ 4 * 2 ^ 8 + cb / 2 ^ 4 * 2 ^ 12 := by
  rw [Nat.mod_eq_of_lt (by omega), Nat.mod_eq_of_lt (by omega)]
  have h1 : cr / 2 ^ 4 * 2 ^ 8 ||| cb / 2 ^ 4 * 2 ^ 12 =
      cr / 2 ^ 4 * 2 ^ 8 + cb / 2 ^ 4 * 2 ^ 12 := by
    rw [Nat.or_comm, ← Nat.shiftLeft_eq (cb / 2 ^ 4), ← Nat.shiftLeft_add_eq_or_of_lt (by omega)]
    rw [Nat.shiftLeft_eq]; omega
  rw [h1, Nat.or_comm, show cr / 2 ^ 4 * 2 ^ 8 + cb / 2 ^ 4 * 2 ^ 12 =
    (cr / 2 ^ 4 + cb / 2 ^ 4 * 2 ^ 4) <<< 8 by rw [Nat.shiftLeft_eq]; ring,
    ← Nat.shiftLeft_add_eq_or_of_lt (by omega), Nat.shiftLeft_eq]
  ring

/-! ### alignment -/

/-- for a power of two, `(sz + n-1) & -n` rounds up to a multiple of `n` -/
theorem alignSize_toNat (sz : BitVec 64) (k : Nat) (hk : k < 64)
    (h : sz.toNat + 2 ^ k ≤ 2 ^ 64) :
    (alignSize sz (BitVec.ofNat 64 (2 ^ k))).toNat = (sz.toNat + 2 ^ k - 1) / 2 ^ k * 2 ^ k := by
  have hp : 0 < 2 ^ k := Nat.two_pow_pos k
  have hlt : 2 ^ k < 2 ^ 64 := Nat.pow_lt_pow_right (by omega) hk
  have e1 : (sz + BitVec.ofNat 64 (2 ^ k) - 1#64).toNat = sz.toNat + 2 ^ k - 1 := by
    rw [BitVec.toNat_sub, BitVec.toNat_add]
    simp only [BitVec.toNat_ofNat]
    rw [Nat.mod_eq_of_lt hlt]
    have := sz.isLt
    omega
  have e2 : (-(BitVec.ofNat 64 (2 ^ k))).toNat = 2 ^ 64 - 2 ^ k := by
    rw [BitVec.toNat_neg, BitVec.toNat_ofNat, Nat.mod_eq_of_lt hlt]
    exact Nat.mod_eq_of_lt (by omega)
  unfold alignSize
  rw [BitVec.toNat_and, e1, e2]
  apply Nat.eq_of_testBit_eq
  intro i
  rw [Nat.testBit_and, Nat.testBit_mul_two_pow,
    show 2 ^ 64 - 2 ^ k = 2 ^ 64 - ((2 ^ k - 1) + 1) by omega,
    Nat.testBit_two_pow_sub_succ (by omega), Nat.testBit_two_pow_sub_one, Nat.testBit_div_two_pow]
  by_cases hi : k ≤ i
  · rw [show i - k + k = i by omega]
    by_cases h64 : i < 64
    · simp [hi, h64]
    · have : (sz.toNat + 2 ^ k - 1).testBit i = false :=
        Nat.testBit_lt_two_pow (Nat.lt_of_lt_of_le (m := 2 ^ 64) (by omega)
          (Nat.pow_le_pow_right (by omega) (by omega)))
      simp [this]
  · simp [hi]
    intro _ _ ; omega

theorem alignUp_ge (x n : Nat) (hn : 0 < n) : x ≤ (x + n - 1) / n * n := by
  have h1 := Nat.div_add_mod (x + n - 1) n
  have h2 := Nat.mod_lt (x + n - 1) hn
  have : (x + n - 1) / n * n = n * ((x + n - 1) / n) := Nat.mul_comm _ _
  omega

theorem alignUp_lt (x n : Nat) (hn : 0 < n) : (x + n - 1) / n * n < x + n := by
  have h1 := Nat.div_mul_le_self (x + n - 1) n
  omega

end Litiv.Simd
