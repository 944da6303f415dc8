import Verif.Model.Lut
import Mathlib.Tactic.Linarith
import Mathlib.Tactic.FieldSimp
import Mathlib.Tactic.Ring
import Mathlib.Tactic.NormNum
import Mathlib.Tactic.Positivity

/-!
# Lemmas for lookup tables
-/

namespace Litiv.Lut

theorem trunc_nonneg (x : ℚ) (h : 0 ≤ x) : (trunc x : ℚ) ≤ x ∧ x < trunc x + 1 ∧ 0 ≤ trunc x := by
  unfold trunc; rw [if_pos h]
  exact ⟨Int.floor_le x, Int.lt_floor_add_one x, Int.floor_nonneg.mpr h⟩

theorem trunc_nonpos (x : ℚ) (h : x ≤ 0) : x ≤ trunc x ∧ (trunc x : ℚ) < x + 1 ∧ trunc x ≤ 0 := by
  unfold trunc
  split
  · have : x = 0 := le_antisymm h (by assumption)
    subst this
    simp
  · exact ⟨Int.le_ceil x, Int.ceil_lt_add_one x, Int.ceil_nonpos.mpr h⟩

theorem llround_bound (x : ℚ) : |(llround x : ℚ) - x| ≤ 1 / 2 := by
  rw [abs_le]
  unfold llround
  split
  · have h1 := Int.floor_le (x + 1 / 2)
    have h2 := Int.lt_floor_add_one (x + 1 / 2)
    constructor <;> linarith
  · have h1 := Int.le_ceil (x - 1 / 2)
    have h2 := Int.ceil_lt_add_one (x - 1 / 2)
    constructor <;> linarith

theorem lowAt_entry {Ty : Type} (t : Table Ty) (g : Nat → Ty) (hd : t.data =
    (List.range (t.bins + t.safety * 2)).map g) (i : Int) (h0 : -(t.safety : Int) ≤ i)
    (h1 : i < t.bins + t.safety) : lowAt t i = some (g ((t.safety : Int) + i).toNat) := by
  unfold lowAt
  dsimp only
  rw [if_pos (by omega), hd, List.getElem?_map, List.getElem?_range (by omega)]
  rfl

theorem midAt_entry {Ty : Type} (t : Table Ty) (g : Nat → Ty) (hd : t.data =
    (List.range (t.bins + t.safety * 2)).map g) (i : Int)
    (h0 : -((t.bins / 2 + t.safety : Nat) : Int) ≤ i)
    (h1 : i + (t.bins / 2 + t.safety : Nat) < t.bins + t.safety * 2) :
    midAt t i = some (g (((t.bins / 2 + t.safety : Nat) : Int) + i).toNat) := by
  unfold midAt
  dsimp only
  rw [if_pos (by omega), hd, List.getElem?_map, List.getElem?_range (by omega)]
  rfl

theorem rel_factor (u a b c d : ℚ) (hu : 0 ≤ u) (hu32 : 32 * u ≤ 1) (ha : -u ≤ a ∧ a ≤ u)
    (hb' : -u ≤ b ∧ b ≤ u) (hc : -u ≤ c ∧ c ≤ u) (hd : -u ≤ d ∧ d ≤ u) :
    (1 + b) * (1 + c) * (1 + d) / (1 + a) ≤ 1 + 8 * u ∧
    1 - 8 * u ≤ (1 + b) * (1 + c) * (1 + d) / (1 + a) := by
  have h1a : 0 < 1 + a := by linarith
  constructor
  · rw [div_le_iff₀ h1a]
    have p1 : (1 + b) * (1 + c) ≤ (1 + u) * (1 + u) :=
      mul_le_mul (by linarith) (by linarith) (by linarith) (by linarith)
    have p2 : (1 + b) * (1 + c) * (1 + d) ≤ (1 + u) * (1 + u) * (1 + u) :=
      mul_le_mul p1 (by linarith) (by linarith) (by positivity)
    have p3 : (1 + 8 * u) * (1 - u) ≤ (1 + 8 * u) * (1 + a) :=
      mul_le_mul_of_nonneg_left (by linarith) (by linarith)
    have p4 : (1 + u) * (1 + u) * (1 + u) ≤ (1 + 8 * u) * (1 - u) := by
      have q1 : u * u ≤ u * (1 / 32) := mul_le_mul_of_nonneg_left (by linarith) hu
      have q2 : u * u * u ≤ u * (1 / 32) * 1 :=
        mul_le_mul q1 (by linarith) hu (by positivity)
      nlinarith
    linarith
  · rw [le_div_iff₀ h1a]
    have p1 : (1 - u) * (1 - u) ≤ (1 + b) * (1 + c) :=
      mul_le_mul (by linarith) (by linarith) (by linarith) (by linarith)
    have p2 : (1 - u) * (1 - u) * (1 - u) ≤ (1 + b) * (1 + c) * (1 + d) :=
      mul_le_mul p1 (by linarith) (by linarith) (mul_nonneg (by linarith) (by linarith))
    have p3 : (1 - 8 * u) * (1 + a) ≤ (1 - 8 * u) * (1 + u) :=
      mul_le_mul_of_nonneg_left (by linarith) (by linarith)
    have p4 : (1 - 8 * u) * (1 + u) ≤ (1 - u) * (1 - u) * (1 - u) := by
      have q2 : u * u * u ≤ u * u * 1 := mul_le_mul_of_nonneg_left (by linarith) (by positivity)
      nlinarith
    linarith

theorem roundEven_bound (x : ℚ) : |(roundEven x : ℚ) - x| ≤ 1 / 2 := by
  have h1 := Int.floor_le x
  have h2 := Int.lt_floor_add_one x
  rw [abs_le]
  unfold roundEven
  dsimp only
  split
  · constructor <;> linarith
  · split
    · push_cast; constructor <;> linarith
    · split
      · constructor <;> linarith
      · push_cast; constructor <;> linarith

theorem ilog_le (x : ℚ) (hx : 0 < x) : (2 : ℚ) ^ ilog x ≤ x := by
  unfold ilog
  dsimp only
  split
  · assumption
  · have hn : x.num.natAbs ≠ 0 := by
      have := Rat.num_pos.mpr hx
      omega
    have hd : x.den ≠ 0 := x.den_nz
    have a1 : 2 ^ Nat.log2 x.num.natAbs ≤ x.num.natAbs := Nat.log2_self_le hn
    have b1 : x.den < 2 ^ (Nat.log2 x.den + 1) := Nat.lt_log2_self
    have hxe : x = (x.num.natAbs : ℚ) / x.den := by
      conv_lhs => rw [← Rat.num_div_den x]
      congr 1
      have := Rat.num_pos.mpr hx
      rw [← Int.cast_natCast, Int.natAbs_of_nonneg (by omega)]
    have hdq : (0 : ℚ) < x.den := by exact_mod_cast Nat.pos_of_ne_zero hd
    rw [hxe, le_div_iff₀ hdq]
    have a2 : (2 : ℚ) ^ (Nat.log2 x.num.natAbs) ≤ x.num.natAbs := by exact_mod_cast a1
    have b2 : (x.den : ℚ) ≤ 2 ^ (Nat.log2 x.den + 1) := by exact_mod_cast b1.le
    rw [← hxe]
    refine le_trans ?_ a2
    calc (2 : ℚ) ^ ((Nat.log2 x.num.natAbs : Int) - Nat.log2 x.den - 1) * x.den
        ≤ (2 : ℚ) ^ ((Nat.log2 x.num.natAbs : Int) - Nat.log2 x.den - 1) *
          2 ^ (Nat.log2 x.den + 1) := mul_le_mul_of_nonneg_left b2 (zpow_pos (by norm_num) _).le
      _ = (2 : ℚ) ^ (Nat.log2 x.num.natAbs) := by
        rw [← zpow_natCast (2 : ℚ) (Nat.log2 x.den + 1), ← zpow_add₀ (by norm_num),
          ← zpow_natCast (2 : ℚ) (Nat.log2 x.num.natAbs)]
        congr 1
        push_cast
        ring

end Litiv.Lut
