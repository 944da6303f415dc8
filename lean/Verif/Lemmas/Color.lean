import Verif.Model.Color
import Mathlib.Tactic.Linarith
import Mathlib.Tactic.Ring
import Mathlib.Tactic.FieldSimp
import Mathlib.Tactic.NormNum
import Mathlib.Tactic.LinearCombination

namespace Litiv.Color

/-- without wrapping -/
theorem h2_norm (p q t : ℚ) (h0 : 0 ≤ t) (h1 : t ≤ 1) : h2rgb p q t =
    if t < 1 / 6 then p + (q - p) * 6 * t
    else if t < 1 / 2 then q
    else if t < 2 / 3 then p + (q - p) * (2 / 3 - t) * 6
    else p := by
  unfold h2rgb
  dsimp only
  rw [if_neg (not_lt.mpr h0), if_neg (not_lt.mpr h1)]

/-- the rising edge -/
theorem h2_rise (p d u t : ℚ) (ht : t = u / 6) (h0 : 0 ≤ u) (h1 : u ≤ 1) :
    h2rgb p (p + d) t = p + d * u := by
  subst ht
  rw [h2_norm _ _ _ (by linarith) (by linarith)]
  split_ifs with a b
  · ring
  · have : u = 1 := by linarith
    rw [this]; ring
  · exfalso; linarith
  · exfalso; linarith

/-- the plateau -/
theorem h2_top (p d t : ℚ) (h0 : 1 / 6 ≤ t) (h1 : t ≤ 1 / 2) : h2rgb p (p + d) t = p + d := by
  rw [h2_norm _ _ _ (by linarith) (by linarith)]
  split_ifs with a b c
  · exfalso; linarith
  · rfl
  · have : t = 1 / 2 := by linarith
    rw [this]; ring
  · exfalso; linarith

/-- the falling edge -/
theorem h2_fall (p d u t : ℚ) (ht : t = 2 / 3 - u / 6) (h0 : 0 ≤ u) (h1 : u ≤ 1) :
    h2rgb p (p + d) t = p + d * u := by
  subst ht
  rw [h2_norm _ _ _ (by linarith) (by linarith)]
  split_ifs with a b c
  · exfalso; linarith
  · exfalso; linarith
  · ring
  · have : u = 0 := by linarith
    rw [this]; ring

/-- the bottom -/
theorem h2_low (p d t : ℚ) (h0 : 2 / 3 ≤ t) (h1 : t ≤ 1) : h2rgb p (p + d) t = p := by
  rw [h2_norm _ _ _ (by linarith) (by linarith)]
  split_ifs with a b c
  · exfalso; linarith
  · exfalso; linarith
  · exfalso; linarith
  · rfl

/-- wrap below zero -/
theorem h2_wrap0 (p q t : ℚ) (h0 : -1 ≤ t) (h1 : t < 0) : h2rgb p q t = h2rgb p q (t + 1) := by
  rw [h2_norm p q (t + 1) (by linarith) (by linarith)]
  unfold h2rgb
  dsimp only
  rw [if_pos h1, if_neg (show ¬ (1 < t + 1) by linarith)]

/-- wrap above one -/
theorem h2_wrap1 (p q t : ℚ) (h0 : 1 < t) (h1 : t ≤ 2) : h2rgb p q t = h2rgb p q (t - 1) := by
  rw [h2_norm p q (t - 1) (by linarith) (by linarith)]
  unfold h2rgb
  dsimp only
  rw [if_neg (show ¬ (t < 0) by linarith), if_pos h0]

theorem round_255 (n : Nat) (hn : n ≤ 255) (x : ℚ) (hx : |x - n| < 1 / 2) :
    sat8 (round x) = n := by
  rw [abs_lt] at hx
  have h : round x = n := by
    unfold round
    split
    · rw [Int.floor_eq_iff]
      push_cast
      constructor <;> linarith
    · rename_i h
      rw [Int.ceil_eq_iff]
      have : (n : ℚ) < 1 := by linarith
      have : n = 0 := by
        have : n < 1 := by exact_mod_cast this
        omega
      subst this
      push_cast at *
      constructor <;> linarith
  rw [h]
  unfold sat8
  omega

/-- the hue profile -/
def T (t : ℚ) : ℚ := h2rgb 0 1 t

theorem h2_T (p q t : ℚ) : h2rgb p q t = p + (q - p) * T t := by
  unfold T h2rgb
  dsimp only
  split_ifs <;> ring

theorem T_pieces (t : ℚ) (h0 : -(1 / 3) ≤ t) (h1 : t ≤ 4 / 3) :
    (t ≤ 0 ∧ T t = 0) ∨ (0 ≤ t ∧ t ≤ 1 / 6 ∧ T t = 6 * t) ∨ (1 / 6 ≤ t ∧ t ≤ 1 / 2 ∧ T t = 1) ∨
    (1 / 2 ≤ t ∧ t ≤ 2 / 3 ∧ T t = 4 - 6 * t) ∨ (2 / 3 ≤ t ∧ t ≤ 1 ∧ T t = 0) ∨
    (1 ≤ t ∧ t ≤ 7 / 6 ∧ T t = 6 * (t - 1)) ∨ (7 / 6 ≤ t ∧ T t = 1) := by
  have low := h2_low 0 1
  have top := h2_top 0 1
  have rise := h2_rise 0 1
  have fall := h2_fall 0 1
  simp only [zero_add, one_mul] at low top rise fall
  unfold T
  rcases lt_or_ge t 0 with c | c
  · left
    exact ⟨c.le, by rw [h2_wrap0 _ _ _ (by linarith) c, low _ (by linarith) (by linarith)]⟩
  rcases lt_or_ge t (1 / 6) with c1 | c1
  · right; left
    exact ⟨c, c1.le, by rw [rise (6 * t) t (by ring) (by linarith) (by linarith)]⟩
  rcases lt_or_ge t (1 / 2) with c2 | c2
  · right; right; left
    exact ⟨c1, c2.le, top _ c1 c2.le⟩
  rcases lt_or_ge t (2 / 3) with c3 | c3
  · right; right; right; left
    exact ⟨c2, c3.le, by rw [fall (4 - 6 * t) t (by ring) (by linarith) (by linarith)]⟩
  rcases le_or_gt t 1 with c4 | c4
  · right; right; right; right; left
    exact ⟨c3, c4, low _ c3 c4⟩
  rcases lt_or_ge t (7 / 6) with c5 | c5
  · right; right; right; right; right; left
    refine ⟨c4.le, c5.le, ?_⟩
    rw [h2_wrap1 _ _ _ c4 (by linarith), rise (6 * (t - 1)) (t - 1) (by ring) (by linarith) (by linarith)]
  · right; right; right; right; right; right
    exact ⟨c5, by rw [h2_wrap1 _ _ _ c4 (by linarith), top _ (by linarith) (by linarith)]⟩

theorem T_range (t : ℚ) (h0 : -(1 / 3) ≤ t) (h1 : t ≤ 4 / 3) : 0 ≤ T t ∧ T t ≤ 1 := by
  rcases T_pieces t h0 h1 with h | h | h | h | h | h | h <;>
    (obtain ⟨_, h⟩ := h; try obtain ⟨_, h⟩ := h) <;> rw [h] <;> constructor <;> linarith

theorem T_lip_le (t u : ℚ) (h0 : -(1 / 3) ≤ t) (hu : t ≤ u) (h1 : u ≤ 4 / 3) :
    T u - T t ≤ 6 * (u - t) ∧ T t - T u ≤ 6 * (u - t) := by
  rcases T_pieces t h0 (by linarith) with h | h | h | h | h | h | h <;>
  rcases T_pieces u (by linarith) h1 with k | k | k | k | k | k | k <;>
    (obtain ⟨_, h⟩ := h; try obtain ⟨_, h⟩ := h) <;>
    (obtain ⟨_, k⟩ := k; try obtain ⟨_, k⟩ := k) <;> rw [h, k] <;> constructor <;> linarith

theorem T_lip (t u : ℚ) (h0 : -(1 / 3) ≤ t) (h1 : t ≤ 4 / 3) (g0 : -(1 / 3) ≤ u) (g1 : u ≤ 4 / 3) :
    |T t - T u| ≤ 6 * |t - u| := by
  rcases le_total t u with h | h
  · have := T_lip_le t u h0 h g1
    rw [abs_sub_comm t u, abs_of_nonneg (show 0 ≤ u - t by linarith), abs_le]
    constructor <;> linarith
  · have := T_lip_le u t g0 h h1
    rw [abs_of_nonneg (show 0 ≤ t - u by linarith), abs_le]
    constructor <;> linarith

/-- one component of the conversion before rounding -/
def comp (hue s l k : ℚ) : ℚ := l + s * min l (1 - l) * (2 * T (hue / 360 + k) - 1)

theorem toBGR_comp (hue s l : ℚ) : toBGR hue s l =
    (sat8 (round (comp hue s l (-(1 / 3)) * 255)), sat8 (round (comp hue s l 0 * 255)),
      sat8 (round (comp hue s l (1 / 3) * 255))) := by
  unfold toBGR
  by_cases hs : s = 0
  · rw [if_pos hs]
    simp [comp, hs]
  rw [if_neg hs]
  by_cases h0 : l = 0
  · rw [if_pos h0]
    subst h0
    simp [comp]
    decide +kernel
  rw [if_neg h0]
  by_cases h1 : l = 1
  · rw [if_pos h1]
    subst h1
    simp [comp]
    decide +kernel
  rw [if_neg h1]
  dsimp only
  have key : ∀ k, h2rgb (2 * l - (if l < 1 / 2 then l * (1 + s) else l + s - l * s))
      (if l < 1 / 2 then l * (1 + s) else l + s - l * s) (hue / 360 + k) = comp hue s l k := by
    intro k
    rw [h2_T]
    unfold comp
    split_ifs with c
    · rw [min_eq_left (by linarith)]; ring
    · rw [min_eq_right (by linarith)]; ring
  rw [← key, ← key, ← key, add_zero, sub_eq_add_neg (hue / 360)]

end Litiv.Color
