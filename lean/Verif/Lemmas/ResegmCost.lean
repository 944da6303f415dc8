import Verif.Spec.ResegmCost
import Verif.Lemmas.ResegmGraph
import Mathlib.Algebra.Order.Floor.Ring
import Mathlib.Algebra.Order.AbsoluteValue.Basic
import Mathlib.Tactic.Ring
import Mathlib.Tactic.Linarith
import Mathlib.Tactic.NormNum
import Mathlib.Tactic.Positivity

namespace Litiv.ResegmCost
open ResegmGraph

theorem round_near (q : ℚ) : |(round q : ℚ) - q| ≤ 1 / 2 := by
  rw [round]
  split_ifs with h
  · have h1 := Int.floor_le (q + 1 / 2)
    have h2 := Int.lt_floor_add_one (q + 1 / 2)
    rw [abs_le]; constructor <;> linarith
  · have h1 := Int.le_ceil (q - 1 / 2)
    have h2 := Int.ceil_lt_add_one (q - 1 / 2)
    rw [abs_le]; constructor <;> linarith

/-- The clamped, rounded coordinate. -/
def land (size : Nat) (x : ℚ) : Int := max (min (round x) (size - 1)) 0

theorem land_closest (size : Nat) (hs : 0 < size) (x : ℚ) : ∃ n : Nat, land size x = n ∧ Closest size x n := by
  have hr := abs_le.1 (round_near x)
  rw [land]
  generalize round x = r at hr
  by_cases h0 : r < 0
  · refine ⟨0, by omega, hs, ?_⟩
    intro k _
    have hx : x ≤ 0 := by
      have : (r : ℚ) ≤ -1 := by exact_mod_cast (by omega : r ≤ -1)
      linarith
    have hk : (0 : ℚ) ≤ k := by positivity
    rw [abs_of_nonneg (by push_cast; linarith), abs_of_nonneg (by linarith)]
    push_cast; linarith
  · by_cases h1 : (size : Int) - 1 < r
    · refine ⟨size - 1, by omega, by omega, ?_⟩
      intro k hk
      have hc : ((size - 1 : Nat) : ℚ) = size - 1 := by rw [Nat.cast_sub hs]; simp
      have hx : (size : ℚ) - 1 ≤ x := by
        have : (size : ℚ) ≤ r := by exact_mod_cast (by omega : (size : Int) ≤ r)
        linarith
      have hk : (k : ℚ) ≤ size - 1 := by rw [← hc]; exact_mod_cast (by omega : k ≤ size - 1)
      rw [hc, abs_of_nonpos (by linarith), abs_of_nonpos (by linarith)]
      linarith
    · refine ⟨r.toNat, by omega, by omega, ?_⟩
      intro k hk
      have hc : ((r.toNat : Nat) : ℚ) = r := by exact_mod_cast Int.toNat_of_nonneg (by omega)
      rw [hc]
      by_cases he : (k : Int) = r
      · have : (k : ℚ) = r := by exact_mod_cast he
        rw [this]
      · have h2 : |(r : ℚ) - x| ≤ 1 / 2 := abs_le.2 hr
        rcases Int.lt_or_gt_of_ne he with hlt | hgt
        · have : (k : ℚ) + 1 ≤ r := by exact_mod_cast hlt
          have h3 : |(k : ℚ) - x| = x - k := by rw [abs_of_nonpos (by linarith)]; ring
          rw [h3]; linarith
        · have : (r : ℚ) + 1 ≤ k := by exact_mod_cast hgt
          have h3 : |(k : ℚ) - x| = k - x := by rw [abs_of_nonneg (by linarith)]
          rw [h3]; linarith

/-- Natural version of `land`. -/
def landN (size : Nat) (x : ℚ) : Nat := (land size x).toNat

theorem landN_closest (size : Nat) (hs : 0 < size) (x : ℚ) : (landN size x : Int) = land size x ∧ Closest size x (landN size x) := by
  obtain ⟨n, h1, h2⟩ := land_closest size hs x
  rw [landN, h1]; exact ⟨by simp, by simpa using h2⟩

theorem closest_whole (size k n : Nat) (hk : k < size) (h : Closest size k n) : n = k := by
  have := h.2 k hk
  rw [sub_self, abs_zero] at this
  have h0 := abs_nonpos_iff.1 this
  have : (n : ℚ) = k := by linarith
  exact_mod_cast this

/-- Where the flow to layer `l` leads from a pixel. -/
def goOn (c : Cfg) (flow : Nat → Nat → Nat → ℚ × ℚ) (l : Nat) (p : Nat × Nat) : Nat × Nat :=
  (landN c.rows (p.1 + (flow l p.1 p.2).2), landN c.cols (p.2 + (flow l p.1 p.2).1))

theorem follow_place (c : Cfg) (flow : Nat → Nat → Nat → ℚ × ℚ) {cam l row col : Nat} (h : Pixel c cam (l + 1) row col) :
    follow c (build c) flow l (place c cam (l + 1) row col) =
      some (place c cam l (goOn c flow l (row, col)).1 (goOn c flow l (row, col)).2) := by
  obtain ⟨_, _, h3, h4⟩ := h
  have hr := landN_closest c.rows (by omega) (row + (flow l row col).2)
  have hc := landN_closest c.cols (by omega) (col + (flow l row col).1)
  rw [follow, build_node c ⟨by assumption, by assumption, h3, h4⟩, Option.bind_some]
  dsimp only [goOn]
  rw [← show land c.rows (row + (flow l row col).2) = max (min (round (row + (flow l row col).2)) (c.rows - 1)) 0 from rfl,
    ← show land c.cols (col + (flow l row col).1) = max (min (round (col + (flow l row col).1)) (c.cols - 1)) 0 from rfl,
    ← hr.1, ← hc.1]
  generalize landN c.rows (row + (flow l row col).2) = r
  generalize landN c.cols (col + (flow l row col).1) = k
  have he : ((place c cam (l + 1) row col : Nat) : Int) + (((r : Int) - row) * c.cols + ((k : Int) - col)) - (c.size : Nat) =
      ((place c cam l r k : Nat) : Int) := by
    simp only [place, Cfg.size]; push_cast; ring
  rw [he, if_pos (by omega)]
  simp

/-- Positions after `i` steps. -/
def steps (c : Cfg) (flow : Nat → Nat → Nat → ℚ × ℚ) (start : Nat × Nat) : Nat → Nat × Nat
  | 0 => start
  | i + 1 => goOn c flow (c.layers - 1 - (i + 1)) (steps c flow start i)

theorem steps_in (c : Cfg) (flow : Nat → Nat → Nat → ℚ × ℚ) {row col : Nat} (hr : row < c.rows) (hk : col < c.cols) (i : Nat) :
    (steps c flow (row, col) i).1 < c.rows ∧ (steps c flow (row, col) i).2 < c.cols := by
  cases i with
  | zero => exact ⟨hr, hk⟩
  | succ i => exact ⟨(landN_closest c.rows (by omega) _).2.1, (landN_closest c.cols (by omega) _).2.1⟩

theorem track_path (c : Cfg) (flow : Nat → Nat → Nat → ℚ × ℚ) {cam row col : Nat} (hcam : cam < 2) (hL : 0 < c.layers)
    (hr : row < c.rows) (hk : col < c.cols) :
    track c (build c) flow (place c cam (c.layers - 1) row col) = some ((List.range c.layers).map fun j =>
      place c cam (c.layers - 1 - j) (steps c flow (row, col) j).1 (steps c flow (row, col) j).2) := by
  have key : ∀ n ≤ c.layers - 1, (List.range n).foldlM (fun path i => path.getLast?.bind fun prev =>
      (follow c (build c) flow (c.layers - 1 - (i + 1)) prev).map fun p => path ++ [p]) [place c cam (c.layers - 1) row col] =
      some ((List.range (n + 1)).map fun j =>
        place c cam (c.layers - 1 - j) (steps c flow (row, col) j).1 (steps c flow (row, col) j).2) := by
    intro n hn
    induction n with
    | zero => rfl
    | succ n ih =>
      rw [List.range_succ, List.foldlM_append, ih (by omega)]
      simp only [Option.bind_eq_bind, Option.bind_some, List.foldlM_cons, List.foldlM_nil]
      have hlast : ((List.range (n + 1)).map fun j =>
          place c cam (c.layers - 1 - j) (steps c flow (row, col) j).1 (steps c flow (row, col) j).2).getLast? =
          some (place c cam (c.layers - 1 - (n + 1) + 1) (steps c flow (row, col) n).1 (steps c flow (row, col) n).2) := by
        rw [List.range_succ, List.map_append]
        have : c.layers - 1 - n = c.layers - 1 - (n + 1) + 1 := by omega
        simp [this]
      have hin := steps_in c flow hr hk n
      rw [hlast, Option.bind_some, follow_place c flow ⟨hcam, by omega, hin.1, hin.2⟩]
      simp only [Option.map_some, Option.bind_some]
      rw [List.range_succ (n := n + 1), List.map_append]
      rfl
  have := key (c.layers - 1) (Nat.le_refl _)
  rw [Nat.sub_add_cancel hL] at this
  exact this

theorem reverse_layers {α : Type} (f : Nat → Nat → α) (n : Nat) : ((List.range n).map fun j => f (n - 1 - j) j).reverse =
    (List.range n).map fun l => f l (n - 1 - l) := by
  apply List.ext_getElem
  · simp
  · intro i h1 h2
    have hi : i < n := by simpa using h2
    rw [List.getElem_reverse]
    simp only [List.length_map, List.length_range, List.getElem_map, List.getElem_range]
    congr 1; omega

theorem costCast_nonneg {q : ℚ} (h : 0 ≤ q) : 0 ≤ costCast q := by rw [costCast, if_pos h]; exact Int.floor_nonneg.2 h
theorem costCast_zero : costCast 0 = 0 := by simp [costCast]
theorem costCast_mono {a b : ℚ} (ha : 0 ≤ a) (h : a ≤ b) : costCast a ≤ costCast b := by
  rw [costCast, if_pos ha, costCast, if_pos (le_trans ha h)]; exact Int.floor_le_floor h

/-! ### Tables over labellings -/

theorem bitLabel_eq (a v : Nat) : bitLabel a v = (a.testBit v).toNat := by
  rw [bitLabel, Nat.one_shiftLeft]
  cases h : a.testBit v
  · have : a &&& 2 ^ v = 0 := by
      apply Nat.eq_of_testBit_eq
      intro i
      rw [Nat.testBit_and, Nat.testBit_two_pow, Nat.zero_testBit]
      by_cases hi : v = i
      · rw [← hi, h, Bool.false_and]
      · rw [decide_eq_false hi, Bool.and_false]
    simp [this]
  · have : a &&& 2 ^ v ≠ 0 := by
      intro h0
      have h1 : (a &&& 2 ^ v).testBit v = true := by
        rw [Nat.testBit_and, Nat.testBit_two_pow, h]; simp
      rw [h0, Nat.zero_testBit] at h1
      cases h1
    simp [this]

theorem cell_bits (n : Nat) (x : Nat → Bool) : cell n (fun v => (x v).toNat) < 2 ^ n ∧
    ∀ v, (cell n (fun v => (x v).toNat)).testBit v = (decide (v < n) && x v) := by
  induction n with
  | zero => simp [cell]
  | succ n ih =>
    have he : cell (n + 1) (fun v => (x v).toNat) = 2 ^ n * (x n).toNat + cell n (fun v => (x v).toNat) := by
      rw [cell, List.range_succ, List.map_append, List.sum_append]
      simp only [List.map_cons, List.map_nil, List.sum_cons, List.sum_nil, cell]
      ring
    rw [he]
    constructor
    · have h1 : (x n).toNat ≤ 1 := by cases x n <;> simp
      have h2 := Nat.mul_le_mul_left (2 ^ n) h1
      rw [Nat.pow_succ]
      have := ih.1
      omega
    · intro v
      rw [Nat.testBit_two_pow_mul_add _ ih.1]
      split_ifs with h
      · rw [ih.2 v]; simp [h, Nat.lt_succ_of_lt h]
      · by_cases hv : v = n
        · subst hv
          cases x v <;> simp
        · have : ¬ v < n + 1 := by omega
          rw [decide_eq_false this, Bool.false_and]
          have h1 : (x n).toNat ≤ 1 := by cases x n <;> simp
          have hpos : 0 < v - n := by omega
          obtain ⟨k, hk⟩ : ∃ k, v - n = k + 1 := ⟨v - n - 1, by omega⟩
          rw [hk, Nat.testBit_succ]
          have : (x n).toNat / 2 = 0 := by omega
          rw [this]; simp

theorem cell_assign (n a : Nat) (h : a < 2 ^ n) : cell n (bitLabel a) = a := by
  have he : bitLabel a = fun v => (a.testBit v).toNat := by funext v; exact bitLabel_eq a v
  rw [he]
  apply Nat.eq_of_testBit_eq
  intro v
  rw [(cell_bits n a.testBit).2 v]
  by_cases hv : v < n
  · simp [hv]
  · rw [decide_eq_false hv, Bool.false_and]
    symm
    exact Nat.testBit_lt_two_pow (lt_of_lt_of_le h (Nat.pow_le_pow_right (by norm_num) (by omega)))

theorem table_cell (fact : Nat → ℚ) (diff : Nat → Nat → Nat) (maps : List Nat) (n : Nat) (old : Nat → Int) (a : Nat) (ha : a < 2 ^ n) :
    tempTable fact diff maps n old a = costCast (coeffs fact diff maps n a * 200) := by
  have key : ∀ k ≤ 2 ^ n, ∀ a < k, (List.range k).foldl (fun t assign i =>
      if i = cell n (bitLabel assign) then costCast (coeffs fact diff maps n assign * 200) else t i) old a =
      costCast (coeffs fact diff maps n a * 200) := by
    intro k hk
    induction k with
    | zero => intro a ha; omega
    | succ k ih =>
      intro a ha
      rw [List.range_succ, List.foldl_append, List.foldl_cons, List.foldl_nil, cell_assign n k (by omega)]
      by_cases he : a = k
      · rw [if_pos he, he]
      · rw [if_neg he]; exact ih (by omega) a (by omega)
  exact key _ (Nat.le_refl _) a ha

theorem table_rest (fact : Nat → ℚ) (diff : Nat → Nat → Nat) (maps : List Nat) (n : Nat) (old : Nat → Int) (a : Nat) (ha : 2 ^ n ≤ a) :
    tempTable fact diff maps n old a = old a := by
  have key : ∀ k ≤ 2 ^ n, (List.range k).foldl (fun t assign i =>
      if i = cell n (bitLabel assign) then costCast (coeffs fact diff maps n assign * 200) else t i) old a = old a := by
    intro k hk
    induction k with
    | zero => rfl
    | succ k ih =>
      rw [List.range_succ, List.foldl_append, List.foldl_cons, List.foldl_nil, cell_assign n k (by omega), if_neg (by omega)]
      exact ih (by omega)
  exact key _ (Nat.le_refl _)

theorem coeffs_changes (fact : Nat → ℚ) (diff : Nat → Nat → Nat) (maps : List Nat) (n : Nat) (x : Nat → Bool) :
    coeffs fact diff maps n (cell n (fun v => (x v).toNat)) = changes fact diff (fun l => maps.getD l 0) x (n - 1) := by
  have hb : ∀ v < n, bitLabel (cell n (fun v => (x v).toNat)) v = (x v).toNat := by
    intro v hv
    rw [bitLabel_eq, (cell_bits n x).2 v, decide_eq_true hv, Bool.true_and]
  rw [coeffs]
  have key : ∀ k ≤ n - 1, ((List.range k).map fun i =>
      if bitLabel (cell n (fun v => (x v).toNat)) (i + 1) ≠ bitLabel (cell n (fun v => (x v).toNat)) i then fact (diff i (maps.getD (i + 1) 0)) else 0).sum =
      changes fact diff (fun l => maps.getD l 0) x k := by
    intro k hk
    induction k with
    | zero => rfl
    | succ k ih =>
      rw [List.range_succ, List.map_append, List.sum_append, ih (by omega), changes]
      simp only [List.map_cons, List.map_nil, List.sum_cons, List.sum_nil, add_zero]
      rw [hb (k + 1) (by omega), hb k (by omega)]
      congr 1
      cases x (k + 1) <;> cases x k <;> simp
  exact key _ (Nat.le_refl _)

end Litiv.ResegmCost
