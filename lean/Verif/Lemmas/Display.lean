import Verif.Spec.Display
import Verif.Lemmas.IEEE
import Mathlib.Tactic.Linarith
import Mathlib.Tactic.Ring
import Mathlib.Tactic.FieldSimp
import Mathlib.Tactic.Positivity
import Mathlib.Tactic.NormNum
import Mathlib.Tactic.GCongr
import Mathlib.Tactic.SplitIfs

/-!
# Lemmas for the display helper
-/

namespace Litiv.Display
open Spec

/-! ### Rounding -/

theorem roundEven_near (x : ℚ) : |(Lut.roundEven x : ℚ) - x| ≤ 1 / 2 := by
  have h1 := Int.floor_le x
  have h2 := Int.lt_floor_add_one x
  unfold Lut.roundEven
  dsimp only
  split_ifs <;> (try push_cast) <;> rw [abs_le] <;> constructor <;> linarith

theorem fl_le (x : ℚ) (hx : 0 < x) : IEEE.fl 24 x ≤ x * (1 + 1 / 2 ^ 24) := by
  have h1 := Lut.ilog_le x hx
  unfold IEEE.fl
  rw [if_neg hx.ne', abs_of_pos hx]
  generalize Lut.ilog x = e at *
  have h2 := (abs_le.1 (roundEven_near (x * (2 : ℚ) ^ (((24 : Nat) : Int) - 1 - e)))).2
  generalize (Lut.roundEven (x * (2 : ℚ) ^ (((24 : Nat) : Int) - 1 - e)) : ℚ) = r at *
  have e1 : (2 : ℚ) ^ (((24 : Nat) : Int) - 1 - e) * (2 : ℚ) ^ (e - (((24 : Nat) : Int) - 1)) = 1 := by
    rw [← zpow_add₀ (by norm_num)]; simp
  have e2 : (2 : ℚ) ^ (e - (((24 : Nat) : Int) - 1)) = (2 : ℚ) ^ e / 2 ^ 23 := by
    rw [zpow_sub₀ (by norm_num)]; norm_num
  have hp : 0 < (2 : ℚ) ^ (e - (((24 : Nat) : Int) - 1))   := zpow_pos (by norm_num) _
  have : r * (2 : ℚ) ^ (e - (((24 : Nat) : Int) - 1)) ≤ (x * (2 : ℚ) ^ (((24 : Nat) : Int) - 1 - e) + 1 / 2) * (2 : ℚ) ^ (e - (((24 : Nat) : Int) - 1)) :=
    mul_le_mul_of_nonneg_right (by linarith) hp.le
  rw [add_mul, mul_assoc, e1, e2] at this
  rw [e2]
  linarith

theorem flt_eq (n : Int) (h : |n| ≤ 2 ^ 24) : flt n = n := IEEE.fl_int 24 (by norm_num) n h

theorem trunc_le (q : ℚ) (n : Int) (h0 : 0 ≤ q) (h : q < n + 1) : trunc q ≤ n := by
  rw [trunc, if_pos h0]
  have : ⌊q⌋ < n + 1 := by rw [Int.floor_lt]; push_cast; exact h
  omega

theorem trunc_nonneg (q : ℚ) (h0 : 0 ≤ q) : 0 ≤ trunc q := by
  rw [trunc, if_pos h0]; exact Int.floor_nonneg.2 h0

/-- Both float expressions of `fit` stay below the next whole number. -/
theorem scale1 (a b c n : Int) (ha : 0 < a) (hb : 0 < b) (hc : 0 < c) (ha' : a ≤ 2 ^ 20) (hb' : b ≤ 2 ^ 20) (hc' : c ≤ 2 ^ 20) (hn : n ≤ 2 ^ 20)
    (h : a * b ≤ n * c) : trunc (IEEE.fl 24 (IEEE.fl 24 (flt a * flt b) / flt c)) ≤ n := by
  rw [flt_eq a (by rw [abs_le]; omega), flt_eq b (by rw [abs_le]; omega), flt_eq c (by rw [abs_le]; omega)]
  have ha0 : (0 : ℚ) < a := by exact_mod_cast ha
  have hb0 : (0 : ℚ) < b := by exact_mod_cast hb
  have hc0 : (0 : ℚ) < c := by exact_mod_cast hc
  have hq : (a : ℚ) * b ≤ n * c := by exact_mod_cast h
  have hn' : (n : ℚ) ≤ 2 ^ 20 := by exact_mod_cast hn
  have h1 := fl_le ((a : ℚ) * b) (by positivity)
  have h2 : IEEE.fl 24 ((a : ℚ) * b) / c ≤ n * (1 + 1 / 2 ^ 24) := by
    rw [div_le_iff₀ hc0]
    calc _ ≤ _ := h1
      _ ≤ n * c * (1 + 1 / 2 ^ 24) := by gcongr
      _ = _ := by ring
  have hn0 : (0 : ℚ) < n := by
    by_contra hh
    have : (n : ℚ) * c ≤ 0 := mul_nonpos_of_nonpos_of_nonneg (by linarith) hc0.le
    have := mul_pos ha0 hb0
    linarith
  have h3 := IEEE.fl_mono 24 (by norm_num) _ _ h2
  have h4 := fl_le ((n : ℚ) * (1 + 1 / 2 ^ 24)) (by positivity)
  refine trunc_le _ _ (IEEE.fl_nonneg 24 (by norm_num) _ (div_nonneg (IEEE.fl_nonneg 24 (by norm_num) _ (by positivity)) hc0.le)) ?_
  norm_num at h4 hn'
  linarith

theorem scale2 (a b c n : Int) (ha : 0 < a) (hb : 0 < b) (hc : 0 < c) (ha' : a ≤ 2 ^ 20) (hb' : b ≤ 2 ^ 20) (hc' : c ≤ 2 ^ 20) (hn : n ≤ 2 ^ 20)
    (h : a * b ≤ n * c) : trunc (IEEE.fl 24 (flt a * IEEE.fl 24 (flt b / flt c))) ≤ n := by
  rw [flt_eq a (by rw [abs_le]; omega), flt_eq b (by rw [abs_le]; omega), flt_eq c (by rw [abs_le]; omega)]
  have ha0 : (0 : ℚ) < a := by exact_mod_cast ha
  have hb0 : (0 : ℚ) < b := by exact_mod_cast hb
  have hc0 : (0 : ℚ) < c := by exact_mod_cast hc
  have hq : (a : ℚ) * b ≤ n * c := by exact_mod_cast h
  have hn' : (n : ℚ) ≤ 2 ^ 20 := by exact_mod_cast hn
  have h1 := fl_le ((b : ℚ) / c) (by positivity)
  have h2 : (a : ℚ) * IEEE.fl 24 ((b : ℚ) / c) ≤ n * (1 + 1 / 2 ^ 24) := by
    calc _ ≤ (a : ℚ) * (b / c * (1 + 1 / 2 ^ 24)) := by gcongr
      _ = a * b / c * (1 + 1 / 2 ^ 24) := by ring
      _ ≤ _ := by
        gcongr
        rw [div_le_iff₀ hc0]; exact hq
  have hn0 : (0 : ℚ) < n := by
    by_contra hh
    have : (n : ℚ) * c ≤ 0 := mul_nonpos_of_nonpos_of_nonneg (by linarith) hc0.le
    have := mul_pos ha0 hb0
    linarith
  have h3 := IEEE.fl_mono 24 (by norm_num) _ _ h2
  have h4 := fl_le ((n : ℚ) * (1 + 1 / 2 ^ 24)) (by positivity)
  refine trunc_le _ _ (IEEE.fl_nonneg 24 (by norm_num) _ (mul_nonneg ha0.le (IEEE.fl_nonneg 24 (by norm_num) _ (by positivity)))) ?_
  norm_num at h4 hn'
  linarith

/-! ### Fitting -/

theorem fit_landscape (max cur : Size) (hm : Sane max) (hc : Sane cur) (hl : max.h ≤ max.w)
    (h : ¬(max.w < cur.w ∧ cur.h < cur.w ∧ max.h * cur.w < cur.h * max.w)) : Fits max (fit max cur) := by
  obtain ⟨m1, m2, m3, m4⟩ := hm
  obtain ⟨c1, c2, c3, c4⟩ := hc
  unfold fit
  by_cases h1 : 0 < max.area ∧ (max.w < cur.w ∨ max.h < cur.h)
  · rw [if_pos h1]
    by_cases h2 : max.w < cur.w ∧ cur.h < cur.w
    · rw [if_pos h2]
      refine ⟨le_rfl, scale1 _ _ _ _ m1 c2 c1 m3 c4 c3 m4 ?_⟩
      have : ¬ (max.h * cur.w < cur.h * max.w) := fun hh => h ⟨h2.1, h2.2, hh⟩
      nlinarith
    · rw [if_neg h2]
      refine ⟨scale2 _ _ _ _ m2 c1 c2 m4 c3 c4 m3 ?_, le_rfl⟩
      rcases le_or_gt cur.w cur.h with h3 | h3
      · nlinarith
      · have h4 : cur.w ≤ max.w := by by_contra h5; exact h2 ⟨by omega, h3⟩
        have h5 : max.h < cur.h := by rcases h1.2 with h | h <;> omega
        nlinarith
  · rw [if_neg h1]
    have : 0 < max.area := mul_pos m1 m2
    constructor
    · by_contra hh; exact h1 ⟨this, Or.inl (by omega)⟩
    · by_contra hh; exact h1 ⟨this, Or.inr (by omega)⟩

theorem fit_portrait (max cur : Size) (hm : Sane max) (hc : Sane cur) (hl : max.w ≤ max.h)
    (h : cur.h < cur.w ∨ cur.w * max.h ≤ max.w * cur.h) : Fits max (fit max cur) := by
  obtain ⟨m1, m2, m3, m4⟩ := hm
  obtain ⟨c1, c2, c3, c4⟩ := hc
  unfold fit
  by_cases h1 : 0 < max.area ∧ (max.w < cur.w ∨ max.h < cur.h)
  · rw [if_pos h1]
    by_cases h2 : max.w < cur.w ∧ cur.h < cur.w
    · rw [if_pos h2]
      refine ⟨le_rfl, scale1 _ _ _ _ m1 c2 c1 m3 c4 c3 m4 ?_⟩
      nlinarith
    · rw [if_neg h2]
      refine ⟨scale2 _ _ _ _ m2 c1 c2 m4 c3 c4 m3 ?_, le_rfl⟩
      rcases h with h | h
      · exfalso
        have h4 : cur.w ≤ max.w := by by_contra h5; exact h2 ⟨by omega, h⟩
        rcases h1.2 with h | h <;> omega
      · nlinarith
  · rw [if_neg h1]
    have : 0 < max.area := mul_pos m1 m2
    constructor
    · by_contra hh; exact h1 ⟨this, Or.inl (by omega)⟩
    · by_contra hh; exact h1 ⟨this, Or.inr (by omega)⟩

theorem fit_shrinks (max cur : Size) (hm : Sane max) (hc : Sane cur) (hl : max.h ≤ max.w) : Fits cur (fit max cur) := by
  obtain ⟨m1, m2, m3, m4⟩ := hm
  obtain ⟨c1, c2, c3, c4⟩ := hc
  unfold fit
  by_cases h1 : 0 < max.area ∧ (max.w < cur.w ∨ max.h < cur.h)
  · rw [if_pos h1]
    by_cases h2 : max.w < cur.w ∧ cur.h < cur.w
    · rw [if_pos h2]
      refine ⟨h2.1.le, scale1 _ _ _ _ m1 c2 c1 m3 c4 c3 c4 ?_⟩
      nlinarith
    · rw [if_neg h2]
      have h3 : max.h ≤ cur.h := by
        rcases h1.2 with h | h
        · have : cur.w ≤ cur.h := by by_contra h5; exact h2 ⟨h, by omega⟩
          omega
        · omega
      refine ⟨scale2 _ _ _ _ m2 c1 c2 m4 c3 c4 c3 ?_, h3⟩
      nlinarith
  · rw [if_neg h1]; exact ⟨le_rfl, le_rfl⟩

/-! ### Tiles -/

/-- A row of images of the same size: the pixel at a column. -/
theorem joinRow_spec {α : Type} (R W : Nat) (hW : 0 < W) (ts : List (Img α)) (acc : Img α) (k : Nat) (hk : acc.cols = k * W) (hr : acc.rows = R)
    (ht : ∀ t ∈ ts, t.cols = W ∧ t.rows = R) :
    ∃ j, joinRow acc ts = some j ∧ j.rows = R ∧ j.cols = (k + ts.length) * W ∧ (∀ y x, x < k * W → j.px y x = acc.px y x) ∧
      ∀ c (hc : c < ts.length) u, u < W → ∀ y, j.px y ((k + c) * W + u) = (ts[c]).px y u := by
  induction ts generalizing acc k with
  | nil => exact ⟨acc, rfl, hr, by simpa using hk, fun _ _ _ => rfl, fun c hc => by simp at hc⟩
  | cons t ts ih =>
    obtain ⟨t1, t2⟩ := ht t (by simp)
    rw [joinRow, hconcat, if_pos (by rw [hr, t2]), Option.bind_some]
    obtain ⟨j, j1, j2, j3, j4, j5⟩ := ih ⟨acc.rows, acc.cols + t.cols, fun y x => if x < acc.cols then acc.px y x else t.px y (x - acc.cols)⟩
      (k + 1) (by simp [hk, t1]; ring) hr (fun t' h' => ht t' (by simp [h']))
    refine ⟨j, j1, j2, by rw [j3, List.length_cons]; ring, ?_, ?_⟩
    · intro y x hx
      have : x < (k + 1) * W := by nlinarith
      rw [j4 y x this]
      dsimp only
      rw [if_pos (by omega)]
    · intro c hc u hu y
      cases c with
      | zero =>
        have : (k + 0) * W + u < (k + 1) * W := by nlinarith
        rw [j4 y _ this]
        dsimp only
        rw [if_neg (by rw [hk]; simp), hk]
        simp
      | succ c =>
        have := j5 c (by simpa using hc) u hu y
        rw [show k + (c + 1) = k + 1 + c by omega, this]
        rfl

theorem joinCol_spec {α : Type} (H C : Nat) (hH : 0 < H) (ts : List (Img α)) (acc : Img α) (k : Nat) (hk : acc.rows = k * H) (hr : acc.cols = C)
    (ht : ∀ t ∈ ts, t.rows = H ∧ t.cols = C) :
    ∃ j, joinCol acc ts = some j ∧ j.cols = C ∧ j.rows = (k + ts.length) * H ∧ (∀ y x, y < k * H → j.px y x = acc.px y x) ∧
      ∀ r (hc : r < ts.length) v, v < H → ∀ x, j.px ((k + r) * H + v) x = (ts[r]).px v x := by
  induction ts generalizing acc k with
  | nil => exact ⟨acc, rfl, hr, by simpa using hk, fun _ _ _ => rfl, fun c hc => by simp at hc⟩
  | cons t ts ih =>
    obtain ⟨t1, t2⟩ := ht t (by simp)
    rw [joinCol, vconcat, if_pos (by rw [hr, t2]), Option.bind_some]
    obtain ⟨j, j1, j2, j3, j4, j5⟩ := ih ⟨acc.rows + t.rows, acc.cols, fun y x => if y < acc.rows then acc.px y x else t.px (y - acc.rows) x⟩
      (k + 1) (by simp [hk, t1]; ring) hr (fun t' h' => ht t' (by simp [h']))
    refine ⟨j, j1, j2, by rw [j3, List.length_cons]; ring, ?_, ?_⟩
    · intro y x hx
      have : y < (k + 1) * H := by nlinarith
      rw [j4 y x this]
      dsimp only
      rw [if_pos (by omega)]
    · intro c hc u hu y
      cases c with
      | zero =>
        have : (k + 0) * H + u < (k + 1) * H := by nlinarith
        rw [j4 _ y this]
        dsimp only
        rw [if_neg (by rw [hk]; simp), hk]
        simp
      | succ c =>
        have := j5 c (by simpa using hc) u hu y
        rw [show k + (c + 1) = k + 1 + c by omega, this]
        rfl

variable {ι α : Type} (prepare : ι → Size → Option (Int × Int × Bool) → Img α)

theorem rowTiles_length (s : St α) (tile : Size) (row c : Nat) (is : List ι) : (rowTiles prepare s tile row c is).length = is.length := by
  induction is generalizing c with
  | nil => rfl
  | cons i is ih => simp [rowTiles, ih]

theorem rowTiles_get (s : St α) (tile : Size) (row c : Nat) (is : List ι) (k : Nat) (h : k < is.length) :
    (rowTiles prepare s tile row c is)[k]'(by rw [rowTiles_length]; exact h) = prepare is[k] tile (cursorOn s.cursor s.latest tile row (c + k)) := by
  induction is generalizing c k with
  | nil => simp at h
  | cons i is ih =>
    cases k with
    | zero => simp [rowTiles]
    | succ k => simp only [rowTiles, List.getElem_cons_succ]; rw [ih (c + 1) k (by simpa using h), show c + 1 + k = c + (k + 1) by omega]

/-- The tile in a row and a column of the display. -/
theorem rowImg_spec (hp : Resizes prepare) (s : St α) (tile : Size) (htw : 0 < tile.w) (hth : 0 < tile.h) (row : Nat) (is : List ι) (h0 : 0 < is.length) :
    ∃ j, rowImg prepare s tile row is = some j ∧ j.rows = tile.h.toNat ∧ j.cols = is.length * tile.w.toNat ∧
      ∀ c (hc : c < is.length) u, u < tile.w.toNat → ∀ y, j.px y (c * tile.w.toNat + u) = (prepare is[c] tile (cursorOn s.cursor s.latest tile row c)).px y u := by
  have hsz : ∀ i c, (prepare i tile c).cols = tile.w.toNat ∧ (prepare i tile c).rows = tile.h.toNat := fun i c => by
    have := hp i tile c htw hth; omega
  cases is with
  | nil => simp at h0
  | cons i is =>
    have hall : ∀ t ∈ rowTiles prepare s tile row 1 is, t.cols = tile.w.toNat ∧ t.rows = tile.h.toNat := by
      intro t ht
      obtain ⟨k, hk, rfl⟩ := List.getElem_of_mem ht
      rw [rowTiles_get prepare s tile row 1 is k (by rw [rowTiles_length] at hk; exact hk)]
      exact hsz _ _
    obtain ⟨j, j1, j2, j3, j4, j5⟩ := joinRow_spec tile.h.toNat tile.w.toNat (by omega) (rowTiles prepare s tile row 1 is)
      (prepare i tile (cursorOn s.cursor s.latest tile row 0)) 1 (by rw [(hsz _ _).1]; omega) (hsz _ _).2 hall
    refine ⟨j, by rw [← j1]; rfl, j2, by rw [j3, rowTiles_length, List.length_cons]; ring, ?_⟩
    intro c hc u hu y
    cases c with
    | zero => rw [j4 y _ (by omega)]; simp
    | succ c =>
      have hc' : c < is.length := by simpa using hc
      have := j5 c (by rw [rowTiles_length]; exact hc') u hu y
      rw [rowTiles_get prepare s tile row 1 is c hc', Nat.add_comm 1 c] at this
      exact this

theorem rowImgs_spec (hp : Resizes prepare) (s : St α) (tile : Size) (htw : 0 < tile.w) (hth : 0 < tile.h) (n : Nat) (h0 : 0 < n) (rows : List (List ι))
    (hr : ∀ r ∈ rows, r.length = n) (k : Nat) :
    ∃ l, rowImgs prepare s tile k rows = some l ∧ l.length = rows.length ∧ (∀ j ∈ l, j.rows = tile.h.toNat ∧ j.cols = n * tile.w.toNat) ∧
      ∀ r (h : r < rows.length) (h' : r < l.length) c (hc : c < rows[r].length) u, u < tile.w.toNat → ∀ y,
        (l[r]).px y (c * tile.w.toNat + u) = (prepare rows[r][c] tile (cursorOn s.cursor s.latest tile (k + r) c)).px y u := by
  induction rows generalizing k with
  | nil => exact ⟨[], rfl, rfl, by simp, fun r h => by simp at h⟩
  | cons is rest ih =>
    have hn : is.length = n := hr is (by simp)
    obtain ⟨j, j1, j2, j3, j4⟩ := rowImg_spec prepare hp s tile htw hth k is (by omega)
    obtain ⟨l, l1, l2, l3, l4⟩ := ih (fun r h => hr r (by simp [h])) (k + 1)
    refine ⟨j :: l, by rw [rowImgs, j1, Option.bind_some, l1]; rfl, by simp [l2], ?_, ?_⟩
    · intro i hi
      rcases List.mem_cons.1 hi with rfl | hi
      · exact ⟨j2, by rw [j3, hn]⟩
      · exact l3 i hi
    · intro r h h' c hc u hu y
      cases r with
      | zero => exact j4 c hc u hu y
      | succ r =>
        have := l4 r (by simpa using h) (by simpa using h') c (by simpa using hc) u hu y
        simp only [List.getElem_cons_succ]
        rw [this, show k + 1 + r = k + (r + 1) by omega]

theorem tileSize_some (max : Size) (rows : List (List ι)) (sug tile : Size) (h : tileSize max rows sug = some tile) :
    0 < rows.length ∧ 0 < (rows.headD []).length ∧ (∀ r ∈ rows, r.length = (rows.headD []).length) ∧ 0 < sug.area ∧
      tile = ⟨(fit max (total rows sug)).w / ((rows.headD []).length : Int), (fit max (total rows sug)).h / (rows.length : Int)⟩ := by
  cases rows with
  | nil => cases h
  | cons r0 rs =>
    simp only [tileSize] at h
    by_cases hc : 0 < sug.area ∧ 0 < r0.length ∧ rs.all (fun r => r.length == r0.length)
    · rw [if_pos hc] at h
      refine ⟨by simp, by simpa using hc.2.1, ?_, hc.1, ?_⟩
      · intro r hr
        rcases List.mem_cons.1 hr with rfl | hr
        · rfl
        · have := hc.2.2
          rw [List.all_eq_true] at this
          simpa using this r hr
      · simp only [total, List.headD_cons, List.length_cons]
        exact (Option.some.inj h).symm
    · rw [if_neg hc] at h; cases h

/-- What a display shows. -/
theorem display_spec (hp : Resizes prepare) (s s' : St α) (rows : List (List ι)) (sug : Size) (h : display prepare s rows sug = some s') :
    ∃ tile shown, tileSize s.max rows sug = some tile ∧ 0 < tile.w ∧ 0 < tile.h ∧
      s' = { s with lastDisp := ⟨shown.cols, shown.rows⟩, lastTile := tile, shown := some shown } ∧
      (shown.cols : Int) = tile.w * ((rows.headD []).length : Int) ∧ (shown.rows : Int) = tile.h * (rows.length : Int) ∧
      ∀ r (hr : r < rows.length) c (hc : c < rows[r].length) u v, u < tile.w.toNat → v < tile.h.toNat →
        shown.px (r * tile.h.toNat + v) (c * tile.w.toNat + u) = (prepare rows[r][c] tile (cursorOn s.cursor s.latest tile r c)).px v u := by
  unfold display at h
  cases ht : tileSize s.max rows sug with
  | none => rw [ht] at h; cases h
  | some tile =>
    rw [ht] at h
    simp only [Option.bind_eq_bind, Option.bind_some] at h
    by_cases hpos : 0 < tile.w ∧ 0 < tile.h
    · rw [if_pos hpos] at h
      obtain ⟨t1, t2, t3, t4, t5⟩ := tileSize_some s.max rows sug tile ht
      obtain ⟨l, l1, l2, l3, l4⟩ := rowImgs_spec prepare hp s tile hpos.1 hpos.2 _ t2 rows t3 0
      rw [l1] at h
      cases l with
      | nil => simp at l2; omega
      | cons i is =>
        dsimp only at h
        obtain ⟨j, j1, j2, j3, j4, j5⟩ := joinCol_spec tile.h.toNat ((rows.headD []).length * tile.w.toNat) (by omega) is i 1
          (by rw [(l3 i (by simp)).1]; omega) (l3 i (by simp)).2 (fun t ht => l3 t (by simp [ht]))
        rw [j1] at h
        simp only [Option.bind_some] at h
        refine ⟨tile, j, rfl, hpos.1, hpos.2, (Option.some.inj h).symm, ?_, ?_, ?_⟩
        · rw [j2]; push_cast; rw [Int.toNat_of_nonneg hpos.1.le]; ring
        · rw [j3]; push_cast; rw [Int.toNat_of_nonneg hpos.2.le]; rw [← l2, List.length_cons]; push_cast; ring
        · intro r hr c hc u v hu hv
          have key := l4 r hr (by rw [l2]; exact hr) c hc u hu v
          rw [Nat.zero_add] at key
          rw [← key]
          cases r with
          | zero => rw [j4 _ _ (by omega)]; simp
          | succ r =>
            have := j5 r (by rw [List.length_cons] at l2; omega) v hv (c * tile.w.toNat + u)
            rw [Nat.add_comm 1 r] at this
            exact this
    · rw [if_neg hpos] at h; cases h

/-! ### Acts between displays -/

theorem run_keeps (s : St α) (a : Act) : (a.run s).lastDisp = s.lastDisp ∧ (a.run s).lastTile = s.lastTile ∧ (a.run s).shown = s.shown ∧ (a.run s).max = s.max := by
  cases a with
  | mouse event x y flags => exact ⟨rfl, rfl, rfl, rfl⟩
  | key raw =>
    simp only [Act.run, waitKey]
    by_cases h : (if raw ≠ -1 then raw.tmod 256 else raw) = 32
    · rw [if_pos h]; exact ⟨rfl, rfl, rfl, rfl⟩
    · rw [if_neg h]; exact ⟨rfl, rfl, rfl, rfl⟩
  | continuous b => exact ⟨rfl, rfl, rfl, rfl⟩
  | cursor b => exact ⟨rfl, rfl, rfl, rfl⟩

theorem runs_keep (s : St α) (acts : List Act) : (acts.foldl Act.run s).lastDisp = s.lastDisp ∧ (acts.foldl Act.run s).lastTile = s.lastTile ∧
    (acts.foldl Act.run s).shown = s.shown ∧ (acts.foldl Act.run s).max = s.max := by
  induction acts generalizing s with
  | nil => exact ⟨rfl, rfl, rfl, rfl⟩
  | cons a acts ih =>
    obtain ⟨h1, h2, h3, h4⟩ := ih (a.run s)
    obtain ⟨g1, g2, g3, g4⟩ := run_keeps s a
    exact ⟨h1.trans g1, h2.trans g2, h3.trans g3, h4.trans g4⟩

theorem mouse_inside (s : St α) (event flags : Int) (x y : Nat) (hx : (x : Int) < s.lastDisp.w) (hy : (y : Int) < s.lastDisp.h)
    (hw : 0 < s.lastTile.w) (hh : 0 < s.lastTile.h) :
    (mouse s event x y flags).latest = ⟨x, y, ((x % s.lastTile.w.toNat : Nat) : Int), ((y % s.lastTile.h.toNat : Nat) : Int), s.lastTile, s.lastDisp, event, flags⟩ := by
  simp only [mouse]
  rw [if_pos ⟨by omega, by omega, hx, hy, mul_pos hw hh⟩]
  have e1 : s.lastTile.w = (s.lastTile.w.toNat : Int) := by omega
  have e2 : s.lastTile.h = (s.lastTile.h.toNat : Int) := by omega
  have f1 : (x : Int).tmod s.lastTile.w = ((x % s.lastTile.w.toNat : Nat) : Int) := by
    rw [e1]; simp [Int.tmod_eq_emod_of_nonneg]
  have f2 : (y : Int).tmod s.lastTile.h = ((y % s.lastTile.h.toNat : Nat) : Int) := by
    rw [e2]; simp [Int.tmod_eq_emod_of_nonneg]
  rw [f1, f2]

/-! ### Albums -/

theorem right_iff (key : Int) : Right key ↔ (key % 256 = 100 ∨ key = 2490368 ∨ key = 1113939 ∨ key % 256 = 28) := by
  have : (('d').toNat : Int) = 100 := rfl
  simp only [Right, this, List.mem_cons, List.not_mem_nil, or_false]
  tauto

theorem left_iff (key : Int) : Left key ↔ (key % 256 = 97 ∨ key = 2424832 ∨ key = 1113937 ∨ key % 256 = 31) := by
  have : (('a').toNat : Int) = 97 := rfl
  simp only [Left, this, List.mem_cons, List.not_mem_nil, or_false]
  tauto

theorem albumNext_spec (n idx : Nat) (key : Int) (h : idx < n) : albumNext n idx key < n ∧
    ((albumNext n idx key : Nat) : Int) = ((idx : Int) + steps [key]) % n := by
  have hi : ((idx : Int)) % n = idx := Int.emod_eq_of_lt (by omega) (by omega)
  unfold albumNext
  simp only [steps, add_zero]
  by_cases h1 : key % 256 = 100 ∨ key = 2490368 ∨ key = 1113939 ∨ key % 256 = 28
  · rw [if_pos h1, if_pos ((right_iff key).2 h1)]
    exact ⟨Nat.mod_lt _ (by omega), by push_cast; rfl⟩
  · rw [if_neg h1, if_neg (fun h => h1 ((right_iff key).1 h))]
    by_cases h2 : key % 256 = 97 ∨ key = 2424832 ∨ key = 1113937 ∨ key % 256 = 31
    · rw [if_pos h2, if_pos ((left_iff key).2 h2)]
      by_cases h3 : 0 < idx
      · rw [if_pos h3]
        refine ⟨by omega, ?_⟩
        rw [Int.emod_eq_of_lt (by omega) (by omega)]; omega
      · rw [if_neg h3]
        refine ⟨by omega, ?_⟩
        have : (idx : Int) + -1 = (n - 1 : Int) + n * (-1) := by omega
        rw [this, Int.add_mul_emod_self_left, Int.emod_eq_of_lt (by omega) (by omega)]; omega
    · rw [if_neg h2, if_neg (fun h => h2 ((left_iff key).1 h)), add_zero, hi]
      exact ⟨h, rfl⟩

theorem albumLoop_spec (n idx : Nat) (keys : List Int) (h : idx < n) (hk : ∀ k ∈ keys, ¬ Escape k) :
    ∃ l, albumLoop n idx keys = some l ∧ (∀ i ∈ l, i < n) ∧ (((idx :: l).getLastD 0 : Nat) : Int) = ((idx : Int) + steps keys) % n := by
  induction keys generalizing idx with
  | nil => exact ⟨[], rfl, by simp, by simp [steps]; rw [Int.emod_eq_of_lt (by omega) (by omega)]⟩
  | cons key keys ih =>
    obtain ⟨h1, h2⟩ := albumNext_spec n idx key h
    have he : ¬ key % 256 = 27 := hk key (by simp)
    obtain ⟨l, l1, l2, l3⟩ := ih (albumNext n idx key) h1 (fun k hk' => hk k (by simp [hk']))
    have e : ((idx : Int) + steps (key :: keys)) % n = (((albumNext n idx key : Nat) : Int) + steps keys) % n := by
      rw [h2, Int.emod_add_emod]
      simp only [steps, add_zero]
      ring_nf
    rw [e]
    simp only [albumLoop]
    by_cases h3 : albumNext n idx key ≠ idx
    · rw [if_pos h3, if_pos h1, if_neg he, l1]
      refine ⟨_, rfl, ?_, ?_⟩
      · intro i hi
        rcases List.mem_cons.1 hi with rfl | hi
        · exact h1
        · exact l2 i hi
      · rw [← l3]; simp
    · rw [if_neg h3, if_neg he]
      rw [not_not] at h3
      rw [h3] at l1 l3
      exact ⟨l, l1, l2, by rw [h3]; exact l3⟩

theorem albumLoop_escape (n idx : Nat) (keys rest : List Int) (key : Int) (hk : ∀ k ∈ keys, ¬ Escape k) (he : Escape key) (h : idx < n) :
    albumLoop n idx (keys ++ key :: rest) = albumLoop n idx keys := by
  induction keys generalizing idx with
  | nil =>
    have he : key % 256 = 27 := he
    have : albumNext n idx key = idx := by
      unfold albumNext
      rw [if_neg (by omega), if_neg (by omega)]
    simp only [List.nil_append, albumLoop]
    rw [this, if_neg (by simp), if_pos he]
  | cons k keys ih =>
    have hk0 : ¬ k % 256 = 27 := hk k (by simp)
    simp only [List.cons_append, albumLoop]
    have := albumNext_spec n idx k h
    rw [if_neg hk0, if_neg hk0, if_neg hk0, if_neg hk0, ih idx (fun k hk' => hk k (by simp [hk'])) h, ih _ (fun k hk' => hk k (by simp [hk'])) this.1]

/-! ### Values -/

theorem sat8_mono (a b : ℚ) (h : a ≤ b) : sat8 a ≤ sat8 b := by
  unfold sat8
  have := IEEE.roundEven_mono a b h
  omega

theorem sat8_near (q : ℚ) (h0 : -1 / 2 ≤ q) (h1 : q ≤ 255 + 1 / 2) : |(sat8 q : ℚ) - q| ≤ 1 / 2 := by
  have hn := abs_le.1 (roundEven_near q)
  unfold sat8
  have h2 : -1 ≤ Lut.roundEven q := by
    have : (-1 : ℚ) ≤ Lut.roundEven q := by linarith
    exact_mod_cast this
  have h3 : Lut.roundEven q ≤ 256 := by
    have : (Lut.roundEven q : ℚ) ≤ 256 := by linarith
    exact_mod_cast this
  rw [abs_le]
  rcases (by omega : Lut.roundEven q = -1 ∨ Lut.roundEven q = 256 ∨ (0 ≤ Lut.roundEven q ∧ Lut.roundEven q ≤ 255)) with h | h | h
  · rw [h] at hn ⊢
    norm_num at hn ⊢
    constructor <;> linarith
  · rw [h] at hn ⊢
    norm_num at hn ⊢
    constructor <;> linarith
  · rw [min_eq_right h.2, max_eq_right h.1]; exact hn

/-! ### Points -/

theorem annot_range (i tile size : Int) (h0 : 0 ≤ i) (h1 : i < tile) (h2 : tile ≤ 4096) (h3 : 0 < size) (h4 : size ≤ 4096) :
    0 ≤ annotPt i tile size ∧ annotPt i tile size < size := by
  unfold annotPt
  rw [flt_eq i (by rw [abs_le]; omega), flt_eq tile (by rw [abs_le]; omega), flt_eq size (by rw [abs_le]; omega)]
  have ht : (0 : ℚ) < tile := by exact_mod_cast (by omega : 0 < tile)
  have hs : (0 : ℚ) < size := by exact_mod_cast h3
  have hi : (0 : ℚ) ≤ i := by exact_mod_cast h0
  have n1 : 0 ≤ IEEE.fl 24 ((i : ℚ) / tile) := IEEE.fl_nonneg 24 (by norm_num) _ (by positivity)
  have n2 : 0 ≤ IEEE.fl 24 (IEEE.fl 24 ((i : ℚ) / tile) * size) := IEEE.fl_nonneg 24 (by norm_num) _ (by positivity)
  refine ⟨trunc_nonneg _ n2, ?_⟩
  have a1 : (i : ℚ) / tile ≤ ((4095 : Int) : ℚ) * (2 : ℚ) ^ (-12 : Int) := by
    rw [div_le_iff₀ ht]
    have : (i : ℚ) ≤ tile - 1 := by exact_mod_cast (by omega : i ≤ tile - 1)
    have h2' : (tile : ℚ) ≤ 4096 := by exact_mod_cast h2
    norm_num
    linarith
  have a2 := IEEE.fl_mono 24 (by norm_num) _ _ a1
  rw [IEEE.fl_exact 24 (by norm_num) 4095 (-12) (by norm_num)] at a2
  have a3 : IEEE.fl 24 ((i : ℚ) / tile) * size ≤ ((size * 4096 - 1 : Int) : ℚ) * (2 : ℚ) ^ (-12 : Int) := by
    have hs1 : (1 : ℚ) ≤ size := by exact_mod_cast h3
    calc _ ≤ ((4095 : Int) : ℚ) * (2 : ℚ) ^ (-12 : Int) * size := by gcongr
      _ ≤ _ := by push_cast; norm_num; linarith
  have a4 := IEEE.fl_mono 24 (by norm_num) _ _ a3
  rw [IEEE.fl_exact 24 (by norm_num) _ (-12) (by rw [abs_le]; constructor <;> norm_num <;> omega)] at a4
  have : trunc (IEEE.fl 24 (IEEE.fl 24 ((i : ℚ) / tile) * size)) ≤ size - 1 := by
    refine trunc_le _ _ n2 (lt_of_le_of_lt a4 ?_)
    push_cast
    norm_num
    linarith
  omega

end Litiv.Display
