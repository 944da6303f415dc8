import Verif.Model.SubPix
import Mathlib.Tactic.Linarith
import Mathlib.Tactic.Ring

/-!
# C86: sub-pixel sampling
-/

namespace Litiv.SubPix

/-- bilinear interpolation of a function on the integer grid at column `u` and row `v` -/
def bilinear (E : Int → Int → ℚ) (v u : ℚ) : ℚ :=
  (1 - Int.fract v) * ((1 - Int.fract u) * E ⌊v⌋ ⌊u⌋ + Int.fract u * E ⌊v⌋ (⌊u⌋ + 1)) +
  Int.fract v * ((1 - Int.fract u) * E (⌊v⌋ + 1) ⌊u⌋ + Int.fract u * E (⌊v⌋ + 1) (⌊u⌋ + 1))

/-- the image extended to the plane by repeating its border pixels -/
def clampExt (m : Img) (y x : Int) : ℚ := m.px (max 0 (min y (m.rows - 1))) (max 0 (min x (m.cols - 1)))

/-- the image extended to the plane periodically -/
def wrapExt (m : Img) (y x : Int) : ℚ := m.px (y % m.rows) (x % m.cols)

theorem reflect_range (len delta : Int) (hd : delta = 0 ∧ 1 ≤ len ∨ delta = 1 ∧ 2 ≤ len) :
    ∀ (fuel : Nat) (p : Int), (p < 0 → 2 * p.natAbs + 1 ≤ fuel) → (0 ≤ p → 2 * p.natAbs ≤ fuel) →
      ¬(0 ≤ p ∧ p < len) →
      0 ≤ reflectLoop len delta fuel p ∧ reflectLoop len delta fuel p < len := by
  intro fuel
  induction fuel with
  | zero => intro p h1 h2 hout; exfalso; omega
  | succ fuel ih =>
    intro p h1 h2 hout
    unfold reflectLoop
    dsimp only
    by_cases hneg : p < 0
    · rw [if_pos hneg]
      by_cases hq : 0 ≤ -p - 1 + delta ∧ -p - 1 + delta < len
      · rw [if_pos hq]; exact hq
      · rw [if_neg hq]
        exact ih _ (by omega) (by omega) hq
    · rw [if_neg hneg]
      by_cases hq : 0 ≤ len - 1 - (p - len) - delta ∧ len - 1 - (p - len) - delta < len
      · rw [if_pos hq]; exact hq
      · rw [if_neg hq]
        exact ih _ (by omega) (by omega) hq

/-- C86: with every border mode but the constant one, all pixels read are inside the image, whatever the
coordinates. -/
theorem border_inside (b : Border) (hb : b ≠ .constant) (p len : Int) (hl : 1 ≤ len) :
    0 ≤ borderInterpolate b p len ∧ borderInterpolate b p len < len := by
  unfold borderInterpolate
  split
  · assumption
  · rename_i hout
    cases b with
    | constant => exact absurd rfl hb
    | replicate =>
      dsimp only
      split <;> omega
    | reflect =>
      dsimp only
      split
      · omega
      · exact reflect_range len 0 (by omega) _ p (by omega) (by omega) hout
    | reflect101 =>
      dsimp only
      split
      · omega
      · exact reflect_range len 1 (by omega) _ p (by omega) (by omega) hout
    | wrap =>
      dsimp only
      by_cases hneg : p < 0
      · rw [if_pos hneg]
        have h1 : Int.tdiv (p - len + 1) len = -((len - 1 - p) / len) := by
          rw [show p - len + 1 = -(len - 1 - p) by ring, Int.neg_tdiv, Int.tdiv_eq_ediv_of_nonneg (by omega)]
        have h2 := Int.mul_ediv_add_emod (len - 1 - p) len
        have h3 := Int.emod_nonneg (len - 1 - p) (show len ≠ 0 by omega)
        have h4 := Int.emod_lt_of_pos (len - 1 - p) (show 0 < len by omega)
        rw [h1]
        have h5 : p - -((len - 1 - p) / len) * len = len - 1 - (len - 1 - p) % len := by
          have : ((len - 1 - p) / len) * len = len * ((len - 1 - p) / len) := Int.mul_comm _ _
          linarith
        rw [h5, if_neg (by omega)]
        omega
      · rw [if_neg hneg, if_pos (by omega), Int.tmod_eq_emod_of_nonneg (by omega)]
        exact ⟨Int.emod_nonneg _ (by omega), Int.emod_lt_of_pos _ (by omega)⟩

theorem replicate_clamp (p len : Int) (hl : 1 ≤ len) :
    borderInterpolate .replicate p len = max 0 (min p (len - 1)) := by
  unfold borderInterpolate
  split
  · omega
  · dsimp only
    split <;> omega

theorem wrap_mod (p len : Int) (hl : 1 ≤ len) : borderInterpolate .wrap p len = p % len := by
  unfold borderInterpolate
  split
  · rename_i h; exact (Int.emod_eq_of_lt h.1 h.2).symm
  · rename_i hout
    dsimp only
    by_cases hneg : p < 0
    · rw [if_pos hneg]
      have h1 : Int.tdiv (p - len + 1) len = -((len - 1 - p) / len) := by
        rw [show p - len + 1 = -(len - 1 - p) by ring, Int.neg_tdiv, Int.tdiv_eq_ediv_of_nonneg (by omega)]
      have h2 := Int.mul_ediv_add_emod (len - 1 - p) len
      have h3 := Int.emod_nonneg (len - 1 - p) (show len ≠ 0 by omega)
      have h4 := Int.emod_lt_of_pos (len - 1 - p) (show 0 < len by omega)
      rw [h1]
      have h5 : p - -((len - 1 - p) / len) * len = len - 1 - (len - 1 - p) % len := by
        have : ((len - 1 - p) / len) * len = len * ((len - 1 - p) / len) := Int.mul_comm _ _
        linarith
      have h6 : len - 1 - (len - 1 - p) % len = p + (len - 1 - p) / len * len := by
        have : ((len - 1 - p) / len) * len = len * ((len - 1 - p) / len) := Int.mul_comm _ _
        linarith
      rw [h5, if_neg (by omega)]
      have h7 : p % len = (p + (len - 1 - p) / len * len) % len := by
        rw [Int.add_mul_emod_self_right]
      rw [h7, ← h6, eq_comm]
      exact Int.emod_eq_of_lt (by omega) (by omega)
    · rw [if_neg hneg, if_pos (by omega), Int.tmod_eq_emod_of_nonneg (by omega)]

/-- C86: for nonnegative coordinates, the sample is the bilinear interpolation of the image extended by the
border mode. -/
theorem sample_bilinear_partial (m : Img) (x y : ℚ) (b : Border) (hb : b ≠ .constant) (hr : 1 ≤ m.rows) (hc : 1 ≤ m.cols)
    (hx : 0 ≤ x) (hy : 0 ≤ y) :
    sample m x y b = some (bilinear (fun r c => m.px (borderInterpolate b r m.rows) (borderInterpolate b c m.cols)) y x) := by
  have tx : trunc x = ⌊x⌋ := by unfold trunc; rw [if_pos hx]
  have ty : trunc y = ⌊y⌋ := by unfold trunc; rw [if_pos hy]
  have hat : ∀ r c : Int, m.at (borderInterpolate b r m.rows) (borderInterpolate b c m.cols) =
      some (m.px (borderInterpolate b r m.rows) (borderInterpolate b c m.cols)) := by
    intro r c
    have h1 := border_inside b hb r m.rows (by omega)
    have h2 := border_inside b hb c m.cols (by omega)
    unfold Img.at
    rw [if_pos ⟨h1.1, h1.2, h2.1, h2.2⟩]
  unfold sample
  dsimp only
  rw [hat, hat, hat, hat, tx, ty]
  dsimp only
  unfold bilinear
  rw [show x - (⌊x⌋ : ℚ) = Int.fract x from rfl, show y - (⌊y⌋ : ℚ) = Int.fract y from rfl]
  congr 1
  ring

/-- C86: with replicated borders, the extension is the nearest pixel of the image; with wrapped borders it is
periodic. -/
theorem sample_modes_partial (m : Img) (x y : ℚ) (hr : 1 ≤ m.rows) (hc : 1 ≤ m.cols) (hx : 0 ≤ x) (hy : 0 ≤ y) :
    sample m x y .replicate = some (bilinear (clampExt m) y x) ∧
    sample m x y .wrap = some (bilinear (wrapExt m) y x) := by
  rw [sample_bilinear_partial m x y .replicate (by decide) hr hc hx hy,
    sample_bilinear_partial m x y .wrap (by decide) hr hc hx hy]
  constructor
  · congr 2
    funext r c
    rw [replicate_clamp r _ (by omega), replicate_clamp c _ (by omega)]
    rfl
  · congr 2
    funext r c
    rw [wrap_mod r _ (by omega), wrap_mod c _ (by omega)]
    rfl

/-- C86: at whole coordinates inside the image the sample is the pixel itself. -/
theorem sample_whole (m : Img) (x y : Int) (b : Border) (hb : b ≠ .constant) (hx : 0 ≤ x ∧ x < m.cols) (hy : 0 ≤ y ∧ y < m.rows) :
    sample m x y b = some (m.px y x) := by
  rw [sample_bilinear_partial m x y b hb (by omega) (by omega) (by exact_mod_cast hx.1) (by exact_mod_cast hy.1)]
  unfold bilinear
  simp only [Int.fract_intCast, Int.floor_intCast]
  have h1 : borderInterpolate b x m.cols = x := by unfold borderInterpolate; rw [if_pos hx]
  have h2 : borderInterpolate b y m.rows = y := by unfold borderInterpolate; rw [if_pos hy]
  rw [h1, h2]
  congr 1
  ring

theorem mix_bounds (w p q l u : ℚ) (h0 : 0 ≤ w) (h1 : w ≤ 1) (a : l ≤ p) (c : p ≤ u) (d : l ≤ q) (e : q ≤ u) :
    l ≤ (1 - w) * p + w * q ∧ (1 - w) * p + w * q ≤ u := by
  have m1 := mul_le_mul_of_nonneg_left a (show 0 ≤ 1 - w by linarith)
  have m2 := mul_le_mul_of_nonneg_left c (show 0 ≤ 1 - w by linarith)
  have m3 := mul_le_mul_of_nonneg_left d h0
  have m4 := mul_le_mul_of_nonneg_left e h0
  have e1 : (1 - w) * l + w * l = l := by ring
  have e2 : (1 - w) * u + w * u = u := by ring
  constructor <;> linarith

theorem bilinear_bounds (E : Int → Int → ℚ) (v u lo hi : ℚ) (hE : ∀ r c, lo ≤ E r c ∧ E r c ≤ hi) :
    lo ≤ bilinear E v u ∧ bilinear E v u ≤ hi := by
  have fx0 := Int.fract_nonneg u
  have fx1 := (Int.fract_lt_one u).le
  have fy0 := Int.fract_nonneg v
  have fy1 := (Int.fract_lt_one v).le
  have r0 := mix_bounds (Int.fract u) _ _ lo hi fx0 fx1 (hE ⌊v⌋ ⌊u⌋).1 (hE ⌊v⌋ ⌊u⌋).2 (hE ⌊v⌋ (⌊u⌋ + 1)).1 (hE ⌊v⌋ (⌊u⌋ + 1)).2
  have r1 := mix_bounds (Int.fract u) _ _ lo hi fx0 fx1 (hE (⌊v⌋ + 1) ⌊u⌋).1 (hE (⌊v⌋ + 1) ⌊u⌋).2
    (hE (⌊v⌋ + 1) (⌊u⌋ + 1)).1 (hE (⌊v⌋ + 1) (⌊u⌋ + 1)).2
  exact mix_bounds (Int.fract v) _ _ lo hi fy0 fy1 r0.1 r0.2 r1.1 r1.2

theorem round_bounds (v : ℚ) (lo hi : Int) (h1 : (lo : ℚ) ≤ v) (h2 : v ≤ hi) :
    |(round v : ℚ) - v| ≤ 1 / 2 ∧ lo ≤ round v ∧ round v ≤ hi := by
  unfold round
  split
  · have a1 := Int.floor_le (v + 1 / 2)
    have a2 := Int.lt_floor_add_one (v + 1 / 2)
    refine ⟨by rw [abs_le]; constructor <;> linarith, ?_, ?_⟩
    · rw [Int.le_floor]; linarith
    · have : (⌊v + 1 / 2⌋ : ℚ) < hi + 1 := by linarith
      have : ⌊v + 1 / 2⌋ < hi + 1 := by exact_mod_cast this
      omega
  · have a1 := Int.le_ceil (v - 1 / 2)
    have a2 := Int.ceil_lt_add_one (v - 1 / 2)
    refine ⟨by rw [abs_le]; constructor <;> linarith, ?_, ?_⟩
    · have : (lo : ℚ) - 1 < (⌈v - 1 / 2⌉ : ℚ) := by linarith
      have : lo - 1 < ⌈v - 1 / 2⌉ := by exact_mod_cast this
      omega
    · rw [Int.ceil_le]; linarith

/-- C86: for nonnegative coordinates, the sample lies within any bounds on the pixels, and so does its
rounding if the bounds are integers. -/
theorem sample_bounds_partial (m : Img) (x y : ℚ) (b : Border) (hb : b ≠ .constant) (hr : 1 ≤ m.rows) (hc : 1 ≤ m.cols)
    (hx : 0 ≤ x) (hy : 0 ≤ y) (lo hi : Int)
    (hpx : ∀ r c : Int, 0 ≤ r → r < m.rows → 0 ≤ c → c < m.cols → lo ≤ m.px r c ∧ m.px r c ≤ hi) :
    ∃ v, sample m x y b = some v ∧ (lo : ℚ) ≤ v ∧ v ≤ hi ∧
      sampleInt m x y b = some (round v) ∧ |(round v : ℚ) - v| ≤ 1 / 2 ∧ lo ≤ round v ∧ round v ≤ hi := by
  have hs := sample_bilinear_partial m x y b hb hr hc hx hy
  have r2 := bilinear_bounds (fun r c => m.px (borderInterpolate b r m.rows) (borderInterpolate b c m.cols)) y x lo hi (by
    intro r c
    have h1 := border_inside b hb r m.rows (by omega)
    have h2 := border_inside b hb c m.cols (by omega)
    exact hpx _ _ h1.1 h1.2 h2.1 h2.2)
  generalize bilinear _ y x = v at *
  exact ⟨v, hs, r2.1, r2.2, by unfold sampleInt; rw [hs]; rfl, round_bounds v lo hi r2.1 r2.2⟩

/-- non-vacuity: between two pixels, and beyond the last one -/
example : (sample ⟨1, 2, fun _ c => 10 * c⟩ (1 / 4) 0 .replicate) = some (5 / 2) ∧
    (sample ⟨1, 2, fun _ c => 10 * c⟩ (7 / 4) 0 .replicate) = some 10 := by decide +kernel

/-- C86 refuted: left of the image the truncation towards zero extrapolates, so the sample leaves the range
of the pixels; and the constant border mode reads outside of the image. -/
theorem sample_refuted :
    sample ⟨1, 2, fun _ c => 10 * c⟩ (-1 / 2) 0 .replicate = some (-5) ∧
    bilinear (clampExt ⟨1, 2, fun _ c => 10 * c⟩) 0 (-1 / 2) = 0 ∧
    sample ⟨1, 2, fun _ c => 10 * c⟩ (3 / 2) 0 .constant = none := by decide +kernel

/-- C86: several channels are sampled independently. -/
theorem sampleVec_channels (ms : List Img) (x y : ℚ) (b : Border) (v : List ℚ)
    (h : sampleVec ms x y b = some v) :
    v.length = ms.length ∧ ∀ (k : Nat) (m : Img), ms[k]? = some m → ∃ r : ℚ, v[k]? = some r ∧ sample m x y b = some r := by
  unfold sampleVec at h
  induction ms generalizing v with
  | nil =>
    simp at h
    subst h
    exact ⟨rfl, by simp⟩
  | cons m ms ih =>
    rw [List.mapM_cons] at h
    cases hm : sample m x y b with
    | none => rw [hm] at h; cases h
    | some r =>
      rw [hm] at h
      cases hv : ms.mapM (fun m => sample m x y b) with
      | none => rw [hv] at h; cases h
      | some w =>
        rw [hv] at h
        injection h with h
        subst h
        obtain ⟨h1, h2⟩ := ih w hv
        refine ⟨by simp [h1], ?_⟩
        intro k q hq
        cases k with
        | zero =>
          rw [List.getElem?_cons_zero] at hq
          injection hq with hq
          subst hq
          exact ⟨r, rfl, hm⟩
        | succ k =>
          rw [List.getElem?_cons_succ] at hq
          obtain ⟨r', h3, h4⟩ := h2 k q hq
          exact ⟨r', by rw [List.getElem?_cons_succ]; exact h3, h4⟩

end Litiv.SubPix
