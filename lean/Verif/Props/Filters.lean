import Verif.Lemmas.Filters

/-!
# Integral images and median filters: properties C42, C43, C46, C75
-/

namespace Litiv.Filters
open Spec

/-- A 3×20 test image, wide enough for one block of sixteen columns. -/
def ramp : Img := fun y x => if y < 3 ∧ x < 20 then BitVec.ofNat 8 (20 * y + x) else 0

/-- A 3×3 mask. -/
def cross : Img := fun y x => if y = 1 ∨ x = 1 then 255 else 0

/-! ## C46: integral images -/

/-- C46 (no mask): whichever implementation is used, if the pixel values of a non-empty image sum to less than `2^31`, the integral
image in 32-bit integers is computed without overflow and the four lookups for any box inside the image give the sum over that box. -/
theorem integral_box (be : Backend) (rows cols : Nat) (hr : 0 < rows) (hc : 0 < cols) (f : Img) (hfit : Fits rows cols f) :
    ∃ I, integral be .s32 rows cols f = some I ∧ ∀ y0 y1 x0 x1, y0 ≤ y1 → y1 ≤ rows → x0 ≤ x1 → x1 ≤ cols →
      boxSum I y0 y1 x0 x1 = sumBox f y0 y1 x0 x1 := by
  rw [integral, if_pos ⟨hr, hc, rfl⟩]
  exact boxSum_spec be rows cols f hfit

example : Fits 3 20 ramp := by unfold Fits; decide +kernel
example : ((integral .neon .s32 3 20 ramp).map fun I => boxSum I 1 3 2 19) = some 1360 := by decide +kernel
example : sumBox ramp 1 3 2 19 = 1360 := by decide +kernel

/-- The first row and column of the integral image are zero and its last entry is the sum of the whole image. -/
theorem integral_corners (be : Backend) (rows cols : Nat) (hr : 0 < rows) (hc : 0 < cols) (f : Img) (hfit : Fits rows cols f) :
    ∃ I, integral be .s32 rows cols f = some I ∧ (∀ x ≤ cols, I 0 x = 0) ∧ (∀ y ≤ rows, I y 0 = 0) ∧
      (I rows cols).toInt = sumBox f 0 rows 0 cols := by
  obtain ⟨I, hI, hs⟩ := integralRows_spec be rows cols f hfit
  refine ⟨I, by rw [integral, if_pos ⟨hr, hc, rfl⟩, hI], fun x hx => ?_, fun y hy => ?_, ?_⟩
  · rw [hs 0 x (by omega) hx]; simp [pre2]
  · rw [hs y 0 hy (by omega)]; simp [pre2]
  · rw [hs rows cols (le_refl _) (le_refl _), sumBox_zero, toInt_ofNat_small]
    rw [Fits, sumBox_zero] at hfit
    exact hfit

/-- The two implementations agree on every entry. -/
theorem integral_backends_agree (rows cols : Nat) (hr : 0 < rows) (hc : 0 < cols) (f : Img) (hfit : Fits rows cols f) :
    ∃ I J, integral .neon .s32 rows cols f = some I ∧ integral .opencv .s32 rows cols f = some J ∧
      ∀ y x, y ≤ rows → x ≤ cols → I y x = J y x := by
  obtain ⟨I, hI, hs⟩ := integralRows_spec .neon rows cols f hfit
  obtain ⟨J, hJ, ht⟩ := integralRows_spec .opencv rows cols f hfit
  refine ⟨I, J, by rw [integral, if_pos ⟨hr, hc, rfl⟩, hI], by rw [integral, if_pos ⟨hr, hc, rfl⟩, hJ], fun y x hy hx => ?_⟩
  rw [hs y x hy hx, ht y x hy hx]

/-- C46 (mask): with a mask, the lookups give the sum of the box's pixels that the mask selects. -/
theorem integral_masked_box (be : Backend) (rows cols : Nat) (hr : 0 < rows) (hc : 0 < cols) (f : Img) (mask : Option Img)
    (hfit : sumBoxMasked f mask 0 rows 0 cols < 2 ^ 31) :
    ∃ I, integralMasked be .s32 rows cols f mask = some I ∧ ∀ y0 y1 x0 x1, y0 ≤ y1 → y1 ≤ rows → x0 ≤ x1 → x1 ≤ cols →
      boxSum I y0 y1 x0 x1 = sumBoxMasked f mask y0 y1 x0 x1 := by
  cases mask with
  | none =>
    simp only [sumBoxMasked_none] at hfit ⊢
    exact integral_box be rows cols hr hc f hfit
  | some m =>
    simp only [← sumBox_zeroOutside] at hfit ⊢
    exact integral_box be rows cols hr hc (zeroOutside m f) hfit

example : ((integralMasked .neon .s32 3 20 ramp (some cross)).map fun I => boxSum I 0 3 0 20) = some 632 := by decide +kernel

/-- C46 (binary): with conversion to binary, the lookups count the set pixels of the box that the mask selects, for any image with
fewer than `2^31` pixels. -/
theorem binaryIntegral_box (be : Backend) (rows cols : Nat) (hr : 0 < rows) (hc : 0 < cols) (f : Img) (mask : Option Img)
    (hsz : rows * cols < 2 ^ 31) :
    ∃ I, binaryIntegral be .s32 rows cols f mask true = some I ∧ ∀ y0 y1 x0 x1, y0 ≤ y1 → y1 ≤ rows → x0 ≤ x1 → x1 ≤ cols →
      boxSum I y0 y1 x0 x1 = countBox f mask y0 y1 x0 x1 := by
  have hfit : sumBoxMasked (ind f) mask 0 rows 0 cols < 2 ^ 31 := by
    rw [ind_masked]
    have := countBox_le f mask 0 rows 0 cols
    rw [Nat.sub_zero, Nat.sub_zero] at this
    omega
  simp only [← ind_masked]
  have := integral_masked_box be rows cols hr hc (ind f) mask hfit
  cases mask with
  | none => exact this
  | some m => exact this

example : countBox ramp (some cross) 0 3 0 20 = 22 := by decide +kernel

/-- Without conversion, the sums are those of the raw values, as for `lv::integral`. -/
theorem binaryIntegral_raw (be : Backend) (d : Depth) (rows cols : Nat) (f : Img) (mask : Option Img) :
    binaryIntegral be d rows cols f mask false = integralMasked be d rows cols f mask := by
  cases mask <;> rfl

/-- C46, what fails: with the default output depth (-1) every call fails its own assertion. -/
theorem integral_default_depth_refuted (be : Backend) (rows cols : Nat) (f : Img) (mask : Option Img) (force : Bool) :
    integral be .default rows cols f = none ∧ integralMasked be .default rows cols f mask = none ∧
    binaryIntegral be .default rows cols f mask force = none := by
  have h : ∀ g, integral be .default rows cols g = none := by
    intro g
    rw [integral, if_neg (by rintro ⟨_, _, h⟩; cases h)]
  refine ⟨h f, ?_, ?_⟩
  · cases mask <;> exact h _
  · cases mask <;> cases force <;> exact h _

/-! ## C42: histogram median -/

/-- C42: as soon as one pixel is selected, the result is the smallest value that more than half of the selected pixels do not exceed. -/
theorem medianValue_partial (bins : Nat) (px : List Nat) (mask : Option (List (BitVec 8))) (hpx : ∀ a ∈ px, a < bins)
    (hsel : selected px mask ≠ []) :
    ∃ v, calcMedianValue bins px mask = some v ∧ v < bins ∧
      (selected px mask).length < 2 * (selected px mask).countP (fun (a : Nat) => decide (a ≤ v)) ∧
      ∀ w, w < v → 2 * (selected px mask).countP (fun (a : Nat) => decide (a ≤ w)) ≤ (selected px mask).length := by
  obtain ⟨h1, h2⟩ := histCounts_spec px mask
  have hb : ∀ a ∈ selected px mask, a < bins := by
    intro a ha
    cases mask with
    | none => exact hpx a ha
    | some m =>
      simp only [selected, List.mem_map, List.mem_filter] at ha
      obtain ⟨p, ⟨hp, _⟩, rfl⟩ := ha
      exact hpx _ (List.of_mem_zip hp).1
  have hbins : 0 < bins := by
    obtain ⟨a, ha⟩ := List.exists_mem_of_ne_nil _ hsel
    have := hb a ha
    omega
  rw [calcMedianValue, h1]
  refine medianLoop_spec bins (selected px mask) _ h2 hb hsel bins 0 _ ?_ (by omega) hbins (fun w hw => by omega)
  rw [h2]
  refine List.countP_congr fun a _ => ?_
  simp

example : selected [3, 9, 200, 7, 7] (some [1, 1, 1, 0, 255]) = [3, 9, 200, 7] ∧
    calcMedianValue 256 [3, 9, 200, 7, 7] (some [1, 1, 1, 0, 255]) = some 9 := by decide +kernel

/-- C42, what fails: when the mask selects no pixel, the search runs past the end of the histogram (undefined behaviour), for every
image. -/
theorem medianValue_empty_refuted (bins : Nat) (px : List Nat) (mask : Option (List (BitVec 8))) (hsel : selected px mask = []) :
    calcMedianValue bins px mask = none := by
  obtain ⟨h1, h2⟩ := histCounts_spec px mask
  rw [calcMedianValue, h1, hsel]
  have h0 : ∀ b, (histCounts px mask).1 b = 0 := fun b => by rw [h2, hsel]; rfl
  rw [h0]
  exact medianLoop_none bins _ h0 bins 0

example : selected [3, 9, 200] (some [0, 0, 0]) = [] := by decide

/-! ## C43: masked median filters -/

/-- C43 (grey images): for an odd kernel size above 1, the filter never overruns its buffer; it writes the lower median of the selected
pixels of the image in the window, or the default value when none is selected. -/
theorem medianBlur_spec (rows cols k : Nat) (hk : 1 < k) (hodd : k % 2 = 1) (f mask : Img) (dflt : BitVec 8) (y x : Nat) :
    let l := neighbours rows cols (k / 2) f (fun p => decide (mask p.1 p.2 ≠ 0)) y x
    ∃ v, medianBlur rows cols k f mask dflt y x = some v ∧ (l = [] → v = dflt) ∧ (l ≠ [] → IsLowerMedian l v) := by
  intro l
  have hlen := collected_length rows cols (k / 2) f mask y x
  rw [show 2 * (k / 2) + 1 = k by omega, collected_eq] at hlen
  rw [medianBlur, if_pos ⟨hk, hodd⟩]
  dsimp only
  rw [collected_eq, if_pos hlen]
  split
  · rename_i hpos
    obtain ⟨v, h1, h2⟩ := nth_lowerMedian l hpos
    exact ⟨v, h1, fun h => by rw [show neighbours _ _ _ _ _ _ _ = l from rfl, h] at hpos; exact absurd hpos (by simp), fun _ => h2⟩
  · rename_i hpos
    refine ⟨dflt, rfl, fun _ => rfl, fun h => absurd ?_ hpos⟩
    exact List.length_pos_of_ne_nil h

/-- The lower median is unique, so C43 determines every output. -/
theorem lowerMedian_determined (l : List (BitVec 8)) (v w : BitVec 8) (hv : IsLowerMedian l v) (hw : IsLowerMedian l w) : v = w :=
  lowerMedian_unique l v w hv hw

example : neighbours 3 20 1 ramp (fun p => decide (cross p.1 p.2 ≠ 0)) 0 0 = [1, 20, 21] ∧
    medianBlur 3 20 3 ramp cross 7 0 0 = some 20 := by decide +kernel
example : IsLowerMedian [1, 20, 21, 40] 20 := by unfold IsLowerMedian; decide +kernel

/-- C43 (binary, mask): on images with values 0 and 255 the binary filter with a mask writes the same values as the grey filter. -/
theorem binaryMedianBlur_masked (be : Backend) (rows cols k : Nat) (hk : 1 < k) (hodd : k % 2 = 1) (f mask : Img) (hf : Binary f)
    (force : Bool) (dflt : BitVec 8) (y x : Nat) :
    ∃ v, binaryMedianBlur be rows cols k f (some mask) force dflt y x = some v ∧ medianBlur rows cols k f mask dflt y x = some v := by
  obtain ⟨v, h1, h2, h3⟩ := medianBlur_spec rows cols k hk hodd f mask dflt y x
  refine ⟨v, ?_, h1⟩
  rw [binaryMedianBlur, if_pos ⟨hk, hodd⟩]
  dsimp only
  rw [maskedHits_eq]
  dsimp only
  split
  · rename_i hpos
    have hne : neighbours rows cols (k / 2) f (fun p => decide (mask p.1 p.2 ≠ 0)) y x ≠ [] := by
      intro h; rw [h] at hpos; exact absurd hpos (by simp)
    rw [lowerMedian_unique _ _ _ (h3 hne) (binary_median _ (by
      intro a ha
      rw [neighbours, List.mem_map] at ha
      obtain ⟨p, _, rfl⟩ := ha
      exact hf p.1 p.2) hpos)]
  · rename_i hpos
    rw [h2 (List.length_eq_zero_iff.1 (by omega))]

example : Binary cross := by
  intro y x
  unfold cross
  split
  · exact Or.inr rfl
  · exact Or.inl rfl

/-- C43 (binary, no mask, conversion): the output is 255 exactly where a strict majority of the window's pixels is set, for any
implementation of the integral image and any image with fewer than `2^31` pixels. -/
theorem binaryMedianBlur_majority (be : Backend) (rows cols k : Nat) (hk : 1 < k) (hodd : k % 2 = 1) (f : Img)
    (hsz : rows * cols < 2 ^ 31) (dflt : BitVec 8) (y x : Nat) (hy : y < rows) (hx : x < cols) :
    let l := neighbours rows cols (k / 2) f (fun _ => true) y x
    binaryMedianBlur be rows cols k f none true dflt y x =
      some (if l.length < 2 * l.countP (fun (v : BitVec 8) => decide (v ≠ 0)) then 255 else 0) := by
  intro l
  obtain ⟨I, hI, hbox⟩ := binaryIntegral_box be rows cols (by omega) (by omega) f none hsz
  obtain ⟨b1, b2, b3, b4⟩ := corners_bounds rows cols (k / 2) y x hy hx
  rw [binaryMedianBlur, if_pos ⟨hk, hodd⟩]
  dsimp only
  rw [hI, Option.map_some, hbox _ _ _ _ b1 b2 b3 b4, box_hits rows cols (k / 2) (by omega) (by omega) f, ← ind_masked, sumBoxMasked_none,
    box_count rows cols (k / 2) (by omega) (by omega)]
  congr 1
  refine if_congr ?_ rfl rfl
  rw [gt_iff_lt, Nat.cast_lt]
  simp only [l]
  omega

/-- The window of a pixel of the image is never empty, so on 0/255 images the unmasked binary filter writes the lower median too. -/
theorem binaryMedianBlur_unmasked (be : Backend) (rows cols k : Nat) (hk : 1 < k) (hodd : k % 2 = 1) (f : Img) (hf : Binary f)
    (hsz : rows * cols < 2 ^ 31) (dflt : BitVec 8) (y x : Nat) (hy : y < rows) (hx : x < cols) :
    ∃ v, binaryMedianBlur be rows cols k f none true dflt y x = some v ∧
      IsLowerMedian (neighbours rows cols (k / 2) f (fun _ => true) y x) v := by
  have h := binaryMedianBlur_majority be rows cols k hk hodd f hsz dflt y x hy hx
  refine ⟨_, h, ?_⟩
  have hpos : 0 < (neighbours rows cols (k / 2) f (fun _ => true) y x).length := by
    rw [← box_hits rows cols (k / 2) (by omega) (by omega) f]
    simp only [corners]
    apply Nat.mul_pos <;> omega
  have hm := binary_median (neighbours rows cols (k / 2) f (fun _ => true) y x) (by
      intro a ha
      rw [neighbours, List.mem_map] at ha
      obtain ⟨p, _, rfl⟩ := ha
      exact hf p.1 p.2) hpos
  rwa [if_congr (show (neighbours rows cols (k / 2) f (fun _ => true) y x).countP (fun (v : BitVec 8) => decide (v ≠ 0)) >
      (neighbours rows cols (k / 2) f (fun _ => true) y x).length / 2 ↔
      (neighbours rows cols (k / 2) f (fun _ => true) y x).length <
        2 * (neighbours rows cols (k / 2) f (fun _ => true) y x).countP (fun (v : BitVec 8) => decide (v ≠ 0)) by omega) rfl rfl] at hm

example : binaryMedianBlur .neon 3 3 3 cross none true 0 0 0 = some 255 ∧ binaryMedianBlur .neon 3 3 3 cross none true 0 1 1 = some 255 := by
  decide +kernel

/-- A 3×3 image with one set pixel. -/
def dot : Img := fun y x => if y = 1 ∧ x = 1 then 255 else 0

/-- C43, what fails: without a mask and without conversion, a 0/255 image is summed as it is, so a single set pixel turns its whole
neighbourhood on. -/
theorem binaryMedianBlur_raw_refuted : ∃ f v, Binary f ∧ binaryMedianBlur .opencv 3 3 3 f none false 0 1 1 = some v ∧
    ¬ IsLowerMedian (neighbours 3 3 1 f (fun _ => true) 1 1) v := by
  refine ⟨dot, 255, ?_, by decide +kernel, by unfold IsLowerMedian; decide +kernel⟩
  intro y x
  unfold dot
  split
  · exact Or.inr rfl
  · exact Or.inl rfl

/-! ## C75: neighbourhood consensus -/

/-- C75: the consensus filter writes 255 exactly where the number of set pixels in the window (clipped to the image) reaches the
minimum count given for that pixel. -/
theorem binaryConsensus_spec (be : Backend) (rows cols k : Nat) (hk : 1 < k) (hodd : k % 2 = 1) (f : Img) (t : Nat → Nat → Int)
    (hsz : rows * cols < 2 ^ 31) (y x : Nat) (hy : y < rows) (hx : x < cols) :
    binaryConsensus be rows cols k f (some t) true y x =
      some (if t y x ≤ ((neighbours rows cols (k / 2) f (fun _ => true) y x).countP fun (v : BitVec 8) => decide (v ≠ 0) : Nat)
        then 255 else 0) := by
  obtain ⟨I, hI, hbox⟩ := binaryIntegral_box be rows cols (by omega) (by omega) f none hsz
  obtain ⟨b1, b2, b3, b4⟩ := corners_bounds rows cols (k / 2) y x hy hx
  rw [binaryConsensus, if_pos ⟨hk, hodd⟩]
  dsimp only
  rw [hI, Option.map_some, hbox _ _ _ _ b1 b2 b3 b4, ← ind_masked, sumBoxMasked_none, box_count rows cols (k / 2) (by omega) (by omega)]

/-- C75: without a map of minimum counts, the filter is the strict-majority filter. -/
theorem binaryConsensus_default (be : Backend) (rows cols k : Nat) (hk : 1 < k) (hodd : k % 2 = 1) (f : Img)
    (hsz : rows * cols < 2 ^ 31) (y x : Nat) (hy : y < rows) (hx : x < cols) :
    let l := neighbours rows cols (k / 2) f (fun _ => true) y x
    binaryConsensus be rows cols k f none true y x =
      some (if l.length < 2 * l.countP (fun (v : BitVec 8) => decide (v ≠ 0)) then 255 else 0) := by
  intro l
  rw [binaryConsensus, if_pos ⟨hk, hodd⟩]
  exact binaryMedianBlur_majority be rows cols k hk hodd f hsz 0 y x hy hx

example : binaryConsensus .neon 3 3 3 cross (some fun _ _ => 5) true 1 1 = some 255 ∧
    binaryConsensus .neon 3 3 3 cross (some fun _ _ => 4) true 0 0 = some 0 := by decide +kernel

end Litiv.Filters
