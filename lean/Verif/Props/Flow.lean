import Verif.Model.Flow
import Verif.Props.SubPix
import Verif.Lemmas.SlicShow

/-!
# Differences and remapping along an optical flow: properties
-/

namespace Litiv.Flow
open Litiv.SubPix (Img sample bilinear clampExt)

/-- A sampled value always exists. -/
theorem sample_replicate {m : Img} (hr : 1 ≤ m.rows) (hc : 1 ≤ m.cols) (x y : ℚ) : ∃ v, sample m x y .replicate = some v := by
  have hat : ∀ r c : Int, m.at (SubPix.borderInterpolate .replicate r m.rows) (SubPix.borderInterpolate .replicate c m.cols) =
      some (m.px (SubPix.borderInterpolate .replicate r m.rows) (SubPix.borderInterpolate .replicate c m.cols)) := by
    intro r c
    have h1 := SubPix.border_inside .replicate (by decide) r m.rows (by omega)
    have h2 := SubPix.border_inside .replicate (by decide) c m.cols (by omega)
    unfold Img.at
    rw [if_pos ⟨h1.1, h1.2, h2.1, h2.2⟩]
  unfold sample
  dsimp only
  rw [hat, hat, hat, hat]
  exact ⟨_, rfl⟩

/-- C212. Without smoothing, every pixel gets a value, for every flow: the absolute difference with the second image where the
flow leads, whenever that is at coordinates which are not negative; the second image is interpolated and its border is
repeated. What is missing: negative coordinates, see `diff_refuted`. -/
theorem diff_partial (blur : Int → (Nat → Nat → ℚ) → Nat → Nat → ℚ) (i1 i2 : Img) (f : Field) {k : Int} (hk : k = 0 ∨ k = 1)
    (hr : 1 ≤ i1.rows) (hc : 1 ≤ i1.cols) (hr2 : i2.rows = i1.rows) (hc2 : i2.cols = i1.cols) :
    ∃ d, temporalAbsDiff blur i1 i2 f k = some d ∧ ∀ y x, y < i1.rows → x < i1.cols → 0 ≤ d y x ∧
      (0 ≤ x + (f y x).1 → 0 ≤ y + (f y x).2 →
        d y x = |i1.px y x - bilinear (clampExt i2) (y + (f y x).2) (x + (f y x).1)|) := by
  have hsome : ∀ y x, (diffAt i1 i2 f y x).isSome := by
    intro y x
    obtain ⟨v, hv⟩ := sample_replicate (m := i2) (by omega) (by omega) (x + (f y x).1) (y + (f y x).2)
    unfold diffAt
    rw [hv]
    rfl
  unfold temporalAbsDiff
  rw [if_pos ⟨by omega, by omega, by omega, by omega⟩, if_pos (by simp [hsome])]
  dsimp only
  rw [if_neg (by omega)]
  refine ⟨_, rfl, ?_⟩
  intro y x hy hx
  have hd : ∀ v, sample i2 (x + (f y x).1) (y + (f y x).2) .replicate = some v →
      (diffAt i1 i2 f y x).getD 0 = |i1.px y x - v| := by
    intro v hv
    unfold diffAt
    rw [hv]
    rfl
  constructor
  · obtain ⟨v, hv⟩ := sample_replicate (m := i2) (by omega) (by omega) (x + (f y x).1) (y + (f y x).2)
    rw [hd v hv]
    exact abs_nonneg _
  · intro h1 h2
    exact hd _ (SubPix.sample_modes_partial i2 _ _ (by omega) (by omega) h1 h2).1

/-- Two 1x3 images and a flow of half a pixel: the middle pixel is compared with the mean of two. -/
example : ∃ d, temporalAbsDiff (fun _ o => o) ⟨1, 3, fun _ _ => 10⟩ ⟨1, 3, fun _ c => 4 * c⟩ (fun _ _ => (1 / 2, 0)) 1 = some d ∧
    d 0 1 = 4 := by
  obtain ⟨d, h1, h2⟩ := diff_partial (fun _ o => o) ⟨1, 3, fun _ _ => 10⟩ ⟨1, 3, fun _ c => 4 * c⟩ (fun _ _ => (1 / 2, 0))
    (k := 1) (.inr rfl) (by decide) (by decide) rfl rfl
  refine ⟨d, h1, ?_⟩
  rw [(h2 0 1 (by decide) (by decide)).2 (by norm_num) (by norm_num)]
  decide +kernel

/-- C212: where a flow of whole pixels leads to another pixel of the image, the value is the absolute difference of both. -/
theorem diff_whole (i1 i2 : Img) (f : Field) {y x : Nat} (dx dy : Int) (hf : f y x = ((dx : ℚ), (dy : ℚ)))
    (hx : 0 ≤ (x : Int) + dx ∧ (x : Int) + dx < i2.cols) (hy : 0 ≤ (y : Int) + dy ∧ (y : Int) + dy < i2.rows) :
    diffAt i1 i2 f y x = some |i1.px y x - i2.px (y + dy) (x + dx)| := by
  have h := SubPix.sample_whole i2 (x + dx) (y + dy) .replicate (by decide) hx hy
  unfold diffAt
  rw [hf]
  dsimp only
  push_cast at h
  rw [h]
  rfl

example : diffAt ⟨1, 3, fun _ _ => 10⟩ ⟨1, 3, fun _ c => 4 * c⟩ (fun _ _ => (-1, 0)) 0 2 = some |(10 : ℚ) - 4 * ((((2 : Nat) : Int) + -1 : Int) : ℚ)| :=
  diff_whole _ _ _ (-1) 0 (by norm_num) (by decide) (by decide)

/-- C212: for images with values from 0 to 255, so are the differences, where the flow leads to coordinates which are not
negative. -/
theorem diff_range_partial (i1 i2 : Img) (f : Field) {y x : Nat} (hr : 1 ≤ i2.rows) (hc : 1 ≤ i2.cols)
    (h1 : 0 ≤ i1.px y x ∧ i1.px y x ≤ 255)
    (h2 : ∀ r c : Int, 0 ≤ r → r < i2.rows → 0 ≤ c → c < i2.cols → (0 : ℚ) ≤ i2.px r c ∧ i2.px r c ≤ 255)
    (hx : 0 ≤ x + (f y x).1) (hy : 0 ≤ y + (f y x).2) : ∃ d, diffAt i1 i2 f y x = some d ∧ 0 ≤ d ∧ d ≤ 255 := by
  obtain ⟨v, hv, a, b, -⟩ := SubPix.sample_bounds_partial i2 (x + (f y x).1) (y + (f y x).2) .replicate (by decide) hr hc hx hy
    0 255 (by exact_mod_cast h2)
  refine ⟨|i1.px y x - v|, ?_, abs_nonneg _, ?_⟩
  · unfold diffAt
    rw [hv]
    rfl
  · rw [abs_le]
    push_cast at a b
    constructor <;> linarith [h1.1, h1.2]

example : ∃ d, diffAt ⟨1, 3, fun _ _ => 10⟩ ⟨1, 3, fun _ _ => 250⟩ (fun _ _ => (7, 5)) 0 1 = some d ∧ 0 ≤ d ∧ d ≤ 255 :=
  diff_range_partial _ _ _ (by decide) (by decide) (by norm_num) (fun _ _ _ _ _ _ => by norm_num) (by norm_num) (by norm_num)

/-- C212 does not hold when the flow leads out of the image on the left or at the top: the second image is extrapolated instead
of repeated, and the difference can exceed 255. -/
theorem diff_refuted : diffAt ⟨1, 2, fun _ _ => 0⟩ ⟨1, 2, fun _ c => 255 - 255 * c⟩ (fun _ _ => (-1 / 2, 0)) 0 0 = some (765 / 2) ∧
    bilinear (clampExt ⟨1, 2, fun _ c => 255 - 255 * c⟩) 0 (-1 / 2) = 255 := by
  decide +kernel

/-- C212: each channel is compared on its own. -/
theorem diff_channels (i1 i2 : List Img) (f : Field) (y x : Nat) (d : List ℚ) (hl : i1.length = i2.length)
    (h : diffVecAt i1 i2 f y x = some d) : d.length = i1.length ∧
    ∀ (k : Nat) (a b : Img), i1[k]? = some a → i2[k]? = some b → ∃ v, d[k]? = some v ∧ diffAt a b f y x = some v := by
  unfold diffVecAt at h
  rw [Option.map_eq_some_iff] at h
  obtain ⟨v, hv, rfl⟩ := h
  obtain ⟨h1, h2⟩ := SubPix.sampleVec_channels _ _ _ _ _ hv
  constructor
  · rw [List.length_zipWith, h1, hl, Nat.min_self]
  · intro k a b ha hb
    obtain ⟨r, hr, hs⟩ := h2 k b hb
    refine ⟨|a.px y x - r|, ?_, ?_⟩
    · rw [List.getElem?_zipWith, ha, hr]
    · unfold diffAt
      rw [hs]
      rfl

/-- C212: even kernels and empty images are refused. -/
theorem diff_refused (blur : Int → (Nat → Nat → ℚ) → Nat → Nat → ℚ) (i1 i2 : Img) (f : Field) (k : Int)
    (h : i1.rows = 0 ∨ i1.cols = 0 ∨ k < 0 ∨ (k ≠ 0 ∧ k % 2 = 0)) : temporalAbsDiff blur i1 i2 f k = none := by
  unfold temporalAbsDiff
  rw [if_neg]
  omega

/-- C212: larger kernels smooth the differences. -/
theorem diff_smooth (blur : Int → (Nat → Nat → ℚ) → Nat → Nat → ℚ) (i1 i2 : Img) (f : Field) {k : Int} (hk : 1 < k)
    (ho : k % 2 = 1) (d : Nat → Nat → ℚ) (h : temporalAbsDiff blur i1 i2 f 1 = some d) :
    temporalAbsDiff blur i1 i2 f k = some (blur k d) := by
  unfold temporalAbsDiff at h ⊢
  split at h
  · rename_i hc
    rw [if_pos ⟨hc.1, hc.2.1, by omega, .inr ho⟩]
    split at h
    · rename_i ha
      rw [if_pos ha]
      dsimp only at h ⊢
      rw [if_neg (by omega)] at h
      rw [if_pos hk]
      cases h
      rfl
    · cases h
  · cases h

/-! ### Remapping -/

theorem round_int (n : Int) : SlicShow.cvRound (n : ℚ) = n := by
  unfold SlicShow.cvRound
  simp

/-- C213. Each pixel of the output takes the value of the nearest pixel of the input at its position minus the offset, if it
is in the image, and otherwise the constant or the nearest border pixel. -/
theorem remap_nearest (m : Img) (f : Field) (e : Edge) (y x : Nat) :
    (remapOffset m f e).rows = m.rows ∧ (remapOffset m f e).cols = m.cols ∧
    ∃ r c : Int, |(c : ℚ) - (x - (f y x).1)| ≤ 1 / 2 ∧ |(r : ℚ) - (y - (f y x).2)| ≤ 1 / 2 ∧
      (0 ≤ r ∧ r < m.rows ∧ 0 ≤ c ∧ c < m.cols → (remapOffset m f e).px y x = m.px r c) ∧
      (¬ (0 ≤ r ∧ r < m.rows ∧ 0 ≤ c ∧ c < m.cols) →
        (∀ v, e = .constant v → (remapOffset m f e).px y x = v) ∧
        (e = .replicate → (remapOffset m f e).px y x = clampExt m r c)) := by
  refine ⟨rfl, rfl, SlicShow.cvRound (y - (f y x).2), SlicShow.cvRound (x - (f y x).1), (SlicShow.cvRound_spec _).1,
    (SlicShow.cvRound_spec _).1, ?_, ?_⟩
  · intro h
    unfold remapOffset remapAt
    simp only [Int.toNat_natCast, Int.cast_natCast]
    rw [if_pos h]
  · intro h
    unfold remapOffset remapAt
    simp only [Int.toNat_natCast, Int.cast_natCast]
    rw [if_neg h]
    constructor
    · rintro v rfl
      rfl
    · rintro rfl
      rfl

/-- C213: an offset of whole pixels, the same everywhere, moves the image by that offset; pixels that come from outside have
the constant. -/
theorem remap_moves (m : Img) (f : Field) (dx dy : Int) (hf : ∀ y x, f y x = ((dx : ℚ), (dy : ℚ))) (v : ℚ) (y x : Nat) :
    (remapOffset m f (.constant v)).px y x =
      if 0 ≤ (y : Int) - dy ∧ (y : Int) - dy < m.rows ∧ 0 ≤ (x : Int) - dx ∧ (x : Int) - dx < m.cols
      then m.px (y - dy) (x - dx) else v := by
  unfold remapOffset remapAt
  simp only [Int.toNat_natCast, hf]
  have e1 : SlicShow.cvRound (((x : Int) : ℚ) - (dx : ℚ)) = (x : Int) - dx := by
    have := round_int ((x : Int) - dx)
    push_cast at this ⊢
    exact this
  have e2 : SlicShow.cvRound (((y : Int) : ℚ) - (dy : ℚ)) = (y : Int) - dy := by
    have := round_int ((y : Int) - dy)
    push_cast at this ⊢
    exact this
  rw [e1, e2]

/-- C213: following the same flow, an image and its remapped version differ nowhere, where the flow stays in the image. -/
theorem remap_diff (m : Img) (f : Field) (dx dy : Int) (hf : ∀ y x, f y x = ((dx : ℚ), (dy : ℚ))) (v : ℚ) {y x : Nat}
    (hy0 : y < m.rows) (hx0 : x < m.cols)
    (hx : 0 ≤ (x : Int) + dx ∧ (x : Int) + dx < m.cols) (hy : 0 ≤ (y : Int) + dy ∧ (y : Int) + dy < m.rows) :
    diffAt m (remapOffset m f (.constant v)) f y x = some 0 := by
  rw [diff_whole m (remapOffset m f (.constant v)) f dx dy (hf y x) hx hy]
  have h := remap_moves m f dx dy hf v ((y : Int) + dy).toNat ((x : Int) + dx).toNat
  rw [Int.toNat_of_nonneg hy.1, Int.toNat_of_nonneg hx.1] at h
  rw [h, if_pos ⟨by omega, by omega, by omega, by omega⟩]
  have e1 : (y : Int) + dy - dy = y := by omega
  have e2 : (x : Int) + dx - dx = x := by omega
  rw [e1, e2]
  simp

example : diffAt ⟨2, 3, fun r c => 10 * r + c⟩ (remapOffset ⟨2, 3, fun r c => 10 * r + c⟩ (fun _ _ => (1, -1)) (.constant 0))
    (fun _ _ => (1, -1)) 1 1 = some 0 :=
  remap_diff _ _ 1 (-1) (fun _ _ => by norm_num) 0 (by decide) (by decide) (by decide) (by decide)

end Litiv.Flow
