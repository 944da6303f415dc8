import Verif.Lemmas.LBSP

/-!
# Properties C38 - C40, C70 - C72: LBSP descriptors
-/

namespace Litiv.LBSP
open Spec

/-- A 5x6 single-channel image used in the examples; pixel `(y, x)` is `30*y + 5*x`, the rows are padded by two bytes. -/
def exImg : Img := ⟨5, 6, 1, 8, (List.range 40).map fun i => BitVec.ofNat 8 (30 * (i / 8) + 5 * (i % 8))⟩

theorem exImg_wf : WF exImg := ⟨by decide, by decide, by decide⟩

/-- A continuous 7x7 single-channel image; pixel `(y, x)` is `30*y + 5*x`. -/
def exImg7 : Img := ⟨7, 7, 1, 7, (List.range 49).map fun i => BitVec.ofNat 8 (30 * (i / 7) + 5 * (i % 7))⟩

theorem exImg7_wf : WF exImg7 := ⟨by decide, by decide, by decide⟩

theorem exImg7_ok : Accepts exImg7 none := by unfold Accepts; decide

/-! ## C38: one descriptor, three implementations -/

/-- C38: whichever implementation the build selects, bit `n` of the descriptor is set exactly when neighbour value `n`
differs from the reference by more than the threshold. -/
theorem threshold_spec (impl : Impl) (vals : Fin 16 → BitVec 8) (ref thr : BitVec 8) (n : Fin 16) :
    (threshold impl vals ref thr).getLsbD n = true ↔ Differs (vals n) ref thr := by
  rw [threshold_bit]; simp

/-- C38: the implementations agree on every input. -/
theorem threshold_agree (i j : Impl) (vals : Fin 16 → BitVec 8) (ref thr : BitVec 8) :
    threshold i vals ref thr = threshold j vals ref thr :=
  desc_ext _ _ fun n => by rw [threshold_bit, threshold_bit]

example : threshold .sse2 (fun n => BitVec.ofNat 8 (17 * n.val)) 128 100 = 0xC003#16 ∧
    threshold .sse41 (fun n => BitVec.ofNat 8 (17 * n.val)) 128 100 = 0xC003#16 ∧
    threshold .scalar (fun n => BitVec.ofNat 8 (17 * n.val)) 128 100 = 0xC003#16 := by decide +kernel

/-- C38: an absolute threshold below `2^31` is used as given, capped at 255. -/
theorem absThreshold_spec_partial (n : BitVec 64) (h : n.toNat < 2 ^ 31) : (absThreshold n).toNat = min 255 n.toNat := by
  have h1 : (n.setWidth 32).toNat = n.toNat := by rw [BitVec.toNat_setWidth, Nat.mod_eq_of_lt (by omega)]
  have h2 : (n.setWidth 32).toInt = n.toNat := by
    rw [BitVec.toInt_eq_toNat_of_lt (by rw [h1]; omega), h1]
  rw [absThreshold, h2, BitVec.toNat_ofNat]
  simp only [Int.toNat_natCast]
  omega

example : (1000#64).toNat < 2 ^ 31 ∧ absThreshold 1000 = 255 ∧ absThreshold 30 = 30 := by decide

/-- C38 fails for larger thresholds: an extractor built with threshold `2^31` works with threshold 0. -/
theorem absThreshold_refuted : (2 ^ 31 : BitVec 64).toNat = 2 ^ 31 ∧ absThreshold (2 ^ 31 : BitVec 64) = 0 := by decide

/-! ## C39: reads stay in the image -/

/-- C39: the sixteen neighbours are distinct pixels of the 5x5 patch, none of them the centre, and they are where the
documented drawing puts them. -/
theorem neighbours_spec :
    (∀ n k : Fin 16, (offX n, offY n) = (offX k, offY k) → n = k) ∧
    (∀ n : Fin 16, |offX n| ≤ 2 ∧ |offY n| ≤ 2 ∧ (offX n, offY n) ≠ (0, 0)) ∧
    (∀ n : Fin 16, idxLUT n = (offX n, offY n) ∧ (n.val, offX n, offY n) ∈ drawing) := by decide

/-- C39: for every image and every centre at least two pixels from each border, the lookup reads sixteen pixels of the
image, each at its position relative to the centre. -/
theorem lookup_in_bounds (m : Img) (hm : WF m) (x y : Int) (c : Nat) (hc : c < m.ch) (hi : Inner m.rows m.cols y x) :
    ∃ vals, lookup m x y c = some vals ∧ ∀ n : Fin 16,
      0 ≤ x + offX n ∧ x + offX n < m.cols ∧ 0 ≤ y + offY n ∧ y + offY n < m.rows ∧
      px m (y + offY n).toNat (x + offX n).toNat c = some (vals n) := by
  obtain ⟨vals, h1, h2⟩ := lookup_some m hm x y c hc hi
  refine ⟨vals, h1, fun n => ?_⟩
  obtain ⟨hy0, hy1, hx0, hx1⟩ := hi
  have := off_range n
  exact ⟨by omega, by omega, by omega, by omega, h2 n⟩

example : WF exImg ∧ Inner exImg.rows exImg.cols 2 3 ∧
    (lookup exImg 3 2 0).map (fun v => (v 0, v 7, v 15)) = some (65#8, 5#8, 100#8) := ⟨exImg_wf, by decide, by decide +kernel⟩

/-- C39: the border of a region of interest is cleared, two pixels wide, and the rest is unchanged. -/
theorem validateROI_spec (rows cols : Nat) (roi : Nat → Nat → BitVec 8) (hr : 4 ≤ rows) (hc : 4 ≤ cols) :
    ∃ out, validateROI rows cols roi = some out ∧ ∀ y < rows, ∀ x < cols,
      (Inner rows cols y x → out y x = roi y x) ∧ (¬ Inner rows cols y x → out y x = 0) := by
  refine ⟨_, by rw [validateROI, if_neg (by omega), if_neg (by omega)], fun y hy x hx => ⟨fun h => ?_, fun h => ?_⟩⟩
  · obtain ⟨h1, h2, h3, h4⟩ := h
    exact if_pos ⟨by omega, by omega, by omega, by omega⟩
  · refine if_neg fun h' => h ?_
    obtain ⟨h1, h2, h3, h4⟩ := h'
    exact ⟨by omega, by omega, by omega, by omega⟩

example : (validateROI 5 6 fun _ _ => 255).map (fun o => (o 2 2, o 2 3, o 2 4, o 1 2)) = some (255, 255, 0, 0) := by decide

/-- C39: a region of interest with fewer than four rows or columns is rejected (with an exception). -/
theorem validateROI_small (rows cols : Nat) (roi : Nat → Nat → BitVec 8) (h : rows < 4 ∨ cols < 4) :
    validateROI rows cols roi = none := by
  rw [validateROI]
  split
  · rfl
  · rw [if_pos (by omega)]

/-- C39 (part): of keypoints at integer positions, exactly those at least two pixels from each border are kept, in
order. Missing: keypoints at fractional positions (`validateKeyPoints_refuted`). -/
theorem validateKeyPoints_partial (rows cols : Nat) (kps : List KP) (hk : ∀ k ∈ kps, Integral k) :
    (validateKeyPoints rows cols kps).Sublist kps ∧
    ∀ k, k ∈ validateKeyPoints rows cols kps ↔ k ∈ kps ∧ ∃ x y : Int, k = ⟨x, y⟩ ∧ Inner rows cols y x := by
  constructor
  · rw [validateKeyPoints, runByImageBorder]
    split
    · exact List.nil_sublist _
    · exact List.filter_sublist
  · intro k
    rw [validateKeyPoints, mem_filtered rows cols kps hk]
    constructor
    · rintro ⟨h1, h2⟩
      obtain ⟨x, y, rfl⟩ := hk k h1
      rw [trunc_int, trunc_int] at h2
      exact ⟨h1, x, y, rfl, h2⟩
    · rintro ⟨h1, x, y, rfl, h2⟩
      exact ⟨h1, by rw [trunc_int, trunc_int]; exact h2⟩

example : validateKeyPoints 5 6 [⟨1, 2⟩, ⟨3, 2⟩, ⟨4, 2⟩, ⟨2, 2⟩] = [⟨3, 2⟩, ⟨2, 2⟩] := by decide +kernel

/-- C39: keypoints at integer positions that pass the filter can all be described. -/
theorem kept_keypoint_in_bounds_partial (m : Img) (hm : WF m) (kps : List KP) (hk : ∀ k ∈ kps, Integral k) (k : KP)
    (h : k ∈ validateKeyPoints m.rows m.cols kps) (c : Nat) (hc : c < m.ch) :
    (lookup m (trunc k.x) (trunc k.y) c).isSome = true := by
  have := ((mem_filtered m.rows m.cols kps hk k).1 h).2
  obtain ⟨vals, h1, -⟩ := lookup_some m hm _ _ c hc this
  rw [h1]; rfl

/-- C39 fails at fractional positions: a keypoint at (1.75, 1.75) is kept (its position is rounded to 2), but is then
truncated to pixel (1, 1), and the description reads before the first byte of the image. -/
theorem validateKeyPoints_refuted :
    validateKeyPoints exImg7.rows exImg7.cols [⟨7/4, 7/4⟩] = [⟨7/4, 7/4⟩] ∧ trunc (7/4) = 1 ∧
    (lookup exImg7 (trunc (7/4)) (trunc (7/4)) 0).isNone = true := by decide +kernel

/-- C39: filtering keypoints with a mask keeps, of keypoints at integer positions, exactly those inside the mask image
that fall on a non-zero pixel, and never reads outside it. -/
theorem validateKeyPointsROI_partial (rows cols : Nat) (roi : Int → Int → BitVec 8) (kps : List KP)
    (hk : ∀ k ∈ kps, Integral k) :
    ∃ out, validateKeyPointsROI rows cols roi kps = some out ∧ out.Sublist kps ∧
      ∀ x y : Int, (⟨x, y⟩ : KP) ∈ out ↔
        (⟨x, y⟩ : KP) ∈ kps ∧ 0 ≤ x ∧ x < cols ∧ 0 ≤ y ∧ y < rows ∧ roi y x ≠ 0 := by
  induction kps with
  | nil => exact ⟨[], rfl, List.Sublist.refl _, by simp⟩
  | cons k kps ih =>
    obtain ⟨out, h1, h2, h3⟩ := ih fun q hq => hk q (by simp [hq])
    obtain ⟨X, Y, rfl⟩ := hk k (by simp)
    have inj : ∀ x y : Int, (⟨x, y⟩ : KP) = ⟨X, Y⟩ ↔ x = X ∧ y = Y := by
      intro x y
      rw [KP.mk.injEq, Int.cast_inj, Int.cast_inj]
    rw [validateKeyPointsROI]
    dsimp only
    rw [cvRound_int, cvRound_int]
    by_cases hin : 0 ≤ X ∧ X < cols ∧ 0 ≤ Y ∧ Y < rows
    · have hin' : (0 : Rat) ≤ X ∧ (X : Rat) < cols ∧ (0 : Rat) ≤ Y ∧ (Y : Rat) < rows := by
        obtain ⟨a, b, c, d⟩ := hin
        exact ⟨by exact_mod_cast a, by exact_mod_cast b, by exact_mod_cast c, by exact_mod_cast d⟩
      rw [if_pos hin', if_pos hin, h1, Option.map_some]
      by_cases hv : roi Y X ≠ 0
      · rw [if_pos hv]
        refine ⟨_, rfl, h2.cons_cons _, fun x y => ?_⟩
        rw [List.mem_cons, List.mem_cons, inj, h3]
        constructor
        · rintro (⟨rfl, rfl⟩ | h)
          · exact ⟨Or.inl ⟨rfl, rfl⟩, hin.1, hin.2.1, hin.2.2.1, hin.2.2.2, hv⟩
          · exact ⟨Or.inr h.1, h.2⟩
        · rintro ⟨h | h, h'⟩
          · exact Or.inl h
          · exact Or.inr ⟨h, h'⟩
      · rw [if_neg hv]
        refine ⟨_, rfl, h2.cons _, fun x y => ?_⟩
        rw [List.mem_cons, inj, h3]
        constructor
        · rintro ⟨h, h'⟩; exact ⟨Or.inr h, h'⟩
        · rintro ⟨⟨rfl, rfl⟩ | h, h'⟩
          · exact absurd h'.2.2.2.2 hv
          · exact ⟨h, h'⟩
    · have hin' : ¬ ((0 : Rat) ≤ X ∧ (X : Rat) < cols ∧ (0 : Rat) ≤ Y ∧ (Y : Rat) < rows) := by
        rintro ⟨a, b, c, d⟩
        exact hin ⟨by exact_mod_cast a, by exact_mod_cast b, by exact_mod_cast c, by exact_mod_cast d⟩
      rw [if_neg hin']
      refine ⟨out, h1, h2.cons _, fun x y => ?_⟩
      rw [List.mem_cons, inj, h3]
      constructor
      · rintro ⟨h, h'⟩; exact ⟨Or.inr h, h'⟩
      · rintro ⟨⟨rfl, rfl⟩ | h, h'⟩
        · exact absurd ⟨h'.1, h'.2.1, h'.2.2.1, h'.2.2.2.1⟩ hin
        · exact ⟨h, h'⟩

example : validateKeyPointsROI 2 3 (fun y x => if y = 1 ∧ x = 2 then 255 else 0) [⟨2, 1⟩, ⟨1, 1⟩, ⟨3, 1⟩] = some [⟨2, 1⟩] := by
  decide +kernel

/-- C39 fails at fractional positions: a keypoint at (2.75, 1) passes the range check of a 3-column mask, and the mask
is then read at column 3. -/
theorem validateKeyPointsROI_refuted (roi : Int → Int → BitVec 8) : validateKeyPointsROI 2 3 roi [⟨11/4, 1⟩] = none := by
  have h1 : (0 : Rat) ≤ 11/4 ∧ (11/4 : Rat) < (3 : Nat) ∧ (0 : Rat) ≤ 1 ∧ (1 : Rat) < (2 : Nat) := by decide +kernel
  have h2 : ¬ (0 ≤ cvRound (11/4) ∧ cvRound (11/4) < (3 : Nat) ∧ 0 ≤ cvRound 1 ∧ cvRound 1 < (2 : Nat)) := by decide +kernel
  rw [validateKeyPointsROI, if_pos h1, if_neg h2]

/-! ## C40: gradients -/

/-- C40: the bit masks and the sign tables agree with the neighbour positions: positive x contributions are the
neighbours on the left (`x < 0`), positive y contributions those with `y > 0`. -/
theorem masks_spec :
    (∀ n : Fin 16, (gradXPos.getLsbD n = true ↔ offX n < 0) ∧ (gradXNeg.getLsbD n = true ↔ 0 < offX n) ∧
      (gradYPos.getLsbD n = true ↔ 0 < offY n) ∧ (gradYNeg.getLsbD n = true ↔ offY n < 0)) ∧
    ∀ n : Fin 16, gradXLUT n = - Int.sign (offX n) ∧ gradYLUT n = Int.sign (offY n) := by decide

/-- The threshold applied to a channel with reference value `ref`. -/
def gradientThr (absOffset relShift : Nat) (ref : BitVec 8) : BitVec 8 :=
  BitVec.ofNat 8 ((ref.toNat / 2 ^ relShift + absOffset) / 2)

/-- C40: for every patch, the gradient comes from the channel with the most differing neighbours (the last channel if it
has as many as any other, else the first such): x is the number of differing neighbours with `x < 0` minus the number
with `x > 0`; y is the number with `y > 0` minus the number with `y < 0`; the magnitude is the number of all. -/
theorem gradient_spec (impl : Impl) (absOffset relShift ch : Nat) (hch : 0 < ch) (patch : Nat → Int → Int → BitVec 8)
    (refs : Nat → BitVec 8) :
    ∃ c, Chosen (fun c => countSide (fun _ _ => true) (patch c) (refs c) (gradientThr absOffset relShift (refs c))) ch c ∧
      ∀ gx gy mag, gradient impl absOffset relShift ch (fun c n => patch c (offX n) (offY n)) refs = (gx, gy, mag) →
        gx.toInt = countSide (fun x _ => decide (x < 0)) (patch c) (refs c) (gradientThr absOffset relShift (refs c)) -
          countSide (fun x _ => decide (0 < x)) (patch c) (refs c) (gradientThr absOffset relShift (refs c)) ∧
        gy.toInt = countSide (fun _ y => decide (0 < y)) (patch c) (refs c) (gradientThr absOffset relShift (refs c)) -
          countSide (fun _ y => decide (y < 0)) (patch c) (refs c) (gradientThr absOffset relShift (refs c)) ∧
        mag.toNat = countSide (fun _ _ => true) (patch c) (refs c) (gradientThr absOffset relShift (refs c)) := by
  have ht : ∀ r, gradThr absOffset relShift r = gradientThr absOffset relShift r := fun r => by
    rw [gradThr, gradientThr, Nat.shiftRight_eq_div_pow]
  obtain ⟨c, h1, h2⟩ := gradSelect_spec (fun c => threshold impl (fun n => patch c (offX n) (offY n)) (refs c)
    (gradThr absOffset relShift (refs c))) ch hch
  have hcnt : ∀ c, Bits.Spec.ones (threshold impl (fun n => patch c (offX n) (offY n)) (refs c)
      (gradThr absOffset relShift (refs c))) =
      countSide (fun _ _ => true) (patch c) (refs c) (gradientThr absOffset relShift (refs c)) := fun c => by
    rw [← ht, ← full_count impl, popcount_toNat]
  refine ⟨c, ?_, fun gx gy mag hg => ?_⟩
  · simp only [hcnt] at h2
    exact h2
  · rw [gradient, h1] at hg
    dsimp only at hg
    rw [Prod.mk.injEq, Prod.mk.injEq] at hg
    obtain ⟨rfl, rfl, rfl⟩ := hg
    have e := fun k p hk => masked_count impl (patch c) (refs c) (gradThr absOffset relShift (refs c)) k p hk
    have e1 := e gradXPos (fun x _ => decide (x < 0)) maskXPos
    have e2 := e gradXNeg (fun x _ => decide (0 < x)) maskXNeg
    have e3 := e gradYPos (fun _ y => decide (0 < y)) maskYPos
    have e4 := e gradYNeg (fun _ y => decide (y < 0)) maskYNeg
    have le := fun p => countSide_le p (patch c) (refs c) (gradThr absOffset relShift (refs c))
    rw [sub_toInt _ _ (by rw [e1]; exact le _) (by rw [e2]; exact le _),
      sub_toInt _ _ (by rw [e3]; exact le _) (by rw [e4]; exact le _), e1, e2, e3, e4, full_count, ht]
    exact ⟨rfl, rfl, rfl⟩

example : gradient .sse2 20 2 2 (fun c n => (fun c x y => BitVec.ofNat 8 (if c = 0 ∧ x < 0 then 200 else if y > 1 then 90 else 50)) c (offX n) (offY n))
    (fun _ => 50) = (5, 2, 8) := by decide +kernel

/-- Mirroring or transposing the patch, stated once for a map of positions that permutes the pattern. -/
theorem gradient_map (impl : Impl) (absOffset relShift ch : Nat) (hch : 0 < ch) (patch : Nat → Int → Int → BitVec 8)
    (refs : Nat → BitVec 8) (f g : Int × Int → Int)
    (h : ((drawing.map Prod.snd).map fun q => (f q, g q)).Perm (drawing.map Prod.snd)) (gx gy mag gx' gy' mag' : BitVec 8)
    (hg : gradient impl absOffset relShift ch (fun c n => patch c (offX n) (offY n)) refs = (gx, gy, mag))
    (hg' : gradient impl absOffset relShift ch
      (fun c n => patch c (f (offX n, offY n)) (g (offX n, offY n))) refs = (gx', gy', mag')) :
    mag' = mag ∧ ∃ (P : Int → Int → BitVec 8) (r t : BitVec 8),
      gx.toInt = countSide (fun x _ => decide (x < 0)) P r t - countSide (fun x _ => decide (0 < x)) P r t ∧
      gy.toInt = countSide (fun _ y => decide (0 < y)) P r t - countSide (fun _ y => decide (y < 0)) P r t ∧
      gx'.toInt = countSide (fun x _ => decide (x < 0)) (fun x y => P (f (x, y)) (g (x, y))) r t -
        countSide (fun x _ => decide (0 < x)) (fun x y => P (f (x, y)) (g (x, y))) r t ∧
      gy'.toInt = countSide (fun _ y => decide (0 < y)) (fun x y => P (f (x, y)) (g (x, y))) r t -
        countSide (fun _ y => decide (y < 0)) (fun x y => P (f (x, y)) (g (x, y))) r t := by
  obtain ⟨c, h1, h2⟩ := gradient_spec impl absOffset relShift ch hch patch refs
  obtain ⟨c', h1', h2'⟩ := gradient_spec impl absOffset relShift ch hch
    (fun c x y => patch c (f (x, y)) (g (x, y))) refs
  have hc : ∀ c, countSide (fun _ _ => true) (fun x y => patch c (f (x, y)) (g (x, y))) (refs c)
      (gradientThr absOffset relShift (refs c)) = countSide (fun _ _ => true) (patch c) (refs c)
      (gradientThr absOffset relShift (refs c)) := fun c => countSide_map (fun _ _ => true) _ _ _ f g h
  simp only [hc] at h1'
  have e := h1'.unique h1
  subst e
  obtain ⟨a1, a2, a3⟩ := h2 gx gy mag hg
  obtain ⟨b1, b2, b3⟩ := h2' gx' gy' mag' hg'
  refine ⟨BitVec.eq_of_toNat_eq (by rw [a3, b3, hc]), patch c', refs c', _, a1, a2, b1, b2⟩

/-- C40: mirroring every channel of the patch left to right negates the x gradient and keeps the y gradient and the
magnitude. -/
theorem gradient_mirror_x (impl : Impl) (absOffset relShift ch : Nat) (hch : 0 < ch) (patch : Nat → Int → Int → BitVec 8)
    (refs : Nat → BitVec 8) (gx gy mag gx' gy' mag' : BitVec 8)
    (hg : gradient impl absOffset relShift ch (fun c n => patch c (offX n) (offY n)) refs = (gx, gy, mag))
    (hg' : gradient impl absOffset relShift ch (fun c n => patch c (- offX n) (offY n)) refs = (gx', gy', mag')) :
    gx'.toInt = - gx.toInt ∧ gy'.toInt = gy.toInt ∧ mag' = mag := by
  have hp : ((drawing.map Prod.snd).map fun q => (- q.1, q.2)).Perm (drawing.map Prod.snd) := by decide
  obtain ⟨hm, P, r, t, a, b, a', b'⟩ := gradient_map impl absOffset relShift ch hch patch refs (fun q => - q.1) (fun q => q.2)
    hp gx gy mag gx' gy' mag' hg hg'
  have k := fun p => countSide_map p P r t (fun q => - q.1) (fun q => q.2) hp
  dsimp only at k a' b'
  have k1 := k fun x _ => decide (x < 0)
  have k2 := k fun x _ => decide (0 < x)
  have k3 := k fun _ y => decide (y < 0)
  have k4 := k fun _ y => decide (0 < y)
  simp only [Int.neg_neg_iff_pos, Int.neg_pos] at k1 k2 k3 k4
  refine ⟨?_, ?_, hm⟩ <;> omega

/-- C40: mirroring the patch top to bottom negates the y gradient and keeps the x gradient and the magnitude. -/
theorem gradient_mirror_y (impl : Impl) (absOffset relShift ch : Nat) (hch : 0 < ch) (patch : Nat → Int → Int → BitVec 8)
    (refs : Nat → BitVec 8) (gx gy mag gx' gy' mag' : BitVec 8)
    (hg : gradient impl absOffset relShift ch (fun c n => patch c (offX n) (offY n)) refs = (gx, gy, mag))
    (hg' : gradient impl absOffset relShift ch (fun c n => patch c (offX n) (- offY n)) refs = (gx', gy', mag')) :
    gx'.toInt = gx.toInt ∧ gy'.toInt = - gy.toInt ∧ mag' = mag := by
  have hp : ((drawing.map Prod.snd).map fun q => (q.1, - q.2)).Perm (drawing.map Prod.snd) := by decide
  obtain ⟨hm, P, r, t, a, b, a', b'⟩ := gradient_map impl absOffset relShift ch hch patch refs (fun q => q.1) (fun q => - q.2)
    hp gx gy mag gx' gy' mag' hg hg'
  have k := fun p => countSide_map p P r t (fun q => q.1) (fun q => - q.2) hp
  dsimp only at k a' b'
  have k1 := k fun x _ => decide (x < 0)
  have k2 := k fun x _ => decide (0 < x)
  have k3 := k fun _ y => decide (y < 0)
  have k4 := k fun _ y => decide (0 < y)
  simp only [Int.neg_neg_iff_pos, Int.neg_pos] at k1 k2 k3 k4
  refine ⟨?_, ?_, hm⟩ <;> omega

/-- C40: transposing the patch exchanges the two gradients, with a change of sign: the x gradient counts towards `x < 0`,
the y gradient towards `y > 0`. -/
theorem gradient_transpose (impl : Impl) (absOffset relShift ch : Nat) (hch : 0 < ch) (patch : Nat → Int → Int → BitVec 8)
    (refs : Nat → BitVec 8) (gx gy mag gx' gy' mag' : BitVec 8)
    (hg : gradient impl absOffset relShift ch (fun c n => patch c (offX n) (offY n)) refs = (gx, gy, mag))
    (hg' : gradient impl absOffset relShift ch (fun c n => patch c (offY n) (offX n)) refs = (gx', gy', mag')) :
    gx'.toInt = - gy.toInt ∧ gy'.toInt = - gx.toInt ∧ mag' = mag := by
  have hp : ((drawing.map Prod.snd).map fun q => (q.2, q.1)).Perm (drawing.map Prod.snd) := by decide
  obtain ⟨hm, P, r, t, a, b, a', b'⟩ := gradient_map impl absOffset relShift ch hch patch refs (fun q => q.2) (fun q => q.1)
    hp gx gy mag gx' gy' mag' hg hg'
  have k := fun p => countSide_map p P r t (fun q => q.2) (fun q => q.1) hp
  dsimp only at k a' b'
  have k1 := k fun x _ => decide (x < 0)
  have k2 := k fun x _ => decide (0 < x)
  have k3 := k fun _ y => decide (y < 0)
  have k4 := k fun _ y => decide (0 < y)
  refine ⟨?_, ?_, hm⟩ <;> omega

/-- The same patch as above, mirrored and transposed. -/
example : let p : Nat → Int → Int → BitVec 8 := fun c x y => BitVec.ofNat 8 (if c = 0 ∧ x < 0 then 200 else if y > 1 then 90 else 50)
    gradient .sse2 20 2 2 (fun c n => p c (- offX n) (offY n)) (fun _ => 50) = (-5, 2, 8) ∧
    gradient .sse2 20 2 2 (fun c n => p c (offY n) (offX n)) (fun _ => 50) = (-2, -5, 8) := by decide +kernel

/-- C40: the magnitude never exceeds 16 and the components never exceed 6 in absolute value, for any neighbour values. -/
theorem gradient_range (impl : Impl) (absOffset relShift ch : Nat) (hch : 0 < ch) (patch : Nat → Int → Int → BitVec 8)
    (refs : Nat → BitVec 8) (gx gy mag : BitVec 8)
    (hg : gradient impl absOffset relShift ch (fun c n => patch c (offX n) (offY n)) refs = (gx, gy, mag)) :
    mag.toNat ≤ 16 ∧ |gx.toInt| ≤ 6 ∧ |gy.toInt| ≤ 6 := by
  obtain ⟨c, -, h⟩ := gradient_spec impl absOffset relShift ch hch patch refs
  obtain ⟨h1, h2, h3⟩ := h gx gy mag hg
  have le6 : ∀ p : Int → Int → Bool, (drawing.countP fun e => p e.2.1 e.2.2) ≤ 6 → ∀ P r t, countSide p P r t ≤ 6 := by
    intro p hp P r t
    refine le_trans ?_ hp
    rw [countSide]
    exact List.countP_mono_left fun e _ he => by simp only [Bool.and_eq_true] at he; exact he.1
  have a1 := le6 (fun x _ => decide (x < 0)) (by decide) (patch c) (refs c) (gradientThr absOffset relShift (refs c))
  have a2 := le6 (fun x _ => decide (0 < x)) (by decide) (patch c) (refs c) (gradientThr absOffset relShift (refs c))
  have a3 := le6 (fun _ y => decide (y < 0)) (by decide) (patch c) (refs c) (gradientThr absOffset relShift (refs c))
  have a4 := le6 (fun _ y => decide (0 < y)) (by decide) (patch c) (refs c) (gradientThr absOffset relShift (refs c))
  refine ⟨?_, ?_, ?_⟩
  · rw [h3]; exact countSide_le ..
  · rw [abs_le]; omega
  · rw [abs_le]; omega

/-! ## C70: descriptor maps -/

/-- Descriptors are determined by the images: two values that both satisfy `IsDesc` are equal. -/
theorem isDesc_unique (m ref : Img) (thr : BitVec 8 → BitVec 8) (y x : Int) (c : Nat) (d d' : BitVec 16)
    (h : IsDesc m ref thr y x c d) (h' : IsDesc m ref thr y x c d') : d = d' := by
  obtain ⟨r, hr, h⟩ := h
  obtain ⟨r', hr', h'⟩ := h'
  rw [hr] at hr'
  injection hr' with e
  subst e
  refine desc_ext _ _ fun n => ?_
  have hn : (n.val, offX n, offY n) ∈ drawing := (drawing_mem _).2 ⟨n, rfl⟩
  obtain ⟨v, e1, e2⟩ := h _ hn
  obtain ⟨v', e1', e2'⟩ := h' _ hn
  rw [e1] at e1'
  injection e1' with e
  subst e
  exact Bool.eq_iff_iff.2 (e2.trans e2'.symm)

/-- C70: the dense description of every accepted image and reference succeeds, writes at each pixel at least two pixels
from the borders its descriptor for each channel, and writes nothing else. -/
theorem compute2_spec (impl : Impl) (m : Img) (ref : Option Img) (thr : BitVec 8 → BitVec 8) (old : Map) (hm : WF m)
    (hr : ∀ r, ref = some r → WF r) (ha : Accepts m ref) :
    ∃ o, compute2 impl m ref thr old = some o ∧ ∀ y x c,
      (Inner m.rows m.cols y x → c < m.ch → IsDesc m (ref.getD m) thr y x c (o y x c)) ∧
      (¬ (Inner m.rows m.cols y x ∧ c < m.ch) → o y x c = old y x c) := by
  have hr' : WF (ref.getD m) := by
    cases ref with
    | none => exact hm
    | some r => exact hr r rfl
  have hp : ∀ y x, ∃ d, Inner m.rows m.cols y x → pixelDesc impl m (ref.getD m) thr y x = some d ∧
      ∀ c < m.ch, IsDesc m (ref.getD m) thr y x c (d c) := by
    intro y x
    by_cases hi : Inner m.rows m.cols y x
    · obtain ⟨d, h⟩ := pixelDesc_some impl m (ref.getD m) hm hr' (accepted_same m ref ha) thr y x hi
      exact ⟨d, fun _ => h⟩
    · exact ⟨fun _ => 0, fun h => absurd h hi⟩
  choose D hD using hp
  refine ⟨fun y x c => if (y, x) ∈ densePixels m.rows m.cols ∧ c < m.ch then D y x c else old y x c, ?_, ?_⟩
  · rw [compute2, if_pos ((accepted_iff m ref).2 ha)]
    exact describe_some impl m (ref.getD m) thr D _ (fun p hp => (hD p.1 p.2 ((mem_densePixels ..).1 hp)).1) old
  · intro y x c
    simp only [mem_densePixels]
    constructor
    · intro hi hc
      rw [if_pos ⟨hi, hc⟩]
      exact (hD y x hi).2 c hc
    · intro h
      rw [if_neg h]

example : WF exImg7 ∧ Accepts exImg7 none ∧
    (compute2 .scalar exImg7 none (fun _ => 40) fun _ _ _ => 7).map (fun o => (o 3 3 0, o 2 4 0, o 1 3 0, o 3 1 0)) =
      some (0b0000000011111100#16, 0b0000000011111100#16, 7, 7) := ⟨exImg7_wf, exImg7_ok, by decide +kernel⟩

/-- C70 (part): for keypoints at integer positions of which at least one is far enough from the borders, describing into
a zero map gives the same keypoints and the same map as describing into a list and reshaping it: the descriptor at each
kept keypoint, zero elsewhere. Missing: fractional positions (`reshape_rounding_refuted`) and maps that are not zero
beforehand (`compute2_stale_refuted`). -/
theorem compute2_reshape_partial (impl : Impl) (m : Img) (ref : Option Img) (thr : BitVec 8 → BitVec 8) (hm : WF m)
    (hr : ∀ r, ref = some r → WF r) (ha : Accepts m ref) (kps : List KP) (hk : ∀ k ∈ kps, Integral k)
    (hne : ∃ x y : Int, (⟨x, y⟩ : KP) ∈ kps ∧ Inner m.rows m.cols y x) :
    ∃ ds o, compute2KP impl m ref thr kps (fun _ _ _ => 0) = some (validateKeyPoints m.rows m.cols kps, some o) ∧
      computeKP impl m ref thr kps = some (validateKeyPoints m.rows m.cols kps, ds) ∧
      reshapeDesc m.rows m.cols m.ch (validateKeyPoints m.rows m.cols kps) ds = some o ∧
      ∀ (y x : Int) (c : Nat),
        ((⟨x, y⟩ : KP) ∈ kps → Inner m.rows m.cols y x → c < m.ch → IsDesc m (ref.getD m) thr y x c (o y x c)) ∧
        (¬ ((⟨x, y⟩ : KP) ∈ kps ∧ Inner m.rows m.cols y x ∧ c < m.ch) → o y x c = 0) := by
  have hr' : WF (ref.getD m) := by
    cases ref with
    | none => exact hm
    | some r => exact hr r rfl
  have hp : ∀ y x, ∃ d, Inner m.rows m.cols y x → pixelDesc impl m (ref.getD m) thr y x = some d ∧
      ∀ c < m.ch, IsDesc m (ref.getD m) thr y x c (d c) := by
    intro y x
    by_cases hi : Inner m.rows m.cols y x
    · obtain ⟨d, h⟩ := pixelDesc_some impl m (ref.getD m) hm hr' (accepted_same m ref ha) thr y x hi
      exact ⟨d, fun _ => h⟩
    · exact ⟨fun _ => 0, fun h => absurd h hi⟩
  choose D hD using hp
  have hmem := mem_filtered m.rows m.cols kps hk
  have hne' : runByImageBorder m.rows m.cols (5 / 2) kps ≠ [] := by
    obtain ⟨x, y, h1, h2⟩ := hne
    have : (⟨x, y⟩ : KP) ∈ runByImageBorder m.rows m.cols (5 / 2) kps := (hmem _).2 ⟨h1, by rw [trunc_int, trunc_int]; exact h2⟩
    intro e
    rw [e] at this
    cases this
  have h0 : ¬ (m.rows = 0 ∨ m.cols = 0) := by have := ha.1; omega
  have hdesc := describe_some impl m (ref.getD m) thr D
    ((runByImageBorder m.rows m.cols (5 / 2) kps).map fun k => (trunc k.y, trunc k.x))
    (by
      intro p hp
      obtain ⟨k, h1, rfl⟩ := List.mem_map.1 hp
      exact (hD _ _ ((hmem k).1 h1).2).1) (fun _ _ _ => 0)
  refine ⟨(runByImageBorder m.rows m.cols (5 / 2) kps).map fun k => D (trunc k.y) (trunc k.x),
    fun y x c => if (y, x) ∈ (runByImageBorder m.rows m.cols (5 / 2) kps).map (fun k => (trunc k.y, trunc k.x)) ∧ c < m.ch
      then D y x c else 0, ?_, ?_, ?_, ?_⟩
  rotate_left
  · rw [computeKP, if_neg h0]
    dsimp only
    rw [if_neg hne', if_pos ((accepted_iff m ref).2 ha),
      mapM_some _ (fun k => D (trunc k.y) (trunc k.x)) _ fun k hk => (hD _ _ ((hmem k).1 hk).2).1]
    rfl
  · rw [reshapeDesc, validateKeyPoints, if_neg]
    · exact reshapeLoop_some m.rows m.cols m.ch D _ (fun k h => by
        have h' := (hmem k).1 h
        obtain ⟨a, b, c, d⟩ := h'.2
        exact ⟨hk k h'.1, by omega, by omega, by omega, by omega⟩) _
    · have hlen : (runByImageBorder m.rows m.cols (5 / 2) kps).length ≠ 0 := fun e => hne' (List.length_eq_zero_iff.1 e)
      rintro (h | h | h | h | h)
      · exact hne' h
      · rw [List.length_map] at h; exact hlen h
      · exact h0 (Or.inl h)
      · exact h0 (Or.inr h)
      · exact h ha.1.2.2.1
  · intro y x c
    have hiff : (y, x) ∈ (runByImageBorder m.rows m.cols (5 / 2) kps).map (fun k => (trunc k.y, trunc k.x)) ↔
        (⟨x, y⟩ : KP) ∈ kps ∧ Inner m.rows m.cols y x := by
      rw [List.mem_map]
      constructor
      · rintro ⟨k, h1, h2⟩
        obtain ⟨h3, h4⟩ := (hmem k).1 h1
        obtain ⟨X, Y, rfl⟩ := hk k h3
        simp only [trunc_int, Prod.mk.injEq] at h2 h4
        obtain ⟨rfl, rfl⟩ := h2
        exact ⟨h3, h4⟩
      · rintro ⟨h1, h2⟩
        exact ⟨⟨x, y⟩, (hmem _).2 ⟨h1, by rw [trunc_int, trunc_int]; exact h2⟩, by simp only [trunc_int]⟩
    dsimp only
    constructor
    · intro h1 h2 h3
      rw [if_pos ⟨hiff.2 ⟨h1, h2⟩, h3⟩]
      exact (hD y x h2).2 c h3
    · intro h
      rw [if_neg fun h' => h ⟨(hiff.1 h'.1).1, (hiff.1 h'.1).2, h'.2⟩]
  · rw [compute2KP, if_neg h0]
    dsimp only
    rw [if_neg hne', if_pos ((accepted_iff m ref).2 ha), hdesc]
    rfl

example : WF exImg7 ∧ Accepts exImg7 none ∧ (⟨2, 3⟩ : KP) ∈ [⟨0, 0⟩, ⟨2, 3⟩] ∧ Inner exImg7.rows exImg7.cols 3 2 :=
  ⟨exImg7_wf, exImg7_ok, by simp, by decide⟩

/-- C70 fails for a map that already has the right size: pixels that are no keypoint keep their previous content, whereas
reshaping gives 0 there. -/
theorem compute2_stale_refuted :
    (compute2KP .scalar exImg7 none (fun _ => 40) [⟨2, 3⟩] fun _ _ _ => 7).bind (fun r => r.2.map fun o => o 3 3 0) = some 7 ∧
    (computeKP .scalar exImg7 none (fun _ => 40) [⟨2, 3⟩]).bind
      (fun r => (reshapeDesc 7 7 1 r.1 r.2).map fun o => o 3 3 0) = some 0 := by decide +kernel

/-- C70 fails at fractional positions of single-channel images: for a keypoint at (2.75, 3) the descriptor is computed
and stored at column 2 by one way and stored at column 3 by the other. -/
theorem reshape_rounding_refuted :
    (compute2KP .scalar exImg7 none (fun _ => 40) [⟨11/4, 3⟩] fun _ _ _ => 0).bind
      (fun r => r.2.map fun o => (o 3 2 0, o 3 3 0)) = some (0xFC#16, 0) ∧
    (computeKP .scalar exImg7 none (fun _ => 40) [⟨11/4, 3⟩]).bind
      (fun r => (reshapeDesc 7 7 1 r.1 r.2).map fun o => (o 3 2 0, o 3 3 0)) = some (0, 0xFC#16) := by decide +kernel

/-! ## C71: comparing descriptor maps -/

/-- C71: the distance of two multi-channel descriptors is the number of bits in which they differ. -/
theorem calcDistance_spec (l : List (BitVec 16 × BitVec 16)) (h : l.length ≤ 4) :
    (calcDistance (l.map Prod.fst) (l.map Prod.snd)).toNat = (l.map fun p => Bits.Spec.differing p.1 p.2).sum := by
  have hz : ∀ l : List (BitVec 16 × BitVec 16), (l.map Prod.fst).zip (l.map Prod.snd) = l := by
    intro l
    induction l with
    | nil => rfl
    | cons p l ih => simp [ih]
  have hle : ∀ l : List (BitVec 16 × BitVec 16), (l.map fun p => Bits.Spec.differing p.1 p.2).sum ≤ 16 * l.length := by
    intro l
    induction l with
    | nil => simp
    | cons p l ih =>
      have := Bits.differing_le p.1 p.2
      simp only [List.map_cons, List.sum_cons, List.length_cons]
      omega
  have := hle l
  have key := Bits.fold_ofNat (α := BitVec 16 × BitVec 16) 8 (fun p => Bits.popcount 8 (n := 2) (p.1 ^^^ p.2))
    (fun p => Bits.Spec.differing p.1 p.2) (fun p => by rw [Bits.popcount_eq]; congr 1; exact Bits.ones_xor p.1 p.2) l 0
  rw [calcDistance, Bits.hdistArr, hz]
  rw [Nat.zero_add] at key
  rw [show (0 : BitVec 8) = BitVec.ofNat 8 0 from rfl]
  refine (congrArg BitVec.toNat key).trans ?_
  rw [BitVec.toNat_ofNat, Nat.mod_eq_of_lt (by omega)]

example : calcDistance [0xFFFF, 0, 3] [0, 0xFFFF, 5] = 34 := by decide

/-- C71: the difference image is 0 exactly where the descriptors are equal, 255 exactly where all bits differ, and never
decreases when more bits differ. -/
theorem diffPixel_spec (a b : BitVec 16) :
    (diffPixel a b).toNat = 255 * Bits.Spec.differing a b / 16 ∧
    (diffPixel a b = 0 ↔ a = b) ∧ (diffPixel a b = 255 ↔ ∀ i < 16, a.getLsbD i ≠ b.getLsbD i) := by
  have hd := Bits.differing_le a b
  have h1 : (diffPixel a b).toNat = 255 * Bits.Spec.differing a b / 16 := by
    rw [diffPixel, hdist_toNat, BitVec.toNat_ofNat, Nat.mod_eq_of_lt (by omega)]
  refine ⟨h1, ?_, ?_⟩
  · rw [← Bits.differing_eq_zero a b, ← BitVec.toNat_inj, h1, zero8]
    omega
  · rw [← differing_full, ← BitVec.toNat_inj, h1, max8]
    omega

example : diffPixel 0xFFFF 0 = 255 ∧ diffPixel 0x00FF 0x00F0 = 63 ∧ diffPixel 5 5 = 0 := by decide

/-- C71: the merged difference of three channels is the sum of the truncated thirds; it never overflows, is 0 exactly
where all channels are equal, and 255 exactly where all bits of all channels differ. -/
theorem diffMerged_spec (a b : Fin 3 → BitVec 16) :
    (diffMerged [a 0, a 1, a 2] [b 0, b 1, b 2]).toNat =
      85 * Bits.Spec.differing (a 0) (b 0) / 16 + 85 * Bits.Spec.differing (a 1) (b 1) / 16 +
        85 * Bits.Spec.differing (a 2) (b 2) / 16 ∧
    (diffMerged [a 0, a 1, a 2] [b 0, b 1, b 2] = 0 ↔ a = b) ∧
    (diffMerged [a 0, a 1, a 2] [b 0, b 1, b 2] = 255 ↔ ∀ c, ∀ i < 16, (a c).getLsbD i ≠ (b c).getLsbD i) := by
  have hd := fun c => Bits.differing_le (a c) (b c)
  have h1 : (diffMerged [a 0, a 1, a 2] [b 0, b 1, b 2]).toNat =
      85 * Bits.Spec.differing (a 0) (b 0) / 16 + 85 * Bits.Spec.differing (a 1) (b 1) / 16 +
        85 * Bits.Spec.differing (a 2) (b 2) / 16 := by
    have e0 := hd 0
    have e1 := hd 1
    have e2 := hd 2
    simp only [diffMerged, List.zip_cons_cons, List.zip_nil_right, List.foldl_cons, List.foldl_nil, hdist_toNat,
      BitVec.toNat_add, BitVec.toNat_ofNat, zero8]
    omega
  refine ⟨h1, ?_, ?_⟩
  · rw [← BitVec.toNat_inj, h1, zero8, funext_iff, Fin.forall_fin_succ, Fin.forall_fin_succ, Fin.forall_fin_succ]
    have f := fun c => Bits.differing_eq_zero (a c) (b c)
    have f0 := f 0
    have f1 := f 1
    have f2 := f 2
    constructor
    · intro h
      exact ⟨f0.1 (by omega), f1.1 (by omega), f2.1 (by omega), fun i => i.elim0⟩
    · rintro ⟨g0, g1, g2, -⟩
      have := f0.2 g0
      have := f1.2 g1
      have := f2.2 g2
      omega
  · rw [← BitVec.toNat_inj, h1, max8, Fin.forall_fin_succ, Fin.forall_fin_succ, Fin.forall_fin_succ]
    have e0 := hd 0
    have e1 := hd 1
    have e2 := hd 2
    have f0 := differing_full (a 0) (b 0)
    have f1 := differing_full (a 1) (b 1)
    have f2 := differing_full (a 2) (b 2)
    constructor
    · intro h
      exact ⟨f0.1 (by omega), f1.1 (by omega), f2.1 (by omega), fun i => i.elim0⟩
    · rintro ⟨g0, g1, g2, -⟩
      have := f0.2 g0
      have := f1.2 g1
      have := f2.2 g2
      omega

example : diffMerged [0xFFFF, 0xFFFF, 0xFFFF] [0, 0, 0] = 255 ∧ diffMerged [1, 0, 3] [0, 0, 0] = 15 := by decide

/-! ## C72: the shader computes the same descriptors -/

/-- C72: for every texture, reference and threshold, both variants of the generated shader function return the
descriptor of the processor implementations. -/
theorem glsl_agrees (impl : Impl) (img : Int → Int → BitVec 8) (ref thr : BitVec 8) :
    glslDesc img ref thr = (threshold impl (fun n => img (offX n) (offY n)) ref thr).setWidth 32 ∧
    glslDescShared img ref thr = (threshold impl (fun n => img (offX n) (offY n)) ref thr).setWidth 32 := by
  have key : ∀ (terms : List ((Int × Int) × Nat)) (f : Int × Int → Int × Int)
      (hp : (terms.map fun t => (t.2, f t.1)).Perm drawing),
      ((terms.map fun t => (BitVec.ofBool (decide (thr.toNat <
        ((img (f t.1).1 (f t.1).2).toNat - ref.toNat : Int).natAbs))).setWidth 32 <<< t.2).sum : BitVec 32) =
        (threshold impl (fun n => img (offX n) (offY n)) ref thr).setWidth 32 := by
    intro terms f hp
    have hmem : ∀ t ∈ terms, ∃ n : Fin 16, t.2 = n.val ∧ f t.1 = (offX n, offY n) := by
      intro t ht
      have : (t.2, f t.1) ∈ drawing := hp.mem_iff.1 (List.mem_map.2 ⟨t, ht, rfl⟩)
      obtain ⟨n, hn⟩ := (drawing_mem _).1 this
      rw [Prod.mk.injEq] at hn
      exact ⟨n, hn⟩
    have hnd : (terms.map Prod.snd).Nodup := by
      have h1 : ((terms.map fun t => (t.2, f t.1)).map Prod.fst).Perm (drawing.map Prod.fst) := hp.map _
      rw [List.map_map] at h1
      exact (h1.nodup_iff).2 (by decide)
    apply BitVec.eq_of_getLsbD_eq
    intro i hi
    have hb := sum_bits (terms.map fun t => (decide (thr.toNat <
        ((img (f t.1).1 (f t.1).2).toNat - ref.toNat : Int).natAbs), t.2)) (by
          intro p hp
          obtain ⟨t, ht, rfl⟩ := List.mem_map.1 hp
          obtain ⟨n, hn, -⟩ := hmem t ht
          have := n.isLt
          dsimp only
          omega) (by rw [List.map_map]; exact hnd) i hi
    rw [List.map_map] at hb
    refine hb.trans ?_
    rw [List.any_map, BitVec.getLsbD_setWidth, Bool.eq_iff_iff]
    simp only [List.any_eq_true, Function.comp, Bool.and_eq_true, decide_eq_true_eq, beq_iff_eq, hi, true_and]
    constructor
    · rintro ⟨t, ht, h1, rfl⟩
      obtain ⟨n, hn, hf⟩ := hmem t ht
      rw [hn, threshold_bit, decide_eq_true_eq, differs_iff]
      rw [hf] at h1
      dsimp only at h1 ⊢
      omega
    · intro h
      have hi16 : i < 16 := by
        by_contra hc
        rw [BitVec.getLsbD_of_ge _ _ (by omega)] at h
        cases h
      have hn := threshold_bit impl (fun n => img (offX n) (offY n)) ref thr ⟨i, hi16⟩
      rw [h, eq_comm, decide_eq_true_eq, differs_iff] at hn
      have hd : ((⟨i, hi16⟩ : Fin 16).val, offX ⟨i, hi16⟩, offY ⟨i, hi16⟩) ∈ drawing := (drawing_mem _).2 ⟨_, rfl⟩
      obtain ⟨t, ht, e⟩ := List.mem_map.1 (hp.mem_iff.2 hd)
      rw [Prod.mk.injEq] at e
      refine ⟨t, ht, ?_, e.1⟩
      rw [e.2]
      dsimp only at hn ⊢
      omega
  exact ⟨key glslTerms id (by decide), key glslTermsShared (fun q => (q.2, q.1)) (by decide)⟩

example : glslDesc (fun x y => BitVec.ofNat 8 (100 + 10 * x + 3 * y).toNat) 100 15 = 0b11000011#32 := by
  decide +kernel

end Litiv.LBSP
