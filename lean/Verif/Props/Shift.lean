import Verif.Lemmas.Shift
import Mathlib.Tactic.Ring
import Mathlib.Tactic.NormNum

/-!
# C51, C80: shifting images and copying regions
-/

namespace Litiv.Shift

/-- the extended input as seen by the interpolation filter: positions beyond the padded image
are zero -/
def seen (b : Border ℚ) (m : Img ℚ) (ix iy : Int) (v u : Int) : ℚ :=
  if u < m.cols + max (-ix) 0 ∧ v < m.rows + max (-iy) 0 then extend b m v u else 0

theorem sub_ceil (d : ℚ) : |d - ⌈d⌉| = ⌈d⌉ - d := by
  rw [abs_sub_comm, abs_of_nonneg (by have := Int.le_ceil d; linarith)]

/-- what `shift` returns, for all deltas -/
theorem shift_view (isInt : Bool) (m : Img ℚ) (dx dy : ℚ) (b : Border ℚ)
    (hx : |dx| < m.cols) (hy : |dy| < m.rows) :
    ∃ o, shift isInt m dx dy b =
        some (o, (decide (eps < ⌈dx⌉ - dx) || decide (eps < ⌈dy⌉ - dy)) && isInt) ∧
      o.rows = m.rows ∧ o.cols = m.cols ∧
      (⌈dx⌉ - dx ≤ eps → ⌈dy⌉ - dy ≤ eps →
        ∀ y x, m.has y x → o.px y x = extend b m (y - ⌈dy⌉) (x - ⌈dx⌉)) ∧
      (¬ (⌈dx⌉ - dx ≤ eps ∧ ⌈dy⌉ - dy ≤ eps) → ∀ y x, m.has y x →
        o.px y x =
          (1 - (⌈dy⌉ - dy)) * ((1 - (⌈dx⌉ - dx)) * seen b m ⌈dx⌉ ⌈dy⌉ (y - ⌈dy⌉) (x - ⌈dx⌉) +
            (⌈dx⌉ - dx) * seen b m ⌈dx⌉ ⌈dy⌉ (y - ⌈dy⌉) (x - ⌈dx⌉ + 1)) +
          (⌈dy⌉ - dy) * ((1 - (⌈dx⌉ - dx)) * seen b m ⌈dx⌉ ⌈dy⌉ (y - ⌈dy⌉ + 1) (x - ⌈dx⌉) +
            (⌈dx⌉ - dx) * seen b m ⌈dx⌉ ⌈dy⌉ (y - ⌈dy⌉ + 1) (x - ⌈dx⌉ + 1))) := by
  unfold shift
  rw [if_pos ⟨hx, hy⟩]
  dsimp only
  rw [sub_ceil, sub_ceil]
  generalize hix : ⌈dx⌉ = ix
  generalize hiy : ⌈dy⌉ = iy
  generalize hP : copyMakeBorder b m _ _ _ _ = P
  have hPr : (P.rows : Int) = m.rows + max iy 0 + max (-iy) 0 := by
    rw [← hP]
    simp only [copyMakeBorder]
    split_ifs <;> omega
  have hPc : (P.cols : Int) = m.cols + max ix 0 + max (-ix) 0 := by
    rw [← hP]
    simp only [copyMakeBorder]
    split_ifs <;> omega
  have hPx : ∀ y x, P.px (max (-iy) 0 + y) (max (-ix) 0 + x) = extend b m (y - iy) (x - ix) := by
    intro y x
    rw [← hP]
    simp only [copyMakeBorder]
    congr 1 <;> split_ifs <;> omega
  have seenP : ∀ y x, 0 ≤ y → 0 ≤ x →
      (if P.has (max (-iy) 0 + y) (max (-ix) 0 + x) then
        P.px (max (-iy) 0 + y) (max (-ix) 0 + x) else 0) = seen b m ix iy (y - iy) (x - ix) := by
    intro y x h0 h1
    have : (P.has (max (-iy) 0 + y) (max (-ix) 0 + x) = true) ↔
        (x - ix < m.cols + max (-ix) 0 ∧ y - iy < m.rows + max (-iy) 0) := by
      rw [has_iff, hPr, hPc]
      omega
    simp only [seen, this, hPx]
  have roiP : ∀ (f : Int → Int → ℚ), roi ⟨P.rows, P.cols, f⟩ (max (-iy) 0) (max (-ix) 0) m.rows m.cols
      = some ⟨m.rows, m.cols, fun r c => f (max (-iy) 0 + r) (max (-ix) 0 + c)⟩ := by
    intro f
    unfold roi
    rw [if_pos (by dsimp only; rw [hPr, hPc]; omega)]
    simp
  by_cases hs : (ix : ℚ) - dx ≤ eps ∧ (iy : ℚ) - dy ≤ eps
  · have h1 : decide (eps < (ix : ℚ) - dx) = false := decide_eq_false (not_lt.mpr hs.1)
    have h2 : decide (eps < (iy : ℚ) - dy) = false := decide_eq_false (not_lt.mpr hs.2)
    rw [h1, h2]
    refine ⟨⟨m.rows, m.cols, fun r c => P.px (max (-iy) 0 + r) (max (-ix) 0 + c)⟩, ?_, rfl, rfl,
      ?_, fun h => absurd hs h⟩
    · have := roiP P.px
      simp only [Bool.or_self, Bool.false_eq_true, if_false, Bool.false_and]
      rw [show P = ⟨P.rows, P.cols, P.px⟩ from rfl, this]
      rfl
    · intro _ _ y x _
      exact hPx y x
  · have h1 : (decide (eps < (ix : ℚ) - dx) || decide (eps < (iy : ℚ) - dy)) = true := by
      rw [not_and_or, not_le, not_le] at hs
      simpa using hs
    rw [h1]
    simp only [if_true, Bool.true_and, sepFilter2]
    rw [roiP]
    refine ⟨_, rfl, rfl, rfl, fun h h' => absurd ⟨h, h'⟩ hs, ?_⟩
    · intro _ y x h
      rw [has_iff] at h
      obtain ⟨⟨a, -⟩, c, -⟩ := h
      dsimp only
      rw [add_assoc (max (-iy) 0), add_assoc (max (-ix) 0), seenP _ _ a c, seenP _ _ a (by omega),
        seenP _ _ (by omega) c, seenP _ _ (by omega) (by omega),
        show x + 1 - ix = x - ix + 1 by ring, show y + 1 - iy = y - iy + 1 by ring]

theorem shift_cases (isInt : Bool) (m : Img ℚ) (dx dy : ℚ) (b : Border ℚ) :
    (shift isInt m dx dy b = none ↔ (m.cols : ℚ) ≤ |dx| ∨ (m.rows : ℚ) ≤ |dy|) := by
  by_cases h : |dx| < (m.cols : ℚ) ∧ |dy| < (m.rows : ℚ)
  · obtain ⟨o, ho, -⟩ := shift_view isInt m dx dy b h.1 h.2
    rw [ho]
    simp [h]
  · have h' := h
    rw [not_and_or, not_lt, not_lt] at h
    simp only [h, iff_true]
    unfold shift
    rw [if_neg h']

/-- C51: a shift is rejected exactly if it is at least as large as the image in one direction. -/
theorem shift_rejects (isInt : Bool) (m : Img ℚ) (dx dy : ℚ) (b : Border ℚ) :
    shift isInt m dx dy b = none ↔ (m.cols : ℚ) ≤ |dx| ∨ (m.rows : ℚ) ≤ |dy| :=
  shift_cases isInt m dx dy b

/-- C51: a shift by whole pixels keeps the type and size, moves every pixel whose target is
inside the image, and fills the rest with the border value, or with the pixel the border mode
maps the position to. -/
theorem shift_integer (isInt : Bool) (m : Img ℚ) (dx dy : Int) (b : Border ℚ)
    (hx : |dx| < m.cols) (hy : |dy| < m.rows) :
    ∃ o, shift isInt m dx dy b = some (o, false) ∧ o.rows = m.rows ∧ o.cols = m.cols ∧
      (∀ y x, m.has y x → m.has (y + dy) (x + dx) → o.px (y + dy) (x + dx) = m.px y x) ∧
      (∀ y x, m.has y x → ¬ m.has (y - dy) (x - dx) →
        (∀ v, b = .constant v → o.px y x = v) ∧
        (∀ ip, b = .interp ip → o.px y x = m.px (ip (y - dy) m.rows) (ip (x - dx) m.cols))) := by
  have hx' : |(dx : ℚ)| < m.cols := by exact_mod_cast hx
  have hy' : |(dy : ℚ)| < m.rows := by exact_mod_cast hy
  obtain ⟨o, ho, hr, hc, h, -⟩ := shift_view isInt m dx dy b hx' hy'
  have e0 : (0 : ℚ) ≤ eps := by unfold eps; norm_num
  have n0 : ¬ eps < (0 : ℚ) := not_lt.mpr e0
  simp only [Int.ceil_intCast, sub_self, n0, decide_false, Bool.or_self, Bool.false_and] at ho h
  refine ⟨o, ho, hr, hc, ?_, ?_⟩
  · intro y x h1 h2
    rw [h e0 e0 _ _ h2, show y + dy - dy = y by ring, show x + dx - dx = x by ring]
    exact if_pos h1
  · intro y x h1 h2
    rw [h e0 e0 _ _ h1]
    unfold extend
    rw [if_neg h2]
    refine ⟨?_, ?_⟩
    · rintro v rfl; rfl
    · rintro ip rfl; rfl

/-- C51: shifting by the opposite amount restores every pixel that was not pushed out of the
image. -/
theorem shift_back (isInt : Bool) (m : Img ℚ) (dx dy : Int) (b b' : Border ℚ)
    (hx : |dx| < m.cols) (hy : |dy| < m.rows) :
    ∃ o o', shift isInt m dx dy b = some (o, false) ∧
      shift isInt o (-dx) (-dy) b' = some (o', false) ∧ o'.rows = m.rows ∧ o'.cols = m.cols ∧
      ∀ y x, m.has y x → m.has (y + dy) (x + dx) → o'.px y x = m.px y x := by
  obtain ⟨o, ho, hr, hc, h, -⟩ := shift_integer isInt m dx dy b hx hy
  obtain ⟨o', ho', hr', hc', h', -⟩ := shift_integer isInt o (-dx) (-dy) b'
    (by rw [abs_neg, hc]; exact hx) (by rw [abs_neg, hr]; exact hy)
  refine ⟨o, o', ho, by simpa using ho', by rw [hr', hr], by rw [hc', hc], ?_⟩
  intro y x h1 h2
  have hs : ∀ a b, o.has a b = m.has a b := by intro a b; simp [Img.has, hr, hc]
  have := h' (y + dy) (x + dx) (by rw [hs]; exact h2) (by rw [hs]; simpa using h1)
  rw [show y + dy + -dy = y by ring, show x + dx + -dx = x by ring] at this
  rw [this, h y x h1 h2]

theorem floor_sub_int (x : Int) (d : ℚ) :
    ⌊(x : ℚ) - d⌋ = x - ⌈d⌉ ∧ Int.fract ((x : ℚ) - d) = ⌈d⌉ - d := by
  have h : ⌊(x : ℚ) - d⌋ = x - ⌈d⌉ := by
    rw [sub_eq_add_neg, Int.floor_intCast_add, Int.floor_neg]; ring
  refine ⟨h, ?_⟩
  rw [← Int.self_sub_floor, h]
  push_cast
  ring

/-- C80 (partial): a fractional shift interpolates the extended image bilinearly at the
displaced position.  Missing: the last column (row) when its displacement is negative, see
`shift_fill_refuted`. -/
theorem shift_bilinear_partial (isInt : Bool) (m : Img ℚ) (dx dy : ℚ) (b : Border ℚ)
    (hx : |dx| < m.cols) (hy : |dy| < m.rows) (hf : eps < ⌈dx⌉ - dx ∨ eps < ⌈dy⌉ - dy) :
    ∃ o, shift isInt m dx dy b = some (o, isInt) ∧ o.rows = m.rows ∧ o.cols = m.cols ∧
      ∀ y x : Int, m.has y x → (x + 1 < m.cols ∨ 0 < dx ∨ dx = ⌈dx⌉) →
        (y + 1 < m.rows ∨ 0 < dy ∨ dy = ⌈dy⌉) →
        o.px y x = bilinear (extend b m) (y - dy) (x - dx) := by
  obtain ⟨o, ho, hr, hc, -, h⟩ := shift_view isInt m dx dy b hx hy
  have hd : (decide (eps < ⌈dx⌉ - dx) || decide (eps < ⌈dy⌉ - dy)) = true := by simpa using hf
  rw [hd, Bool.true_and] at ho
  refine ⟨o, ho, hr, hc, ?_⟩
  intro y x hm h1 h2
  rw [h (by rw [not_and_or, not_le, not_le]; exact hf) y x hm]
  unfold bilinear
  rw [(floor_sub_int x dx).1, (floor_sub_int x dx).2, (floor_sub_int y dy).1, (floor_sub_int y dy).2]
  rw [has_iff] at hm
  obtain ⟨⟨hy0, hy1⟩, hx0, hx1⟩ := hm
  have cx : 0 < dx → 0 < ⌈dx⌉ := fun h => Int.ceil_pos.mpr h
  have cy : 0 < dy → 0 < ⌈dy⌉ := fun h => Int.ceil_pos.mpr h
  have s00 : ∀ v u, u < m.cols + max (-⌈dx⌉) 0 → v < m.rows + max (-⌈dy⌉) 0 →
      seen b m ⌈dx⌉ ⌈dy⌉ v u = extend b m v u := by
    intro v u a c
    exact if_pos ⟨a, c⟩
  have mx : ∀ v, v < m.rows + max (-⌈dy⌉) 0 →
      (⌈dx⌉ - dx) * seen b m ⌈dx⌉ ⌈dy⌉ v (x - ⌈dx⌉ + 1) =
      (⌈dx⌉ - dx) * extend b m v (x - ⌈dx⌉ + 1) := by
    intro v hv
    rcases h1 with h1 | h1 | h1
    · rw [s00 _ _ (by omega) hv]
    · have := cx h1
      rw [s00 _ _ (by omega) hv]
    · rw [← h1, sub_self, zero_mul, zero_mul]
  have hv0 : y - ⌈dy⌉ < m.rows + max (-⌈dy⌉) 0 := by omega
  rw [s00 _ _ (by omega) hv0, mx _ hv0]
  congr 1
  rcases h2 with h2 | h2 | h2
  · rw [s00 _ _ (by omega) (by omega), mx _ (by omega)]
  · have := cy h2
    rw [s00 _ _ (by omega) (by omega), mx _ (by omega)]
  · rw [← h2, sub_self, zero_mul, zero_mul]

/-- non-vacuity: a quarter pixel to the right on a row of three pixels -/
example : (shift true ⟨1, 3, fun _ x => (4 * x : Int)⟩ (1 / 4) 0 (.constant 8)).map
    (fun r => (r.2, r.1.px 0 0, r.1.px 0 1, r.1.px 0 2)) = some (true, 2, 3, 7) := by
  decide +kernel

/-- C80: for a shift by half a pixel to the left of a constant image with the same fill value,
the last column is not that value: the filter sees zeros beyond the image. -/
theorem shift_fill_refuted :
    ¬ ∀ (m : Img ℚ) (dx dy : ℚ) (b : Border ℚ) (o : Img ℚ) (fl : Bool),
      shift false m dx dy b = some (o, fl) → eps < ⌈dx⌉ - dx →
      ∀ y x : Int, m.has y x → o.px y x = bilinear (extend b m) (y - dy) (x - dx) := by
  intro h
  obtain ⟨o, ho, -, -, -, hv⟩ := shift_view false ⟨1, 2, fun _ _ => 7⟩ (-1 / 2) 0 (.constant 7)
    (by decide +kernel) (by decide +kernel)
  have h1 := h _ _ _ _ _ _ ho (by decide +kernel) 0 1 (by decide +kernel)
  rw [hv (by decide +kernel) 0 1 (by decide +kernel)] at h1
  revert h1
  decide +kernel

/-! ## Region copies -/

/-- the accepted calls with a region of positive size overlapping the output -/
theorem copy_core {α : Type} (src dst : Img α) (rin rout : Rect) (mask : Option (Img Bool))
    (hs : rin.w = rout.w ∧ rin.h = rout.h)
    (hd : dst.rows ≠ 0 ∧ dst.cols ≠ 0)
    (hm : ∀ m ∈ mask, m.rows = src.rows ∧ m.cols = src.cols) (w0 : 0 < rout.w) (h0 : 0 < rout.h)
    (hin : 0 ≤ rin.x ∧ 0 ≤ rin.y ∧ rin.x + rin.w ≤ src.cols ∧ rin.y + rin.h ≤ src.rows)
    (hov : ¬ (rout.x + rout.w ≤ 0 ∨ (dst.cols : Int) ≤ rout.x ∨ rout.y + rout.h ≤ 0 ∨
      (dst.rows : Int) ≤ rout.y)) :
    ∃ i o, clip dst.rows dst.cols rin rout = (i, o) ∧
      (∀ y x, o.Contains y x ↔ rout.Contains y x ∧ dst.has y x = true) ∧
      i.x - o.x = rin.x - rout.x ∧ i.y - o.y = rin.y - rout.y ∧ i.w = o.w ∧ i.h = o.h ∧
      0 < o.w ∧ 0 < o.h ∧
      roi src i.y i.x i.h i.w = some ⟨o.h.toNat, o.w.toNat, fun r c => src.px (i.y + r) (i.x + c)⟩ ∧
      roi dst o.y o.x o.h o.w = some ⟨o.h.toNat, o.w.toNat, fun r c => dst.px (o.y + r) (o.x + c)⟩ ∧
      ∀ m ∈ mask, roi m i.y i.x i.h i.w =
        some ⟨o.h.toNat, o.w.toNat, fun r c => m.px (i.y + r) (i.x + c)⟩ := by
  rcases hcl : clip dst.rows dst.cols rin rout with ⟨i, o⟩
  obtain ⟨ox, ow, oy, oh, dx, dy, ew, eh, pw, ph⟩ := clip_spec dst.rows dst.cols rin rout hs.1 hs.2 w0 h0
    hd.1 hd.2 (by omega) (by omega) (by omega) (by omega) i o hcl
  refine ⟨i, o, rfl, ?_, dx, dy, ew, eh, pw, ph, ?_, ?_, ?_⟩
  · intro y x
    rw [has_iff]
    unfold Rect.Contains
    omega
  · unfold roi
    rw [if_pos (by omega), ew, eh]
  · unfold roi
    rw [if_pos (by omega)]
  · intro m hmm
    have := hm m hmm
    unfold roi
    rw [if_pos (by omega), ew, eh]

theorem mul_pos_cases {w h : Int} (hp : 0 < w * h) : (0 < w ∧ 0 < h) ∨ (w < 0 ∧ h < 0) := by
  rcases lt_trichotomy w 0 with a | a | a
  · right
    refine ⟨a, ?_⟩
    by_contra hc
    have := mul_nonpos_of_nonpos_of_nonneg a.le (not_lt.mp hc)
    omega
  · simp [a] at hp
  · left
    refine ⟨a, ?_⟩
    by_contra hc
    have := mul_nonpos_of_nonneg_of_nonpos a.le (not_lt.mp hc)
    omega

/-- C51: which region copies are accepted, for regions of positive size. -/
theorem copy_accepts {α : Type} (src dst : Img α) (rin rout : Rect) (mask : Option (Img Bool))
    (w0 : 0 < rin.w) (h0 : 0 < rin.h) :
    (∃ r, copyValid src rin dst rout mask = some r) ↔
      (src.rows ≠ 0 ∧ src.cols ≠ 0 ∧ dst.rows ≠ 0 ∧ dst.cols ≠ 0) ∧
      (rin.w = rout.w ∧ rin.h = rout.h) ∧
      (∀ m ∈ mask, m.rows = src.rows ∧ m.cols = src.cols) ∧
      0 ≤ rin.x ∧ 0 ≤ rin.y ∧ rin.x + rin.w ≤ src.cols ∧ rin.y + rin.h ≤ src.rows := by
  unfold copyValid
  have ha : ¬ rin.w * rin.h ≤ 0 := not_le.mpr (Int.mul_pos w0 h0)
  by_cases c1 : src.rows ≠ 0 ∧ src.cols ≠ 0 ∧ dst.rows ≠ 0 ∧ dst.cols ≠ 0
  swap
  · rw [if_pos c1]; simp only [c1, false_and, iff_false]; rintro ⟨r, hr⟩; cases hr
  rw [if_neg (not_not.mpr c1)]
  by_cases c2 : rin.w = rout.w ∧ rin.h = rout.h
  swap
  · rw [if_pos c2]; simp only [c2, false_and, and_false, iff_false]; rintro ⟨r, hr⟩; cases hr
  rw [if_neg (not_not.mpr c2)]
  by_cases c3 : ∀ m ∈ mask, m.rows = src.rows ∧ m.cols = src.cols
  swap
  · rw [if_pos c3]; simp only [c3, false_and, and_false, iff_false]; rintro ⟨r, hr⟩; cases hr
  rw [if_neg (not_not.mpr c3), if_neg ha]
  by_cases c4 : 0 ≤ rin.x ∧ 0 ≤ rin.y ∧ rin.x + rin.w ≤ src.cols ∧ rin.y + rin.h ≤ src.rows
  swap
  · rw [if_pos c4]; simp only [c4, and_false, iff_false]; rintro ⟨r, hr⟩; cases hr
  rw [if_neg (not_not.mpr c4)]
  refine ⟨fun _ => ⟨c1, c2, c3, c4⟩, fun _ => ?_⟩
  split
  · exact ⟨_, rfl⟩
  · rename_i c5
    obtain ⟨i, o, hc, -, -, -, -, -, -, -, h1, h2, h3⟩ := copy_core src dst rin rout mask c2
      ⟨c1.2.2.1, c1.2.2.2⟩ c3 (by omega) (by omega) c4 c5
    rw [hc]
    simp only [h1, h2, bind, Option.bind]
    cases mask with
    | none => exact ⟨_, rfl⟩
    | some m =>
      simp only [h3 m rfl]
      exact ⟨_, rfl⟩

theorem card_region {α : Type} (dst : Img α) (rin rout o i : Rect) (mask : Option (Img Bool))
    (hc : ∀ y x, o.Contains y x ↔ rout.Contains y x ∧ dst.has y x = true)
    (dx : i.x - o.x = rin.x - rout.x) (dy : i.y - o.y = rin.y - rout.y) (w0 : 0 < o.w) (h0 : 0 < o.h) :
    (written dst rin rout mask).card = ((Finset.range o.h.toNat ×ˢ Finset.range o.w.toNat).filter
      (fun p => selected mask (i.y + (p.1 : Nat)) (i.x + (p.2 : Nat)) = true)).card := by
  symm
  apply Finset.card_bij (fun p _ => (o.y + (p.1 : Int), o.x + (p.2 : Int)))
  · rintro ⟨r, c⟩ hp
    simp only [Finset.mem_filter, Finset.mem_product, Finset.mem_range] at hp
    have hin : o.Contains (o.y + (r : Int)) (o.x + (c : Int)) := by
      unfold Rect.Contains; omega
    obtain ⟨ho, hh⟩ := (hc _ _).mp hin
    rw [has_iff] at hh
    simp only [written, Finset.mem_filter, Finset.mem_product, Finset.mem_Ico]
    refine ⟨⟨hh.1, hh.2⟩, ho, ?_⟩
    rw [show o.y + (r : Int) - rout.y + rin.y = i.y + r by omega,
      show o.x + (c : Int) - rout.x + rin.x = i.x + c by omega]
    exact hp.2
  · rintro ⟨r, c⟩ _ ⟨r', c'⟩ _ h
    simp only [Prod.mk.injEq] at h ⊢
    omega
  · rintro ⟨y, x⟩ hp
    simp only [written, Finset.mem_filter, Finset.mem_product, Finset.mem_Ico] at hp
    have hin : o.Contains y x := (hc _ _).mpr ⟨hp.2.1, by rw [has_iff]; exact ⟨hp.1.1, hp.1.2⟩⟩
    unfold Rect.Contains at hin
    refine ⟨((y - o.y).toNat, (x - o.x).toNat), ?_, ?_⟩
    · simp only [Finset.mem_filter, Finset.mem_product, Finset.mem_range]
      refine ⟨by omega, ?_⟩
      rw [show i.y + ((y - o.y).toNat : Int) = y - rout.y + rin.y by omega,
        show i.x + ((x - o.x).toNat : Int) = x - rout.x + rin.x by omega]
      exact hp.2.2
    · simp only [Prod.mk.injEq]
      omega

/-- C51: an accepted region copy writes exactly the selected positions of the output region that
lie inside the output image, each with the corresponding input pixel; it returns their number,
and the valid region is the part of the output region inside the image. -/
theorem copy_valid {α : Type} (src dst : Img α) (rin rout : Rect) (mask : Option (Img Bool))
    (r : Copied α) (h : copyValid src rin dst rout mask = some r) :
    r.out.rows = dst.rows ∧ r.out.cols = dst.cols ∧
    (∀ y x, dst.has y x → r.out.px y x =
      if (y, x) ∈ written dst rin rout mask then src.px (y - rout.y + rin.y) (x - rout.x + rin.x)
      else dst.px y x) ∧
    (∀ p ∈ written dst rin rout mask, src.has (p.1 - rout.y + rin.y) (p.2 - rout.x + rin.x)) ∧
    (∀ y x, r.valid.Contains y x ↔ rout.Contains y x ∧ dst.has y x = true) ∧
    r.count = (written dst rin rout mask).card := by
  unfold copyValid at h
  by_cases c1 : src.rows ≠ 0 ∧ src.cols ≠ 0 ∧ dst.rows ≠ 0 ∧ dst.cols ≠ 0
  swap
  · rw [if_pos c1] at h; cases h
  rw [if_neg (not_not.mpr c1)] at h
  by_cases c2 : rin.w = rout.w ∧ rin.h = rout.h
  swap
  · rw [if_pos c2] at h; cases h
  rw [if_neg (not_not.mpr c2)] at h
  by_cases c3 : ∀ m ∈ mask, m.rows = src.rows ∧ m.cols = src.cols
  swap
  · rw [if_pos c3] at h; cases h
  rw [if_neg (not_not.mpr c3)] at h
  -- nothing to copy
  have hnone : (∀ y x, ¬ (rout.Contains y x ∧ dst.has y x = true)) →
      r = ⟨dst, ⟨rout.x, rout.y, 0, 0⟩, 0⟩ → 
      r.out.rows = dst.rows ∧ r.out.cols = dst.cols ∧
      (∀ y x, dst.has y x → r.out.px y x =
        if (y, x) ∈ written dst rin rout mask then src.px (y - rout.y + rin.y) (x - rout.x + rin.x)
        else dst.px y x) ∧
      (∀ p ∈ written dst rin rout mask, src.has (p.1 - rout.y + rin.y) (p.2 - rout.x + rin.x)) ∧
      (∀ y x, r.valid.Contains y x ↔ rout.Contains y x ∧ dst.has y x = true) ∧
      r.count = (written dst rin rout mask).card := by
    rintro hno rfl
    have hw : written dst rin rout mask = ∅ := by
      rw [Finset.eq_empty_iff_forall_notMem]
      rintro ⟨y, x⟩ hp
      simp only [written, Finset.mem_filter, Finset.mem_product, Finset.mem_Ico] at hp
      exact hno y x ⟨hp.2.1, by rw [has_iff]; exact ⟨hp.1.1, hp.1.2⟩⟩
    refine ⟨rfl, rfl, fun y x _ => by simp [hw], by simp [hw], ?_, by simp [hw]⟩
    intro y x
    refine ⟨fun hc => ?_, fun hc => absurd hc (hno y x)⟩
    unfold Rect.Contains at hc
    dsimp only at hc
    omega
  by_cases c4 : rin.w * rin.h ≤ 0
  · rw [if_pos c4] at h
    refine hnone ?_ (Option.some.inj h).symm
    rintro y x ⟨hc, -⟩
    unfold Rect.Contains at hc
    have : 0 < rin.w * rin.h := Int.mul_pos (by omega) (by omega)
    omega
  rw [if_neg c4] at h
  by_cases c5 : 0 ≤ rin.x ∧ 0 ≤ rin.y ∧ rin.x + rin.w ≤ src.cols ∧ rin.y + rin.h ≤ src.rows
  swap
  · rw [if_pos c5] at h; cases h
  rw [if_neg (not_not.mpr c5)] at h
  by_cases c6 : rout.x + rout.w ≤ 0 ∨ (dst.cols : Int) ≤ rout.x ∨ rout.y + rout.h ≤ 0 ∨
      (dst.rows : Int) ≤ rout.y
  · rw [if_pos c6] at h
    refine hnone ?_ (Option.some.inj h).symm
    rintro y x ⟨hc, hh⟩
    rw [has_iff] at hh
    unfold Rect.Contains at hc
    omega
  rw [if_neg c6] at h
  rcases mul_pos_cases (not_le.mp c4) with ⟨w0, h0⟩ | ⟨w0, h0⟩
  swap
  · -- two negative sides: the views are rejected
    exfalso
    rcases hcl : clip dst.rows dst.cols rin rout with ⟨i, o⟩
    rw [hcl] at h
    simp only [bind, Option.bind] at h
    have : roi src i.y i.x i.h i.w = none := by
      unfold roi
      rw [if_neg]
      have : i.w < 0 := by
        have := congrArg (fun p => p.1.w) hcl
        unfold clip at this
        by_cases a : rout.x < 0 <;> by_cases b : rout.y < 0 <;>
          simp only [a, b, if_true, if_false] at this <;> split_ifs at this <;>
          dsimp only at this <;> omega
      omega
    rw [this] at h
    cases h
  obtain ⟨i, o, hcl, hcont, dx, dy, ew, eh, pw, ph, h1, h2, h3⟩ := copy_core src dst rin rout mask c2
    ⟨c1.2.2.1, c1.2.2.2⟩ c3 (by omega) (by omega) c5 c6
  rw [hcl] at h
  simp only [h1, h2, bind, Option.bind] at h
  have memW : ∀ y x, dst.has y x = true → ((y, x) ∈ written dst rin rout mask ↔
      o.Contains y x ∧ selected mask (y - rout.y + rin.y) (x - rout.x + rin.x) = true) := by
    intro y x hh
    have hh' := hh
    rw [has_iff] at hh'
    simp only [written, Finset.mem_filter, Finset.mem_product, Finset.mem_Ico, hcont, hh, and_true]
    exact ⟨fun a => a.2, fun a => ⟨⟨hh'.1, hh'.2⟩, a⟩⟩
  have hsrc : ∀ p ∈ written dst rin rout mask, src.has (p.1 - rout.y + rin.y) (p.2 - rout.x + rin.x) = true := by
    rintro ⟨y, x⟩ hp
    simp only [written, Finset.mem_filter, Finset.mem_product, Finset.mem_Ico] at hp
    have := hp.2.1
    unfold Rect.Contains at this
    rw [has_iff]
    dsimp only
    omega
  have hcard := card_region dst rin rout o i mask hcont dx dy pw ph
  have hpx : ∀ (sel : Int → Int → Bool),
      (∀ a b, 0 ≤ a → 0 ≤ b → sel a b = selected mask (i.y + a) (i.x + b)) →
      ∀ y x, dst.has y x = true →
      (copyTo ⟨o.h.toNat, o.w.toNat, fun r c => src.px (i.y + r) (i.x + c)⟩ sel dst o.y o.x).px y x =
      if (y, x) ∈ written dst rin rout mask then src.px (y - rout.y + rin.y) (x - rout.x + rin.x)
      else dst.px y x := by
    intro sel hsel y x hh
    unfold copyTo
    dsimp only
    have hb : ((Img.has ⟨o.h.toNat, o.w.toNat, fun r c => src.px (i.y + r) (i.x + c)⟩ (y - o.y) (x - o.x) &&
        sel (y - o.y) (x - o.x)) = true) ↔ (y, x) ∈ written dst rin rout mask := by
      rw [memW y x hh, Bool.and_eq_true, has_iff]
      dsimp only
      constructor
      · rintro ⟨a, b⟩
        refine ⟨by unfold Rect.Contains; omega, ?_⟩
        rw [hsel _ _ (by omega) (by omega)] at b
        rw [show y - rout.y + rin.y = i.y + (y - o.y) by omega,
          show x - rout.x + rin.x = i.x + (x - o.x) by omega]
        exact b
      · rintro ⟨a, b⟩
        unfold Rect.Contains at a
        refine ⟨by omega, ?_⟩
        rw [hsel _ _ (by omega) (by omega), show i.y + (y - o.y) = y - rout.y + rin.y by omega,
          show i.x + (x - o.x) = x - rout.x + rin.x by omega]
        exact b
    rw [show i.y + (y - o.y) = y - rout.y + rin.y by omega,
      show i.x + (x - o.x) = x - rout.x + rin.x by omega]
    by_cases hw : (y, x) ∈ written dst rin rout mask
    · rw [if_pos (hb.mpr hw), if_pos hw]
    · rw [if_neg (fun q => hw (hb.mp q)), if_neg hw]
  cases hmask : mask with
  | none =>
    rw [hmask] at h
    dsimp only at h
    obtain rfl := Option.some.inj h
    refine ⟨rfl, rfl, ?_, hmask ▸ hsrc, hcont, ?_⟩
    · rw [← hmask]
      exact hpx _ (by intros; rw [hmask])
    · rw [← hmask, hcard, hmask]
      simp only [selected, Finset.filter_true, Finset.card_product, Finset.card_range]
      push_cast
      rw [Int.toNat_of_nonneg pw.le, Int.toNat_of_nonneg ph.le, mul_comm]
  | some m =>
    rw [hmask] at h
    dsimp only at h
    rw [h3 m (by rw [hmask]; rfl)] at h
    obtain rfl := Option.some.inj h
    refine ⟨rfl, rfl, ?_, hmask ▸ hsrc, hcont, ?_⟩
    · rw [← hmask]
      exact hpx _ (by intros; rw [hmask]; rfl)
    · rw [← hmask, hcard, hmask]
      dsimp only
      rw [countNonZero_card]
      rfl

/-- non-vacuity: a 2x2 region half outside of the output image, with a mask -/
example : (copyValid (α := Int) ⟨3, 3, fun y x => 10 * y + x⟩ ⟨1, 1, 2, 2⟩ ⟨4, 4, fun _ _ => -1⟩
    ⟨-1, 2, 2, 2⟩ (some ⟨3, 3, fun y _ => y == 1⟩)).map
      (fun r => (r.out.px 2 0, r.out.px 3 0, r.valid, r.count)) = some (12, -1, ⟨0, 2, 1, 2⟩, 1) := by
  decide +kernel

end Litiv.Shift
