import Verif.Lemmas.Maxima

/-!
# Local maxima: properties C44, C45
-/

namespace Litiv.Maxima
open Spec

/-- A 3×5 image with two peaks. -/
def peaks : Vals := fun y x => if y = 1 ∧ x = 1 then 9 else if y = 1 ∧ x = 4 then 7 else if y < 3 ∧ x < 5 then 2 else 0

/-- The mask that selects everything. -/
def full : Nat → Nat → Bool := fun _ _ => true

/-- Evaluates the result at one pixel. -/
def at? (o : Option (Nat → Nat → Bool)) (y x : Nat) : Option Bool := o.map fun (m : Nat → Nat → Bool) => m y x

/-! ## C44: non-maximum suppression -/

/-- Exact effect, for unsigned images or without a mask: the program does not write outside the matrix, and a pixel is marked iff it is
selected, it is the first maximum (in row-major order) of the selected pixels of its tile, it is strictly larger than all selected pixels
of its window in other tiles, and it is positive in case there is none of the latter. -/
theorem nms_exact (rows cols w : Nat) (f : Vals) (mask : Nat → Nat → Bool) (hp : Plain rows cols f mask) :
    ∃ out, nonMaxSuppression rows cols w f mask = some out ∧ ∀ y x, out y x = true ↔
      Selected rows cols mask (y, x) ∧
      (∀ q, Selected rows cols mask q → SameTile w (y, x) q → q ≠ (y, x) →
        f q.1 q.2 < f y x ∨ (f q.1 q.2 = f y x ∧ Before (y, x) q)) ∧
      (∀ q, Selected rows cols mask q → Near w (y, x) q → ¬ SameTile w (y, x) q → f q.1 q.2 < f y x) ∧
      ((∀ q, Selected rows cols mask q → Near w (y, x) q → SameTile w (y, x) q) → 0 < f y x) := by
  obtain ⟨out, h1, h2⟩ := nms_spec (w := w) hp
  refine ⟨out, h1, fun y x => ?_⟩
  rw [h2]
  constructor
  · rintro ⟨b, hb, hm⟩
    obtain ⟨ht, hmx, h3, h4⟩ := (markOf_iff hb).1 hm
    obtain ⟨hmem, hall⟩ := maxLoc_blockSel.1 hmx
    rw [mem_blockSel] at hmem
    refine ⟨hmem.1, fun q hq hs hne => hall q ?_ hne, h3, h4⟩
    rw [mem_blockSel, ht]
    exact ⟨hq, (sameTile_iff w (y, x) q).1 hs⟩
  · rintro ⟨hs, hall, h3, h4⟩
    have hb := tile_mem (w := w) (p := (y, x)) hs.1 hs.2.1
    refine ⟨tile w (y, x), hb, (markOf_iff hb).2 ⟨rfl, maxLoc_blockSel.2 ⟨?_, ?_⟩, h3, h4⟩⟩
    · rw [mem_blockSel]; exact ⟨hs, tile_bounds w (y, x)⟩
    · intro q hq hne
      rw [mem_blockSel] at hq
      exact hall q hq.1 ((sameTile_iff w (y, x) q).2 hq.2) hne

example : Plain 3 5 peaks full := Or.inl fun _ _ => rfl
example : at? (nonMaxSuppression 3 5 1 peaks full) 1 1 = some true ∧ at? (nonMaxSuppression 3 5 1 peaks full) 1 4 = some true ∧
    at? (nonMaxSuppression 3 5 1 peaks full) 1 2 = some false ∧ at? (nonMaxSuppression 3 5 2 peaks full) 1 4 = some true ∧
    at? (nonMaxSuppression 3 5 3 peaks full) 1 4 = some false := by decide +kernel

/-- C44 (soundness): a marked pixel is selected and no selected pixel of its window is larger; those of other tiles are strictly smaller. -/
theorem nms_sound_partial (rows cols w : Nat) (f : Vals) (mask : Nat → Nat → Bool) (hp : Plain rows cols f mask) (out : Nat → Nat → Bool)
    (h : nonMaxSuppression rows cols w f mask = some out) (y x : Nat) (hm : out y x = true) :
    Selected rows cols mask (y, x) ∧ ∀ q, Selected rows cols mask q → Near w (y, x) q →
      f q.1 q.2 ≤ f y x ∧ (¬ SameTile w (y, x) q → f q.1 q.2 < f y x) := by
  obtain ⟨out', h1, h2⟩ := nms_exact rows cols w f mask hp
  rw [h] at h1
  injection h1 with h1
  subst h1
  obtain ⟨hs, h3, h4, h5⟩ := (h2 y x).1 hm
  refine ⟨hs, fun q hq hn => ⟨?_, h4 q hq hn⟩⟩
  by_cases ht : SameTile w (y, x) q
  · by_cases e : q = (y, x)
    · subst e; exact Int.le_refl _
    · rcases h3 q hq ht e with h | h
      · exact Int.le_of_lt h
      · exact Int.le_of_eq h.1
  · exact Int.le_of_lt (h4 q hq hn ht)

/-- C44 (completeness): a selected pixel strictly larger than all other selected pixels of its (clipped) window is marked, also at the
border, if it is positive or some selected pixel of the window lies in another tile. -/
theorem nms_complete_partial (rows cols w : Nat) (f : Vals) (mask : Nat → Nat → Bool) (hp : Plain rows cols f mask)
    (out : Nat → Nat → Bool) (h : nonMaxSuppression rows cols w f mask = some out) (y x : Nat)
    (hs : StrictMax rows cols w f mask (y, x))
    (hpos : 0 < f y x ∨ ∃ q, Selected rows cols mask q ∧ Near w (y, x) q ∧ ¬ SameTile w (y, x) q) : out y x = true := by
  obtain ⟨out', h1, h2⟩ := nms_exact rows cols w f mask hp
  rw [h] at h1
  injection h1 with h1
  subst h1
  rw [h2]
  have near_of_tile : ∀ q, SameTile w (y, x) q → Near w (y, x) q := by
    intro q ht
    have h1 := tile_bounds w (y, x)
    have h2 := (sameTile_iff w (y, x) q).1 ht
    unfold Near
    omega
  refine ⟨hs.1, fun q hq ht hne => Or.inl (hs.2 q hq (near_of_tile q ht) hne), fun q hq hn ht => hs.2 q hq hn ?_, fun hall => ?_⟩
  · rintro rfl
    exact ht ⟨rfl, rfl⟩
  · rcases hpos with h | ⟨q, hq, hn, ht⟩
    · exact h
    · exact absurd (hall q hq hn) ht

example : StrictMax 3 5 1 peaks full (1, 4) := by
  refine ⟨⟨by decide, by decide, rfl⟩, fun q hq hn hne => ?_⟩
  obtain ⟨a, b⟩ := q
  simp only [Near] at hn
  obtain ⟨h1, h2, _⟩ := hq
  dsimp only at h1 h2 hn
  have : ¬ (a = 1 ∧ b = 4) := fun h => hne (by rw [h.1, h.2])
  have : ¬ (a = 1 ∧ b = 1) := by omega
  have e : peaks a b = 2 := by
    unfold peaks
    rw [if_neg ‹¬ (a = 1 ∧ b = 1)›, if_neg ‹¬ (a = 1 ∧ b = 4)›, if_pos ⟨h1, h2⟩]
  rw [e]
  decide

/-- C44 (isolation): two different marked pixels are never within the window of one another. -/
theorem nms_isolated (rows cols w : Nat) (f : Vals) (mask : Nat → Nat → Bool) (hp : Plain rows cols f mask) (out : Nat → Nat → Bool)
    (h : nonMaxSuppression rows cols w f mask = some out) (y x y' x' : Nat) (hm : out y x = true) (hm' : out y' x' = true)
    (hne : (y, x) ≠ (y', x')) : ¬ Near w (y, x) (y', x') := by
  intro hn
  obtain ⟨out', h1, h2⟩ := nms_exact rows cols w f mask hp
  rw [h] at h1
  injection h1 with h1
  subst h1
  obtain ⟨hs, h3, h4, _⟩ := (h2 y x).1 hm
  obtain ⟨hs', h3', h4', _⟩ := (h2 y' x').1 hm'
  have hn' : Near w (y', x') (y, x) := by unfold Near at hn ⊢; omega
  by_cases ht : SameTile w (y, x) (y', x')
  · have a := h3 (y', x') hs' ht fun e => hne e.symm
    have b := h3' (y, x) hs ⟨ht.1.symm, ht.2.symm⟩ hne
    unfold Before at a b
    dsimp only at a b
    omega
  · have a := h4 (y', x') hs' hn ht
    have b := h4' (y, x) hs hn' fun e => ht ⟨e.1.symm, e.2.symm⟩
    dsimp only at a b
    omega

/-- A 3×3 image with a plateau of two pixels inside one tile. -/
def plateau : Vals := fun y x => if y = 0 ∧ (x = 0 ∨ x = 1) then 5 else 0

/-- C44, what fails: a marked pixel need not be strictly larger than its neighbours (plateau inside one tile). -/
theorem nms_strict_refuted : ∃ out, nonMaxSuppression 3 3 1 plateau full = some out ∧ out 0 0 = true ∧
    ¬ StrictMax 3 3 1 plateau full (0, 0) := by
  obtain ⟨out, h, hiff⟩ := nms_exact 3 3 1 plateau full (Or.inl fun _ _ => rfl)
  refine ⟨out, h, ?_, ?_⟩
  · have : at? (nonMaxSuppression 3 3 1 plateau full) 0 0 = some true := by decide +kernel
    rw [h] at this
    simpa [at?] using this
  · rintro ⟨_, hall⟩
    have := hall (0, 1) ⟨by decide, by decide, rfl⟩ ⟨by decide, by decide, by decide, by decide⟩ (by decide)
    simp [plateau] at this

/-- C44, what fails: the strict maximum of a small image of negative values is not marked. -/
theorem nms_negative_refuted : ∃ f : Vals, StrictMax 2 2 1 f full (0, 0) ∧ at? (nonMaxSuppression 2 2 1 f full) 0 0 = some false := by
  refine ⟨fun y x => if y = 0 ∧ x = 0 then -1 else -2, ⟨⟨by decide, by decide, rfl⟩, fun q _ _ hne => ?_⟩, by decide +kernel⟩
  dsimp only
  rw [if_pos (And.intro rfl rfl), if_neg (fun h => hne (Prod.ext h.1 h.2))]
  decide

/-- C44, what fails: with negative values and a mask, a pixel that the mask excludes can be marked. -/
theorem nms_masked_out_refuted : ∃ (f : Vals) (mask : Nat → Nat → Bool), mask 1 1 = false ∧
    at? (nonMaxSuppression 4 4 1 f mask) 1 1 = some true :=
  ⟨fun _ _ => -1, fun y x => decide (y = 0 ∧ x = 2), rfl, by decide +kernel⟩

/-- C44, what fails: with negative values and a mask, the program can write outside the output matrix. -/
theorem nms_out_of_bounds_refuted : ∃ (f : Vals) (mask : Nat → Nat → Bool), nonMaxSuppression 4 4 1 f mask = none := by
  refine ⟨fun _ _ => -1, fun y x => decide (y = 0 ∧ x = 0), ?_⟩
  have : (nonMaxSuppression 4 4 1 (fun _ _ => -1) fun y x => decide (y = 0 ∧ x = 0)).isNone = true := by decide +kernel
  simpa using this

/-! ## C45: directional local maxima -/

/-- C45: along a row, a position is accepted exactly when its value exceeds the `h` values before it and is not below the `h` after it. -/
theorem horizontal_exact (h : Nat) (g : Int → Int) (i : Int) (c r : BitVec 64) (hc : h * c.toNat < 2 ^ 63) :
    isLocalMaximumHorizontal h g i c r = true ↔ PeakAlong h g i c.toNat :=
  straight_exact h g i c hc

/-- C45: the same along a column. -/
theorem vertical_exact (h : Nat) (g : Int → Int) (i : Int) (c r : BitVec 64) (hr : h * r.toNat < 2 ^ 63) :
    isLocalMaximumVertical h g i c r = true ↔ PeakAlong h g i r.toNat :=
  straight_exact h g i r hr

/-- C45: the same along the two diagonals. -/
theorem diagonal_exact (h : Nat) (g : Int → Int) (i : Int) (c r : BitVec 64) (inv : Bool) (hcr : h * (c.toNat + r.toNat) < 2 ^ 63) :
    isLocalMaximumDiagonal h g i c r inv = true ↔ PeakAlong h g i (r.toNat + (if inv then -1 else 1) * c.toNat) := by
  have bound : ∀ n, n < h → ((n + 1) * c.toNat + (n + 1) * r.toNat : Nat) < 2 ^ 63 := by
    intro n hn
    have : (n + 1) * (c.toNat + r.toNat) ≤ h * (c.toNat + r.toNat) := Nat.mul_le_mul_right _ hn
    rw [Nat.mul_add] at this
    omega
  have before : ∀ n, n < h → elem g i (toSize ((if inv then -1 else 1) * (-(n : Int) - 1)) * c + toSize (-(n : Int) - 1) * r) =
      g (i - ((n + 1 : Nat) : Int) * (r.toNat + (if inv then -1 else 1) * c.toNat)) := by
    intro n hn
    have b := bound n hn
    have e : ((if inv then -1 else 1) * (-(n : Int) - 1)) * c.toNat + (-(n : Int) - 1) * r.toNat =
        -(((n + 1 : Nat) : Int) * (r.toNat + (if inv then -1 else 1) * c.toNat)) := by push_cast; ring
    have b' : -(2 ^ 63) ≤ ((if inv then -1 else 1) * (-(n : Int) - 1)) * c.toNat + (-(n : Int) - 1) * r.toNat ∧
        ((if inv then -1 else 1) * (-(n : Int) - 1)) * c.toNat + (-(n : Int) - 1) * r.toNat < 2 ^ 63 := by
      have b1 : (((n + 1) * c.toNat : Nat) : Int) + (((n + 1) * r.toNat : Nat) : Int) < 2 ^ 63 := by omega
      have e1 : (-(n : Int) - 1) * c.toNat = -(((n + 1) * c.toNat : Nat) : Int) := by push_cast; ring
      have e2 : (-(n : Int) - 1) * r.toNat = -(((n + 1) * r.toNat : Nat) : Int) := by push_cast; ring
      cases inv
      · simp only [Bool.false_eq_true, if_false, one_mul]
        rw [e1, e2]; omega
      · simp only [if_true, neg_mul, one_mul]
        rw [e1, e2]; omega
    rw [elem, toSize_diag _ _ _ _ b'.1 b'.2, e]
    congr 1
  have after : ∀ n, n < h → elem g i (toSize ((if inv then -1 else 1) * ((n : Int) + 1)) * c + toSize ((n : Int) + 1) * r) =
      g (i + ((n + 1 : Nat) : Int) * (r.toNat + (if inv then -1 else 1) * c.toNat)) := by
    intro n hn
    have b := bound n hn
    have e : ((if inv then -1 else 1) * ((n : Int) + 1)) * c.toNat + ((n : Int) + 1) * r.toNat =
        ((n + 1 : Nat) : Int) * (r.toNat + (if inv then -1 else 1) * c.toNat) := by push_cast; ring
    have b' : -(2 ^ 63) ≤ ((if inv then -1 else 1) * ((n : Int) + 1)) * c.toNat + ((n : Int) + 1) * r.toNat ∧
        ((if inv then -1 else 1) * ((n : Int) + 1)) * c.toNat + ((n : Int) + 1) * r.toNat < 2 ^ 63 := by
      have b1 : (((n + 1) * c.toNat : Nat) : Int) + (((n + 1) * r.toNat : Nat) : Int) < 2 ^ 63 := by omega
      have e1 : ((n : Int) + 1) * c.toNat = (((n + 1) * c.toNat : Nat) : Int) := by push_cast; ring
      have e2 : ((n : Int) + 1) * r.toNat = (((n + 1) * r.toNat : Nat) : Int) := by push_cast; ring
      cases inv
      · simp only [Bool.false_eq_true, if_false, one_mul]
        rw [e1, e2]; omega
      · simp only [if_true, neg_mul, one_mul]
        rw [e1, e2]; omega
    rw [elem, toSize_diag _ _ _ _ b'.1 b'.2, e]
  unfold isLocalMaximumDiagonal
  dsimp only
  rw [Bool.and_eq_true, allOf_iff, allOf_iff, elem_zero]
  exact peak_iff h g i _ _ _ before after

/-- Values with a plateau. -/
def row : Int → Int := fun i => if i = 3 ∨ i = 4 ∨ i = 5 then 8 else if i = 2 then 1 else 0

example : isLocalMaximumHorizontal 2 row 3 1 100 = true ∧ isLocalMaximumHorizontal 2 row 4 1 100 = false ∧
    isLocalMaximumHorizontal 2 row 5 1 100 = false := by decide +kernel
example : isLocalMaximumDiagonal 2 (fun i => if i = 50 then 1 else 0) 50 1 10 true = true := by decide +kernel

/-- C45: on any line, two accepted positions are more than the half-window apart, whatever the values; in particular at most one position
of a plateau is accepted within a half-window. -/
theorem peaks_apart (h : Nat) (g : Int → Int) (i d : Int) (k : Nat) (hk : 1 ≤ k) (hk' : k ≤ h) (h1 : PeakAlong h g i d)
    (h2 : PeakAlong h g (i + k * d) d) : False := by
  have a := (h1 k hk hk').2
  have b := (h2 k hk hk').1
  rw [Int.add_sub_cancel] at b
  omega

/-- C45, for the functions: no two positions of a row at most `h` apart are both accepted. -/
theorem horizontal_apart (h : Nat) (g : Int → Int) (i : Int) (c r : BitVec 64) (hc : h * c.toNat < 2 ^ 63) (k : Nat) (hk : 1 ≤ k)
    (hk' : k ≤ h) (h1 : isLocalMaximumHorizontal h g i c r = true) : isLocalMaximumHorizontal h g (i + k * c.toNat) c r = false := by
  rw [← Bool.not_eq_true]
  intro h2
  exact peaks_apart h g i c.toNat k hk hk' ((horizontal_exact h g i c r hc).1 h1) ((horizontal_exact h g _ c r hc).1 h2)

/-- C45, for the functions: no two positions of a column at most `h` apart are both accepted. -/
theorem vertical_apart (h : Nat) (g : Int → Int) (i : Int) (c r : BitVec 64) (hr : h * r.toNat < 2 ^ 63) (k : Nat) (hk : 1 ≤ k)
    (hk' : k ≤ h) (h1 : isLocalMaximumVertical h g i c r = true) : isLocalMaximumVertical h g (i + k * r.toNat) c r = false := by
  rw [← Bool.not_eq_true]
  intro h2
  exact peaks_apart h g i r.toNat k hk hk' ((vertical_exact h g i c r hr).1 h1) ((vertical_exact h g _ c r hr).1 h2)

/-- C45, for the functions: no two positions of a diagonal at most `h` apart are both accepted. -/
theorem diagonal_apart (h : Nat) (g : Int → Int) (i : Int) (c r : BitVec 64) (inv : Bool) (hcr : h * (c.toNat + r.toNat) < 2 ^ 63)
    (k : Nat) (hk : 1 ≤ k) (hk' : k ≤ h) (h1 : isLocalMaximumDiagonal h g i c r inv = true) :
    isLocalMaximumDiagonal h g (i + k * (r.toNat + (if inv then -1 else 1) * c.toNat)) c r inv = false := by
  rw [← Bool.not_eq_true]
  intro h2
  exact peaks_apart h g i _ k hk hk' ((diagonal_exact h g i c r inv hcr).1 h1) ((diagonal_exact h g _ c r inv hcr).1 h2)

/-- A plateau at least as high as the `h` values after its first position and higher than the `h` values before it is accepted at its first
position, so detection does not lose it. -/
theorem plateau_start_accepted (h : Nat) (g : Int → Int) (i : Int) (c r : BitVec 64) (hc : h * c.toNat < 2 ^ 63)
    (hbefore : ∀ k : Nat, 1 ≤ k → k ≤ h → g (i - k * c.toNat) < g i) (hafter : ∀ k : Nat, 1 ≤ k → k ≤ h → g (i + k * c.toNat) ≤ g i) :
    isLocalMaximumHorizontal h g i c r = true :=
  (horizontal_exact h g i c r hc).2 fun k h1 h2 => ⟨hbefore k h1 h2, hafter k h1 h2⟩

end Litiv.Maxima
