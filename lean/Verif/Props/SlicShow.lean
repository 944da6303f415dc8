import Verif.Lemmas.SlicShow

/-! # Properties of the drawing of superpixels -/
namespace Litiv.SlicShow

/-! ## C119: mean colours -/

/-- **C119 (means).** For an image that is not empty and labels from -1, drawing never fails or reads out of bounds; every pixel with a label
gets the mean colour of all pixels with this label, rounded to the nearest integers, and other pixels are black. -/
theorem mean_spec (w h : Nat) (hw : 0 < w) (hh : 0 < h) (img : Nat × Nat → Color) (lab : Nat × Nat → ℤ)
    (himg : ∀ p, (img p).b ≤ 255 ∧ (img p).g ≤ 255 ∧ (img p).r ≤ 255) (hlab : ∀ p, -1 ≤ lab p) :
    ∃ out, displayMean w h img lab = some out ∧ ∀ p ∈ frame w h,
      (lab p < 0 → out p = ⟨0, 0, 0⟩) ∧
      (0 ≤ lab p → Rounded (out p).b (meanOf w h lab (fun q => (img q).b) (lab p)) ∧
        Rounded (out p).g (meanOf w h lab (fun q => (img q).g) (lab p)) ∧
        Rounded (out p).r (meanOf w h lab (fun q => (img q).r) (lab p))) := by
  have hne : pixels w h ≠ [] := by
    intro e
    have : ((0, 0) : Nat × Nat) ∈ pixels w h := mem_pixels.2 (mem_frame.2 ⟨hw, hh⟩)
    rw [e] at this
    cases this
  obtain ⟨m, em, ⟨p0, -, hp0⟩, hm⟩ := maxLabel_spec lab hne
  have hm0 := hlab p0
  unfold displayMean
  rw [em]
  simp only [Option.bind_some]
  rw [if_neg (by omega)]
  obtain ⟨v, ev, hs, hv⟩ := collectAll_spec img lab (pixels w h) ⟨(m + 1).toNat, fun _ => []⟩ (by
    intro p hp
    have := hm p hp
    dsimp only
    omega)
  rw [ev]
  refine ⟨_, rfl, fun p hp => ?_⟩
  simp only [List.nil_append] at hv
  have hv' : ∀ i, ∀ c ∈ v.at' i, lab c.1 = i := by
    intro i c hc
    rw [hv i, List.mem_map] at hc
    obtain ⟨q, hq, rfl⟩ := hc
    simpa using (List.mem_filter.1 hq).2
  obtain ⟨h1, h2⟩ := paint_spec hv' (fun _ => ⟨0, 0, 0⟩) p
  constructor
  · intro hneg
    rw [h1]
    intro i _ hi
    obtain ⟨c, hc, rfl⟩ := List.mem_map.1 hi
    have := hv' i c hc
    omega
  · intro hpos
    have hlt : (lab p).toNat < v.size := by
      have := hm p (mem_pixels.2 hp)
      rw [hs]; dsimp only; omega
    have hto : (((lab p).toNat : Nat) : ℤ) = lab p := by omega
    have hmem : p ∈ (v.at' (lab p).toNat).map Prod.fst := by
      rw [hv, List.map_map, List.mem_map]
      exact ⟨p, List.mem_filter.2 ⟨mem_pixels.2 hp, by rw [hto]; simp⟩, rfl⟩
    rw [h2 _ hlt hmem]
    have hcol : ∀ f : Color → Nat, ((v.at' (lab p).toNat).map fun c => (f c.2 : ℚ)).sum / ((v.at' (lab p).toNat).length : ℚ) =
        meanOf w h lab (fun q => f (img q)) (lab p) := by
      intro f
      obtain ⟨a1, a2⟩ := members_list (w := w) (h := h) lab (lab p) (fun q => (f (img q) : ℚ))
      unfold meanOf
      rw [hv, hto, List.map_map, List.length_map, a2, ← a1]
      rfl
    unfold meanColor
    rw [sum_colors]
    dsimp only
    simp only [zero_add]
    rw [hcol Color.b, hcol Color.g, hcol Color.r]
    have hb := mean_bounds (w := w) (h := h) lab (fun q => (img q).b) (fun q => (himg q).1) (lab p)
    have hg := mean_bounds (w := w) (h := h) lab (fun q => (img q).g) (fun q => (himg q).2.1) (lab p)
    have hr := mean_bounds (w := w) (h := h) lab (fun q => (img q).r) (fun q => (himg q).2.2) (lab p)
    exact ⟨saturate_spec hb.1 hb.2, saturate_spec hg.1 hg.2, saturate_spec hr.1 hr.2⟩

example : (displayMean 3 1 (fun p => ⟨p.1, 10 * p.1, 255⟩) (fun p => if p.1 = 2 then -1 else 0)).map
    (fun o => (List.range 3).map fun x => o (x, 0)) = some [⟨0, 5, 255⟩, ⟨0, 5, 255⟩, ⟨0, 0, 0⟩] := by decide +kernel

/-- **C119 (flat regions).** Regions that have one colour already are not changed. -/
theorem mean_flat (w h : Nat) (hw : 0 < w) (hh : 0 < h) (img : Nat × Nat → Color) (lab : Nat × Nat → ℤ)
    (himg : ∀ p, (img p).b ≤ 255 ∧ (img p).g ≤ 255 ∧ (img p).r ≤ 255) (hlab : ∀ p, -1 ≤ lab p) (out : Nat × Nat → Color)
    (e : displayMean w h img lab = some out) (p : Nat × Nat) (hp : p ∈ frame w h) (hl : 0 ≤ lab p)
    (hflat : ∀ q ∈ frame w h, lab q = lab p → img q = img p) : out p = img p := by
  obtain ⟨out', e', h1⟩ := mean_spec w h hw hh img lab himg hlab
  rw [e] at e'
  cases e'
  have hc : ∀ f : Color → Nat, meanOf w h lab (fun q => f (img q)) (lab p) = f (img p) := by
    intro f
    unfold meanOf
    have h2 : ∑ q ∈ members w h lab (lab p), (f (img q) : ℚ) = ∑ _q ∈ members w h lab (lab p), (f (img p) : ℚ) := by
      refine Finset.sum_congr rfl fun q hq => ?_
      unfold members at hq
      rw [Finset.mem_filter] at hq
      rw [hflat q hq.1 hq.2]
    have h3 : ((members w h lab (lab p)).card : ℚ) ≠ 0 := by
      have : 0 < (members w h lab (lab p)).card := Finset.card_pos.2 ⟨p, by unfold members; exact Finset.mem_filter.2 ⟨hp, rfl⟩⟩
      positivity
    rw [h2, Finset.sum_const, nsmul_eq_mul]
    field_simp
  have hr : ∀ a b : Nat, Rounded a (b : ℚ) → a = b := by
    rintro a b ⟨h1, -⟩
    rw [abs_le] at h1
    have h2 : (a : ℚ) < b + 1 := by linarith [h1.2]
    have h3 : (b : ℚ) < a + 1 := by linarith [h1.1]
    have h2' : a < b + 1 := by exact_mod_cast h2
    have h3' : b < a + 1 := by exact_mod_cast h3
    omega
  obtain ⟨a, b, c⟩ := (h1 p hp).2 hl
  rw [hc] at a b c
  have ha := hr _ _ a
  have hb := hr _ _ b
  have hc := hr _ _ c
  cases ho : out p
  cases hi : img p
  rw [ho, hi] at ha hb hc
  dsimp only at ha hb hc
  subst ha hb hc
  rfl

/-! ## C120: boundaries -/

/-- **C120 (drawn pixels).** There is a set of boundary pixels, those with at least two touching pixels of another label that do not count pixels
already drawn before; with a width of one or less the colour is drawn exactly there, with larger widths exactly on the squares of this width
around them; other pixels are not changed. -/
theorem bound_drawn (w h : Nat) (lab : Nat × Nat → ℤ) : ∃ S : Nat × Nat → Prop,
    (∀ p, S p → p ∈ frame w h) ∧
    (∀ p ∈ frame w h, S p ↔ 2 ≤ (others w h lab p fun q => ¬ (Before q p ∧ S q)).card) ∧
    ∀ (img : Nat × Nat → Color) (colour : Color) (width : ℤ), ∀ p ∈ frame w h,
      (width ≤ 1 → (S p → displayBound w h img lab colour width p = colour) ∧ (¬ S p → displayBound w h img lab colour width p = img p)) ∧
      (1 < width →
        ((∃ q, S q ∧ (p.1 : ℤ) ≤ q.1 + width / 2 ∧ q.1 + width / 2 < p.1 + width ∧ (p.2 : ℤ) ≤ q.2 + width / 2 ∧ q.2 + width / 2 < p.2 + width) →
          displayBound w h img lab colour width p = colour) ∧
        ((¬ ∃ q, S q ∧ (p.1 : ℤ) ≤ q.1 + width / 2 ∧ q.1 + width / 2 < p.1 + width ∧ (p.2 : ℤ) ≤ q.2 + width / 2 ∧ q.2 + width / 2 < p.2 + width) →
          displayBound w h img lab colour width p = img p)) := by
  obtain ⟨h1, h2⟩ := boundMask_spec (w := w) (h := h) lab
  refine ⟨fun p => boundMask w h lab p = true, h1, h2, fun img colour width p hp => ⟨fun hw => ?_, fun hw => ?_⟩⟩
  · unfold displayBound
    dsimp only
    rw [if_neg (show ¬ width > 1 by omega)]
    exact ⟨fun h => by rw [if_pos h], fun h => by rw [if_neg h]⟩
  · unfold displayBound
    dsimp only
    rw [if_pos hw]
    have key : dilate w h width.toNat (boundMask w h lab) p = true ↔ ∃ q, boundMask w h lab q = true ∧ (p.1 : ℤ) ≤ q.1 + width / 2 ∧
        q.1 + width / 2 < p.1 + width ∧ (p.2 : ℤ) ≤ q.2 + width / 2 ∧ q.2 + width / 2 < p.2 + width := by
      unfold dilate
      rw [List.any_eq_true]
      obtain ⟨n, rfl⟩ : ∃ n : Nat, width = n := ⟨width.toNat, by omega⟩
      constructor
      · rintro ⟨q, -, hq⟩
        rw [Bool.and_eq_true, decide_eq_true_eq] at hq
        refine ⟨q, hq.1, ?_⟩
        have := hq.2
        rw [Int.toNat_natCast] at this
        omega
      · rintro ⟨q, hq, hr⟩
        refine ⟨q, mem_pixels.2 (h1 q hq), ?_⟩
        rw [Bool.and_eq_true, decide_eq_true_eq, Int.toNat_natCast]
        exact ⟨hq, by omega⟩
    rw [← key]
    exact ⟨fun h => by rw [if_pos h], fun h => by rw [if_neg h]⟩

/-- **C120 (inside).** With a width of one or less, a pixel with less than two touching pixels of another label is not changed. -/
theorem bound_inside (w h : Nat) (lab : Nat × Nat → ℤ) (img : Nat × Nat → Color) (colour : Color) (width : ℤ) (hw : width ≤ 1) (p : Nat × Nat)
    (hp : p ∈ frame w h) (hin : (others w h lab p fun _ => True).card < 2) : displayBound w h img lab colour width p = img p := by
  obtain ⟨S, h1, h2, h3⟩ := bound_drawn w h lab
  refine ((h3 img colour width p hp).1 hw).2 fun hs => ?_
  have h4 := (h2 p hp).1 hs
  have h5 : (others w h lab p fun q => ¬ (Before q p ∧ S q)).card ≤ (others w h lab p fun _ => True).card := by
    apply Finset.card_le_card
    intro q hq
    rw [mem_others] at hq ⊢
    exact ⟨hq.1, hq.2.1, hq.2.2.1, trivial⟩
  omega

/-- **C120 (every boundary shows).** In an image of at least two rows and columns, if two pixels that share an edge have different labels, then the
colour is drawn on one of them or on a pixel that touches one of them. -/
theorem bound_shows (w h : Nat) (hw : 2 ≤ w) (hh : 2 ≤ h) (lab : Nat × Nat → ℤ) (img : Nat × Nat → Color) (colour : Color) (width : ℤ)
    (hwid : width ≤ 1) (p q : Nat × Nat) (hp : p ∈ frame w h) (hq : q ∈ frame w h)
    (hpq : (p.1 = q.1 ∧ p.2 + 1 = q.2) ∨ (p.2 = q.2 ∧ p.1 + 1 = q.1)) (hl : lab p ≠ lab q) :
    ∃ r ∈ frame w h, (r = p ∨ r = q ∨ Touch p r ∨ Touch q r) ∧ displayBound w h img lab colour width r = colour := by
  obtain ⟨S, h1, h2, h3⟩ := bound_drawn w h lab
  -- a pixel with two others is drawn, or one of the others is
  have two : ∀ p ∈ frame w h, ∀ a b, a ∈ frame w h → b ∈ frame w h → a ≠ b → Touch p a → Touch p b → lab a ≠ lab p → lab b ≠ lab p →
      ∃ r ∈ frame w h, (r = p ∨ Touch p r) ∧ displayBound w h img lab colour width r = colour := by
    intro p hp a b ha hb hab ta tb la lb
    by_cases hs : S p
    · exact ⟨p, hp, Or.inl rfl, ((h3 img colour width p hp).1 hwid).1 hs⟩
    · have hc : ¬ 2 ≤ (others w h lab p fun q => ¬ (Before q p ∧ S q)).card := fun h => hs ((h2 p hp).2 h)
      by_cases sa : S a
      · exact ⟨a, ha, Or.inr ta, ((h3 img colour width a ha).1 hwid).1 sa⟩
      · by_cases sb : S b
        · exact ⟨b, hb, Or.inr tb, ((h3 img colour width b hb).1 hwid).1 sb⟩
        · exfalso
          refine hc (Finset.one_lt_card.2 ⟨a, mem_others.2 ⟨ha, ta, la, fun h => sa h.2⟩, b, mem_others.2 ⟨hb, tb, lb, fun h => sb h.2⟩, hab⟩)
  -- two more pixels complete a square
  obtain ⟨r, s, hr, hs, t1, t2, t3, t4, n1, n2, n3⟩ : ∃ r s : Nat × Nat, r ∈ frame w h ∧ s ∈ frame w h ∧ Touch p r ∧ Touch p s ∧ Touch q r ∧ Touch q s ∧
      r ≠ s ∧ r ≠ q ∧ s ≠ p := by
    rw [mem_frame] at hp hq
    obtain ⟨a, b⟩ := p
    obtain ⟨c, d⟩ := q
    dsimp only at hp hq hpq
    rcases hpq with ⟨rfl, rfl⟩ | ⟨rfl, rfl⟩
    · by_cases hx : a + 1 < w
      · refine ⟨(a + 1, b), (a + 1, b + 1), ?_⟩
        simp only [mem_frame, Touch, ne_eq, Prod.mk.injEq]
        omega
      · refine ⟨(a - 1, b), (a - 1, b + 1), ?_⟩
        simp only [mem_frame, Touch, ne_eq, Prod.mk.injEq]
        omega
    · by_cases hx : b + 1 < h
      · refine ⟨(a, b + 1), (a + 1, b + 1), ?_⟩
        simp only [mem_frame, Touch, ne_eq, Prod.mk.injEq]
        omega
      · refine ⟨(a, b - 1), (a + 1, b - 1), ?_⟩
        simp only [mem_frame, Touch, ne_eq, Prod.mk.injEq]
        omega
  have tpq : Touch p q := by
    unfold Touch
    refine ⟨fun h => hl (by rw [h]), ?_⟩
    omega
  have tqp : Touch q p := by
    unfold Touch
    refine ⟨fun h => hl (by rw [h]), ?_⟩
    omega
  have hfin : (∃ x ∈ frame w h, (x = p ∨ Touch p x) ∧ displayBound w h img lab colour width x = colour) ∨
      ∃ x ∈ frame w h, (x = q ∨ Touch q x) ∧ displayBound w h img lab colour width x = colour := by
    by_cases lr : lab r = lab p
    · by_cases ls : lab s = lab p
      · exact Or.inr (two q hq r s hr hs n1 t3 t4 (by rw [lr]; exact hl) (by rw [ls]; exact hl))
      · exact Or.inl (two p hp q s hq hs (fun h => t4.1 h) tpq t2 (fun h => hl h.symm) ls)
    · exact Or.inl (two p hp q r hq hr (fun h => n2 h.symm) tpq t1 (fun h => hl h.symm) lr)
  rcases hfin with ⟨x, hx, h | h, e⟩ | ⟨x, hx, h | h, e⟩
  · exact ⟨x, hx, Or.inl h, e⟩
  · exact ⟨x, hx, Or.inr (Or.inr (Or.inl h)), e⟩
  · exact ⟨x, hx, Or.inr (Or.inl h), e⟩
  · exact ⟨x, hx, Or.inr (Or.inr (Or.inr h)), e⟩

/-- The boundary of two halves is drawn on one side. -/
example : (List.range 4).map (fun x => displayBound 4 2 (fun _ => ⟨0, 0, 0⟩) (fun p => if p.1 < 2 then 0 else 1) ⟨0, 0, 255⟩ 1 (x, 0)) =
    [⟨0, 0, 0⟩, ⟨0, 0, 255⟩, ⟨0, 0, 0⟩, ⟨0, 0, 0⟩] := by decide +kernel

/-- **C120 (refuted for one row).** In an image of one row, the boundary of two regions is not drawn. -/
theorem bound_row_refuted (img : Nat × Nat → Color) (colour : Color) (p : Nat × Nat) :
    displayBound 4 1 img (fun p => if p.1 < 2 then 0 else 1) colour 1 p = img p := by
  have h0 : ∀ q ∈ frame 4 1, boundMask 4 1 (fun p => if p.1 < 2 then 0 else 1) q = false := by decide +kernel
  unfold displayBound
  rw [if_neg (show ¬ (1 : ℤ) > 1 by decide), if_neg]
  intro e
  have := h0 p ((boundMask_spec (w := 4) (h := 1) fun p => if p.1 < 2 then 0 else 1).1 p e)
  rw [this] at e
  cases e

end Litiv.SlicShow
