import Verif.Lemmas.SlicConn

/-! # Properties of orphan pixels -/
namespace Litiv.SlicConn

/-- **C118 (labels).** If there are at least four pixels per superpixel, every pixel gets a label from zero up to the returned number. If the
returned number is zero, all labels are zero. -/
theorem enforce_labels (w h nb : Nat) (hnb : 0 < nb) (hl : 4 * nb ≤ w * h) (lab : Nat × Nat → ℤ) :
    ∃ new n, enforce w h nb lab = some (new, n) ∧ 0 ≤ n ∧ ∀ p ∈ frame w h, 0 ≤ new p ∧ (new p < n ∨ (n = 0 ∧ new p = 0)) := by
  obtain ⟨new, n, e, iv⟩ := enforce_inv hl hnb lab
  refine ⟨new, n, e, iv.pos, fun p hp => ?_⟩
  have h1 := iv.range p hp
  have h2 := iv.marked p (mem_raster.2 hp)
  have h3 := iv.pos
  dsimp only at h1 h2 h3
  omega

/-- **C118 (regions).** Pixels of the same connected region of the given labels have the same new label, and pixels with the same new label are
connected by pixels with this label. -/
theorem enforce_connected (w h nb : Nat) (hnb : 0 < nb) (hl : 4 * nb ≤ w * h) (lab new : Nat × Nat → ℤ) (n : ℤ)
    (e : enforce w h nb lab = some (new, n)) (p q : Nat × Nat) (hp : p ∈ frame w h) (hq : q ∈ frame w h) :
    (Joined w h lab p q → new p = new q) ∧ (new p = new q ↔ Joined w h new p q) := by
  obtain ⟨new', n', e', iv⟩ := enforce_inv hl hnb lab
  rw [e] at e'
  cases e'
  exact ⟨iv.comp p q, fun h => iv.conn p hp q hq h (iv.marked p (mem_raster.2 hp)), fun h => joined_lab h⟩

/-- **C118 (size).** Every new region has at least a quarter of the mean number of pixels per superpixel. -/
theorem enforce_size (w h nb : Nat) (hnb : 0 < nb) (hl : 4 * nb ≤ w * h) (lab new : Nat × Nat → ℤ) (n : ℤ)
    (e : enforce w h nb lab = some (new, n)) (p : Nat × Nat) (hp : p ∈ frame w h) :
    w * h / nb / 4 ≤ (region w h new p).card := by
  obtain ⟨new', n', e', iv⟩ := enforce_inv hl hnb lab
  rw [e] at e'
  cases e'
  have hm : ∀ p ∈ frame w h, new p ≠ -1 := fun p hp => iv.marked p (mem_raster.2 hp)
  have hr : ∀ q ∈ frame w h, new p = new q → q ∈ region w h new p := fun q hq h =>
    (mem_region hp).2 (iv.conn p hp q hq h (hm p hp))
  have h1 := iv.range p hp
  have h2 := hm p hp
  dsimp only at h1
  by_cases hlt : new p < n
  · obtain ⟨q, q1, q2, q3⟩ := iv.used (new p) (by omega) hlt
    have hsub : region w h lab q ⊆ region w h new p := by
      intro r hrr
      have hj := (mem_region q1).1 hrr
      exact hr r (hj.mem q1) (q3.symm.trans (iv.comp q r hj))
    have := Finset.card_le_card hsub
    have := q2.1
    omega
  · have hall : frame w h ⊆ region w h new p := by
      intro r hrf
      refine hr r hrf ?_
      have h3 := iv.range r hrf
      have h4 := hm r hrf
      have h5 := iv.pos
      dsimp only at h3 h5
      omega
    have h6 := Finset.card_le_card hall
    have h7 : (frame w h).card = w * h := by
      unfold frame
      rw [Finset.card_product, Finset.card_range, Finset.card_range]
    have h8 : w * h / nb / 4 ≤ w * h := (Nat.div_le_self _ _).trans (Nat.div_le_self _ _)
    omega

/-- **C118 (count).** The labels from zero up to the returned number correspond one to one to the connected regions of the given labels with at
least two pixels and at least a quarter of the mean number of pixels per superpixel. -/
theorem enforce_count (w h nb : Nat) (hnb : 0 < nb) (hl : 4 * nb ≤ w * h) (lab new : Nat × Nat → ℤ) (n : ℤ)
    (e : enforce w h nb lab = some (new, n)) :
    (∀ l, 0 ≤ l → l < n → ∃ p ∈ frame w h, new p = l ∧ 2 ≤ (region w h lab p).card ∧ w * h / nb / 4 ≤ (region w h lab p).card) ∧
    (∀ p ∈ frame w h, 2 ≤ (region w h lab p).card → w * h / nb / 4 ≤ (region w h lab p).card → new p < n) ∧
    ∀ p ∈ frame w h, ∀ q ∈ frame w h, 2 ≤ (region w h lab p).card → w * h / nb / 4 ≤ (region w h lab p).card →
      2 ≤ (region w h lab q).card → w * h / nb / 4 ≤ (region w h lab q).card → new p = new q → Joined w h lab p q := by
  obtain ⟨new', n', e', iv⟩ := enforce_inv hl hnb lab
  rw [e] at e'
  cases e'
  have hm : ∀ p ∈ frame w h, new p ≠ -1 := fun p hp => iv.marked p (mem_raster.2 hp)
  refine ⟨fun l h0 h1 => ?_, fun p hp a b => iv.large p hp ⟨by exact_mod_cast b, a⟩ (hm p hp),
    fun p hp q hq a b c d eq => iv.inj p hp q hq ⟨by exact_mod_cast b, a⟩ ⟨by exact_mod_cast d, c⟩ eq (hm p hp)⟩
  obtain ⟨p, p1, p2, p3⟩ := iv.used l h0 h1
  exact ⟨p, p1, p3, p2.2, by exact_mod_cast p2.1⟩

/-- The labels of an image with one row and columns of labels 0 and 1, with an orphan in the first half. -/
def sample (p : Nat × Nat) : ℤ := if p.1 = 1 ∨ 4 ≤ p.1 then 1 else 0

/-- The orphan gets the label of its neighbour, and so does the small region at its left. -/
example : (enforce 8 1 1 sample).map (fun r => ((List.range 8).map fun x => r.1 (x, 0), r.2)) =
    some ([0, 0, 0, 0, 1, 1, 1, 1], 2) := by decide +kernel

/-- **C118 (refuted without four pixels per superpixel).** A region of one pixel then keeps no label and is counted all the same. -/
theorem enforce_small_refuted : ∃ new, enforce 1 1 1 (fun _ => 0) = some (new, 1) ∧ new (0, 0) = -1 := ⟨_, rfl, rfl⟩

/-- **C118 (refuted: returned number).** The returned number is zero although the label zero is used, if no region is large. -/
theorem enforce_number_refuted : ∃ new, enforce 4 1 1 (fun p => p.1) = some (new, 0) ∧ ∀ p ∈ frame 4 1, new p = 0 := by
  obtain ⟨new, n, e, h0, h1⟩ := enforce_labels 4 1 1 (by decide) (by decide) (fun p => p.1)
  have hn : (enforce 4 1 1 (fun p => (p.1 : ℤ))).map Prod.snd = some 0 := by decide +kernel
  rw [e] at hn
  obtain rfl : n = 0 := Option.some.inj hn
  refine ⟨new, e, fun p hp => ?_⟩
  have := h1 p hp
  omega

end Litiv.SlicConn
