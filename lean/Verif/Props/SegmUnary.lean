import Verif.Lemmas.SegmUnary

/-!
# C150, C151: initial disparities and costs of stereo labels
-/

namespace Litiv.SegmUnary
open Spec Litiv.SegmProj

/-! ## C150: the initial disparities -/

/-- A pixel without a label takes the cheapest one, the smallest one of them; others keep theirs. -/
theorem initial_is_best (c : Cfg) (roi : Nat → Bool) (k : Nat) (p : Px) (old : Nat) :
    (old = c.dontCare → Best (unary c roi k p) (initial c roi k p old)) ∧
    (old ≠ c.dontCare → initial c roi k p old = old) := by
  unfold initial
  refine ⟨fun h => ?_, fun h => if_neg h⟩
  rw [if_pos h]
  exact wta_spec _ (by rw [unary_length]; omega)

/-- What is in view (the flag used below): the match lies in the other image and in its region of interest. -/
theorem in_view_exact (c : Cfg) (roi : Nat → Bool) (k l : Nat) : inView c roi k l = true ↔ Visible c roi k l :=
  view_iff c roi k l

/-- The costs that are compared: disparities seen by both cameras cost what their match costs, whatever the other labels;
reserved labels cost 10000. -/
theorem cost_of_label (c : Cfg) (roi : Nat → Bool) (k : Nat) (p : Px) :
    (unary c roi k p).length = c.nReal + 2 ∧
    (∀ l, l < c.nReal → inView c roi k l = true → (unary c roi k p).getD l 0 = matchCost c p l) ∧
    (unary c roi k p).getD c.dontCare 0 = 10000 ∧ (unary c roi k p).getD c.occluded 0 = 10000 := by
  refine ⟨unary_length c roi k p, fun l h1 h2 => ?_, ?_, ?_⟩
  · rw [unary_real c roi k p l h1, if_pos h2]
  · exact unary_reserved c roi k p _ (Nat.le_refl _) (Nat.lt_add_of_pos_right (by decide))
  · exact unary_reserved c roi k p _ (Nat.le_succ _) (Nat.lt_succ_self _)

/-- A pixel gets a disparity, not a reserved label, if some disparity costs at most 10000. -/
theorem initial_is_disparity (c : Cfg) (roi : Nat → Bool) (k : Nat) (p : Px)
    (h : ∃ l, l < c.nReal ∧ (unary c roi k p).getD l 0 ≤ 10000) : initial c roi k p c.dontCare < c.nReal := by
  obtain ⟨l, h1, h2⟩ := h
  obtain ⟨b1, b2, b3⟩ := (initial_is_best c roi k p c.dontCare).1 rfl
  rcases Nat.lt_or_ge (initial c roi k p c.dontCare) c.nReal with g | g
  · exact g
  · have h3 := b3 l (by omega)
    rw [unary_reserved c roi k p _ g (by rw [unary_length] at b1; exact b1)] at h3
    omega

/-- In particular if the costs of matches do. -/
theorem initial_is_disparity' (c : Cfg) (roi : Nat → Bool) (k : Nat) (p : Px) (hn : 0 < c.nReal)
    (h : inView c roi k 0 = true → matchCost c p 0 ≤ 10000) : initial c roi k p c.dontCare < c.nReal := by
  refine initial_is_disparity c roi k p ⟨0, hn, ?_⟩
  rw [unary_real c roi k p 0 hn]
  by_cases hv : inView c roi k 0 = true
  · rw [if_pos hv]
    exact h hv
  · rw [if_neg hv]
    show 0 / (0 + 1) ≤ 10000
    decide

/-- two columns of the other camera are seen from column 1; four disparities -/
def demo : Cfg := ⟨1, 8, 4, 0, 1, 3, false⟩

/-- nothing tells the labels apart -/
def flat (v : Nat) : Px := ⟨fun _ => v, fun _ => 0, 0, 0⟩

example : unary demo (fun _ => true) 1 (flat 90) = [90, 90, 60, 60, 10000, 10000] := by decide +kernel
example : unary demo (fun _ => true) 7 ⟨fun l => 10 * l, fun l => 50 - 10 * l, 1, 2⟩ = [90, 70, 50, 70, 10000, 10000] ∧
    initial demo (fun _ => true) 7 ⟨fun l => 10 * l, fun l => 50 - 10 * l, 1, 2⟩ 4 = 2 := by decide +kernel
example : inView demo (fun _ => true) 1 0 = true ∧ matchCost demo (flat 90) 0 ≤ 10000 ∧ 0 < demo.nReal := by decide +kernel

/-- The initial disparity is not always one that both cameras see, even if there are some: a disparity out of view costs
less than the average of the smaller ones. -/
theorem initial_in_view_refuted :
    ¬∀ (c : Cfg) (roi : Nat → Bool) (k : Nat) (p : Px), (∃ l, l < c.nReal ∧ inView c roi k l = true ∧ matchCost c p l ≤ 10000) →
      inView c roi k (initial c roi k p c.dontCare) = true := by
  intro h
  have := h demo (fun _ => true) 1 (flat 90) ⟨0, by decide, by decide +kernel, by decide +kernel⟩
  revert this
  decide +kernel

/-- What a disparity out of view costs: the sum for the smaller disparities in view, divided by one more than their
number. It is below the cost of one of them, and nothing if there are none. -/
theorem out_of_view_cost (c : Cfg) (roi : Nat → Bool) (k : Nat) (p : Px) (l : Nat) (hl : l < c.nReal)
    (ho : inView c roi k l = false) :
    (unary c roi k p).getD l 0 =
      ((seenBefore c roi k l).map (matchCost c p)).sum / ((seenBefore c roi k l).length + 1) ∧
    (∀ b, 0 < b → (∀ x, x < l → inView c roi k x = true → matchCost c p x ≤ b) → (unary c roi k p).getD l 0 < b) := by
  refine ⟨?_, fun b hb h => ?_⟩
  · rw [unary_real c roi k p l hl, if_neg (by rw [ho]; exact Bool.false_ne_true)]
  · exact Nat.lt_of_le_of_lt (out_le c roi k p l b hl ho h) (share_lt _ b hb)

/-- So wherever the matches in view all cost the same (no texture), a disparity out of view wins if there is one. -/
theorem flat_goes_out_of_view (c : Cfg) (roi : Nat → Bool) (k : Nat) (p : Px) (v : Nat) (hv : 0 < v) (hv' : v ≤ 10000)
    (hf : ∀ l, l < c.nReal → inView c roi k l = true → matchCost c p l = v)
    (ho : ∃ l, l < c.nReal ∧ inView c roi k l = false) :
    initial c roi k p c.dontCare < c.nReal ∧ inView c roi k (initial c roi k p c.dontCare) = false := by
  obtain ⟨l, h1, h2⟩ := ho
  have hlt := (out_of_view_cost c roi k p l h1 h2).2 v hv (fun x hx hi => by rw [hf x (by omega) hi])
  have hd := initial_is_disparity c roi k p ⟨l, h1, by omega⟩
  refine ⟨hd, ?_⟩
  obtain ⟨-, b2, -⟩ := (initial_is_best c roi k p c.dontCare).1 rfl
  have h3 := b2 l (by rw [unary_length]; omega)
  cases hi : inView c roi k (initial c roi k p c.dontCare) with
  | false => rfl
  | true =>
    rw [unary_real c roi k p _ hd, if_pos hi, hf _ hd hi] at h3
    omega

/-- And a pixel whose smallest disparity is out of view takes it, whatever the images. -/
theorem first_out_of_view (c : Cfg) (roi : Nat → Bool) (k : Nat) (p : Px) (hn : 0 < c.nReal) (ho : inView c roi k 0 = false) :
    initial c roi k p c.dontCare = 0 := by
  obtain ⟨-, -, b3⟩ := (initial_is_best c roi k p c.dontCare).1 rfl
  rcases Nat.eq_zero_or_pos (initial c roi k p c.dontCare) with h | h
  · exact h
  · have := b3 0 h
    rw [(out_of_view_cost c roi k p 0 hn ho).1] at this
    rw [show seenBefore c roi k 0 = [] from rfl, List.map_nil, List.sum_nil, Nat.zero_div] at this
    exact absurd this (Nat.not_lt_zero _)

/-- Partial: the initial disparity is in view if all of them are. Missing: pixels with some disparities out of view
(false). -/
theorem initial_in_view_partial (c : Cfg) (roi : Nat → Bool) (k : Nat) (p : Px)
    (hv : ∀ l, l < c.nReal → inView c roi k l = true) (h : ∃ l, l < c.nReal ∧ matchCost c p l ≤ 10000) :
    inView c roi k (initial c roi k p c.dontCare) = true ∧
    ∀ l, l < c.nReal → matchCost c p (initial c roi k p c.dontCare) ≤ matchCost c p l := by
  obtain ⟨l, h1, h2⟩ := h
  have hd := initial_is_disparity c roi k p ⟨l, h1, by rw [(cost_of_label c roi k p).2.1 l h1 (hv l h1)]; exact h2⟩
  refine ⟨hv _ hd, fun j hj => ?_⟩
  obtain ⟨-, b2, -⟩ := (initial_is_best c roi k p c.dontCare).1 rfl
  have := b2 j (by rw [unary_length]; omega)
  rw [(cost_of_label c roi k p).2.1 _ hd (hv _ hd), (cost_of_label c roi k p).2.1 j hj (hv j hj)] at this
  exact this

example : ∀ l, l < demo.nReal → inView demo (fun _ => true) 7 l = true := by decide +kernel
example : inView demo (fun j => decide (j ≠ 7)) 7 0 = false ∧ initial demo (fun j => decide (j ≠ 7)) 7 (flat 3) 4 = 0 := by
  decide +kernel

/-! ## C151: the costs of neighbouring labels -/

/-- The cost of two neighbouring disparities: none if they are equal, the same in both orders, larger if they are further
apart, and never above the largest one. -/
theorem pair_cost (fl : ℚ → ℚ) (hfl : Rounding fl) (w : ℚ) (hw : 0 ≤ w) (c : Cfg) (a b : Nat) (ha : a < c.nReal)
    (hb : b < c.nReal) :
    scaled fl w c a a = 0 ∧ scaled fl w c a b = scaled fl w c b a ∧
    (∀ d, d < c.nReal → ((a : Int) - b).natAbs ≤ ((a : Int) - d).natAbs → scaled fl w c a b ≤ scaled fl w c a d) ∧
    scaled fl w c a b ≤ ⌊fl (w * (maxDiff c * maxDiff c : Nat))⌋.toNat := by
  obtain ⟨h1, h2⟩ := hfl
  have hp : ∀ x y, x < c.nReal → y < c.nReal → pairBase c x y =
      min (((x : Int) - y).natAbs * c.step) (maxDiff c) * min (((x : Int) - y).natAbs * c.step) (maxDiff c) := by
    intro x y hx hy
    unfold pairBase realLabel
    rw [if_pos ⟨hx, hy⟩]
    dsimp only
    have e : (((c.dmin + x * c.step : Nat) : Int) - (c.dmin + y * c.step : Nat)).natAbs = ((x : Int) - y).natAbs * c.step := by
      rw [← Int.natAbs_natCast c.step, ← Int.natAbs_mul, Int.natAbs_natCast]
      congr 1
      push_cast
      ring
    rw [e]
  have hm : ∀ x y : Nat, x ≤ y → ⌊fl (w * (x : ℚ))⌋.toNat ≤ ⌊fl (w * (y : ℚ))⌋.toNat := by
    intro x y hxy
    apply Int.toNat_le_toNat
    apply Int.floor_mono
    apply h1
    exact mul_le_mul_of_nonneg_left (by exact_mod_cast hxy) hw
  refine ⟨?_, ?_, fun d hd h => ?_, ?_⟩
  · unfold scaled
    rw [hp a a ha ha, Int.sub_self]
    simp [h2]
  · unfold scaled
    rw [hp a b ha hb, hp b a hb ha, ← Int.natAbs_neg, Int.neg_sub]
  · apply hm
    rw [hp a b ha hb, hp a d ha hd]
    have : ((a : Int) - b).natAbs * c.step ≤ ((a : Int) - d).natAbs * c.step := Nat.mul_le_mul_right _ h
    exact Nat.mul_le_mul (by omega) (by omega)
  · apply hm
    rw [hp a b ha hb]
    exact Nat.mul_le_mul (Nat.min_le_right _ _) (Nat.min_le_right _ _)

/-- Reserved labels: the don't-care label next to a disparity costs 10000, the occluded label costs nothing next to any
label. -/
theorem reserved_pairs (c : Cfg) (a : Nat) (ha : a < c.nReal) :
    pairBase c c.dontCare a = 10000 ∧ pairBase c a c.dontCare = 10000 ∧ pairBase c c.dontCare c.dontCare = 0 ∧
    pairBase c c.occluded a = 0 ∧ pairBase c a c.occluded = 0 ∧ pairBase c c.occluded c.occluded = 0 ∧
    pairBase c c.dontCare c.occluded = 0 := by
  have e1 : c.dontCare = c.nReal := rfl
  have e2 : c.occluded = c.nReal + 1 := rfl
  unfold pairBase
  rw [e1, e2]
  refine ⟨?_, ?_, ?_, ?_, ?_, ?_, ?_⟩
  · rw [if_neg (by omega), if_pos (by omega)]
  · rw [if_neg (by omega), if_pos (by omega)]
  · rw [if_neg (by omega), if_neg (by omega)]
  · rw [if_neg (by omega), if_neg (by omega)]
  · rw [if_neg (by omega), if_neg (by omega)]
  · rw [if_neg (by omega), if_neg (by omega)]
  · rw [if_neg (by omega), if_neg (by omega)]

/-- The costs are not those of a distance: going through a third disparity can be cheaper. An expansion move is then not
submodular: the graph cut may leave pixels without an answer. -/
theorem triangle_refuted :
    ¬∀ (c : Cfg) (a b d : Nat), a < c.nReal → b < c.nReal → d < c.nReal →
      pairBase c a b ≤ pairBase c a d + pairBase c d b := by
  intro h
  have := h demo 0 2 1 (by decide) (by decide) (by decide)
  revert this
  decide +kernel

/-- Partial: what holds instead, twice the sum of both parts. -/
theorem triangle_partial (c : Cfg) (a b d : Nat) (ha : a < c.nReal) (hb : b < c.nReal) (hd : d < c.nReal) :
    pairBase c a b ≤ 2 * (pairBase c a d + pairBase c d b) := by
  unfold pairBase
  rw [if_pos ⟨ha, hb⟩, if_pos ⟨ha, hd⟩, if_pos ⟨hd, hb⟩]
  dsimp only
  have h : ∀ x y z : Nat, z ≤ x + y → z * z ≤ 2 * (x * x + y * y) := by
    intro x y z hz
    have h1 : z * z ≤ (x + y) * (x + y) := Nat.mul_le_mul hz hz
    have h2 : 2 * (x * y) ≤ x * x + y * y := by
      rcases Nat.le_total x y with g | g
      · obtain ⟨e, rfl⟩ := Nat.exists_eq_add_of_le g
        have : x * x + (x + e) * (x + e) = 2 * (x * (x + e)) + e * e := by ring
        omega
      · obtain ⟨e, rfl⟩ := Nat.exists_eq_add_of_le g
        have : (y + e) * (y + e) + y * y = 2 * ((y + e) * y) + e * e := by ring
        omega
    have h3 : (x + y) * (x + y) = x * x + y * y + 2 * (x * y) := by ring
    omega
  apply h
  omega

example : Rounding id := ⟨fun _ _ h => h, rfl⟩
example : scaled id (3/2) demo 0 1 = 1 ∧ scaled id (3/2) demo 0 3 = 13 := by
  unfold scaled
  refine ⟨?_, ?_⟩
  · rw [show pairBase demo 0 1 = 1 by decide +kernel]; norm_num
  · rw [show pairBase demo 0 3 = 9 by decide +kernel]; norm_num; rfl

end Litiv.SegmUnary
