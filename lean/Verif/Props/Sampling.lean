import Verif.Lemmas.Sampling
import Mathlib.Tactic.IntervalCases

/-!
# Properties C22 and C23: sampling positions

An image position `(x, y)` is inside the image of size `w × h` with border `b` when `b ≤ x < w - b` and `b ≤ y < h - b`.
-/

namespace Litiv.Sampling

/-- `p` lies in the image of size `w × h`, at distance at least `b` from all sides. -/
def Inside (b w h : Int) (p : Int × Int) : Prop := b ≤ p.1 ∧ p.1 < w - b ∧ b ≤ p.2 ∧ p.2 < h - b

/-- `p` is in the square window of half-width `d` around `o`. -/
def InWindow (d : Int) (o p : Int × Int) : Prop := o.1 - d ≤ p.1 ∧ p.1 ≤ o.1 + d ∧ o.2 - d ≤ p.2 ∧ p.2 ≤ o.2 + d

/-- C22: clamping maps every position into the image, keeps positions inside unchanged, and never moves a position
farther (in any coordinate) from a point inside. -/
theorem clamp_spec (b w h : Int) (hw : 2 * b < w) (hh : 2 * b < h) (p : Int × Int) :
    Inside b w h (clampImageCoords p b w h) ∧ (Inside b w h p → clampImageCoords p b w h = p) ∧
    ∀ o d, Inside b w h o → InWindow d o p → InWindow d o (clampImageCoords p b w h) := by
  refine ⟨⟨(clampCoord_mem b w p.1 hw).1, (clampCoord_mem b w p.1 hw).2, (clampCoord_mem b h p.2 hh).1,
    (clampCoord_mem b h p.2 hh).2⟩, ?_, ?_⟩
  · rintro ⟨h1, h2, h3, h4⟩
    unfold clampImageCoords
    rw [clampCoord_id b w p.1 h1 h2, clampCoord_id b h p.2 h3 h4]
  · rintro o d ⟨o1, o2, o3, o4⟩ ⟨p1, p2, p3, p4⟩
    have hx := clampCoord_near b w p.1 o.1 d o1 o2 p1 p2
    have hy := clampCoord_near b h p.2 o.2 d o3 o4 p3 p4
    exact ⟨hx.1, hx.2, hy.1, hy.2⟩

example : clampImageCoords (-3, 7) 1 6 6 = (1, 4) := by decide

theorem walk3_lt (r : Int) (h0 : 0 ≤ r) (h1 : r < 256) : (walk 3 kernel3 0 (1 + r)).1 < 3 ∧ (walk 3 kernel3 0 (1 + r)).2 < 3 := by
  obtain ⟨x, y, hy, hx, hw, _, _⟩ := (walk_spec 3 kernel3 (by decide) 0 (1 + r) (by omega)).1
    (by rw [show (kernel3.map List.sum).sum = 256 from rfl]; omega)
  rw [hw, Nat.zero_add]
  refine ⟨?_, hy⟩
  have : y < 3 := hy
  interval_cases y <;> exact hx

theorem walk7_lt (r : Int) (h0 : 0 ≤ r) (h1 : r < 512) : (walk 7 kernel7 0 (1 + r)).1 < 7 ∧ (walk 7 kernel7 0 (1 + r)).2 < 7 := by
  obtain ⟨x, y, hy, hx, hw, _, _⟩ := (walk_spec 7 kernel7 (by decide) 0 (1 + r) (by omega)).1
    (by rw [show (kernel7.map List.sum).sum = 512 by decide]; omega)
  rw [hw, Nat.zero_add]
  refine ⟨?_, hy⟩
  have : y < 7 := hy
  interval_cases y <;> exact hx

/-- C22 for `getSamplePosition_3x3_std1`: for every random number, centre, border and image, the position is in the image
and in the 3x3 window of a centre that is in the image. -/
theorem sample3_in_window (rnd : Nat) (orig : Int × Int) (b w h : Int) (hw : 2 * b < w) (hh : 2 * b < h) :
    Inside b w h (samplePosition3 rnd orig b w h) ∧
    (Inside b w h orig → InWindow 1 orig (samplePosition3 rnd orig b w h)) := by
  refine ⟨(clamp_spec b w h hw hh _).1, fun ho => (clamp_spec b w h hw hh _).2.2 orig 1 ho ?_⟩
  have hm : ((rnd : Int)).tmod 256 = ((rnd % 256 : Nat) : Int) := by
    rw [Int.tmod_eq_emod_of_nonneg (by omega)]; omega
  rw [hm]
  obtain ⟨h1, h2⟩ := walk3_lt ((rnd % 256 : Nat) : Int) (by omega) (by omega)
  refine ⟨?_, ?_, ?_, ?_⟩ <;> dsimp only <;> omega

/-- C22 for `getSamplePosition_7x7_std2`: in the image, and in the 7x7 window of a centre in the image. -/
theorem sample7_in_window (rnd : Nat) (orig : Int × Int) (b w h : Int) (hw : 2 * b < w) (hh : 2 * b < h) :
    Inside b w h (samplePosition7 rnd orig b w h) ∧
    (Inside b w h orig → InWindow 3 orig (samplePosition7 rnd orig b w h)) := by
  refine ⟨(clamp_spec b w h hw hh _).1, fun ho => (clamp_spec b w h hw hh _).2.2 orig 3 ho ?_⟩
  have hm : ((rnd : Int)).tmod 512 = ((rnd % 512 : Nat) : Int) := by
    rw [Int.tmod_eq_emod_of_nonneg (by omega)]; omega
  rw [hm]
  obtain ⟨h1, h2⟩ := walk7_lt ((rnd % 512 : Nat) : Int) (by omega) (by omega)
  refine ⟨?_, ?_, ?_, ?_⟩ <;> dsimp only <;> omega

example : samplePosition7 511 (10, 10) 0 20 20 = (13, 13) := by decide
example : samplePosition7 511 (10, 10) 8 20 20 = (11, 11) := by decide

/-! ### Frequencies -/

/-- The weight of the 3x3 kernel at squared distance `q` from the centre. -/
def gauss3 (q : Nat) : Nat := match q with | 0 => 52 | 1 => 32 | 2 => 19 | _ => 0

/-- The weight of the 7x7 kernel at squared distance `q` from the centre. -/
def gauss7 (q : Nat) : Nat :=
  match q with
  | 0 => 28 | 1 => 25 | 2 => 21 | 4 => 14 | 5 => 12 | 8 => 8 | 9 => 7 | 10 => 6 | 13 => 4 | 18 => 2 | _ => 0

theorem frequency_aux (rows : List (List Int)) (hk : ∀ row ∈ rows, ∀ k ∈ row, 0 ≤ k) (n : Nat)
    (hr : rows.length = n) (hc : ∀ row ∈ rows, row.length = n) (tot : Nat) (ht : 0 < tot)
    (hsum : (rows.map List.sum).sum = tot) (orig : Int × Int) (b w h : Int)
    (hx0 : b ≤ orig.1 - (n / 2 : Nat)) (hy0 : b ≤ orig.2 - (n / 2 : Nat))
    (hx1 : orig.1 - (n / 2 : Nat) + n ≤ w - b) (hy1 : orig.2 - (n / 2 : Nat) + n ≤ h - b)
    (x y : Nat) (hx : x < n) (hy : y < n) (start : Nat) :
    ((((Finset.Ico start (start + tot)).filter fun k : Nat =>
      getSamplePosition rows n n tot k orig b w h = (orig.1 - (n / 2 : Nat) + x, orig.2 - (n / 2 : Nat) + y)).card : Nat) : Int) =
      weight rows x y := by
  have hpos : ∀ k : Nat, getSamplePosition rows n n tot k orig b w h =
      (orig.1 - (n / 2 : Nat) + x, orig.2 - (n / 2 : Nat) + y) ↔ walk n rows 0 (1 + ((k % tot : Nat) : Int)) = (x, y) := by
    intro k
    have hm : ((k : Int)).tmod (tot : Int) = ((k % tot : Nat) : Int) := by
      rw [Int.tmod_eq_emod_of_nonneg (by omega)]; exact (Int.natCast_mod k tot).symm
    unfold getSamplePosition
    rw [hm]
    generalize hp : walk n rows 0 (1 + ((k % tot : Nat) : Int)) = p
    have hlt := Nat.mod_lt k ht
    have hcell : p.1 < n ∧ p.2 < n := by
      obtain ⟨x', y', hy', hx', hw', _, _⟩ := (walk_spec n rows hk 0 (1 + ((k % tot : Nat) : Int)) (by omega)).1 (by omega)
      rw [hp, Nat.zero_add] at hw'
      rw [hw']
      have : (rows.getD y' []).length = n := by
        rw [List.getD_eq_getElem _ _ hy']; exact hc _ (List.getElem_mem hy')
      exact ⟨by dsimp only; omega, by dsimp only; omega⟩
    unfold clampImageCoords
    dsimp only
    rw [clampCoord_id b w _ (by omega) (by omega), clampCoord_id b h _ (by omega) (by omega)]
    constructor
    · intro he
      injection he with e1 e2
      ext <;> dsimp only <;> omega
    · intro he
      rw [he]
      ext <;> dsimp only <;> omega
  have hfil : ((Finset.Ico start (start + tot)).filter fun k : Nat =>
      getSamplePosition rows n n tot k orig b w h = (orig.1 - (n / 2 : Nat) + x, orig.2 - (n / 2 : Nat) + y)).card =
      ((Finset.Ico start (start + tot)).filter fun k : Nat => walk n rows 0 (1 + ((k % tot : Nat) : Int)) = (x, y)).card := by
    congr 1
    apply Finset.filter_congr
    intro k _
    exact hpos k
  rw [hfil, Nat.filter_Ico_card_eq_of_periodic _ _ (fun k : Nat => walk n rows 0 (1 + ((k % tot : Nat) : Int)) = (x, y))
    (fun k => by simp), Nat.count_eq_card_filter_range]
  rw [← walk_count n rows hk tot (le_of_eq hsum) x y (by omega) (by
    rw [List.getD_eq_getElem _ _ (by omega)]; rw [hc _ (List.getElem_mem _)]; exact hx)]
  congr 2
  apply Finset.filter_congr
  intro k hk
  rw [Nat.mod_eq_of_lt (Finset.mem_range.1 hk)]

/-- C23 for the 3x3 kernel: over any 256 consecutive random numbers, and away from the borders, every cell of the window is
hit exactly as many times as its weight. -/
theorem sample3_frequency (orig : Int × Int) (b w h : Int) (hx : b + 1 ≤ orig.1 ∧ orig.1 + 1 < w - b)
    (hy : b + 1 ≤ orig.2 ∧ orig.2 + 1 < h - b) (dx dy : Int) (hdx : -1 ≤ dx ∧ dx ≤ 1) (hdy : -1 ≤ dy ∧ dy ≤ 1) (start : Nat) :
    ((Finset.Ico start (start + 256)).filter fun k : Nat => samplePosition3 k orig b w h = (orig.1 + dx, orig.2 + dy)).card =
      gauss3 (dx ^ 2 + dy ^ 2).toNat := by
  have := frequency_aux kernel3 (by decide) 3 rfl (by decide) 256 (by decide) (by decide) orig b w h
    (by omega) (by omega) (by omega) (by omega) (dx + 1).toNat (dy + 1).toNat (by omega) (by omega) start
  have e1 : orig.1 - ((3 / 2 : Nat) : Int) + ((dx + 1).toNat : Int) = orig.1 + dx := by omega
  have e2 : orig.2 - ((3 / 2 : Nat) : Int) + ((dy + 1).toNat : Int) = orig.2 + dy := by omega
  rw [e1, e2] at this
  have hw : weight kernel3 (dx + 1).toNat (dy + 1).toNat = gauss3 (dx ^ 2 + dy ^ 2).toNat := by
    obtain ⟨h1, h2⟩ := hdx; obtain ⟨h3, h4⟩ := hdy
    interval_cases dx <;> interval_cases dy <;> rfl
  rw [hw] at this
  exact_mod_cast this

example : (1 : Int) + 1 ≤ (5, 5).1 ∧ (5, 5).1 + 1 < (10 : Int) - 1 := by decide

/-- C23 for the 7x7 kernel: over any 512 consecutive random numbers, and away from the borders, every cell of the window is
hit exactly as many times as its weight. -/
theorem sample7_frequency (orig : Int × Int) (b w h : Int) (hx : b + 3 ≤ orig.1 ∧ orig.1 + 3 < w - b)
    (hy : b + 3 ≤ orig.2 ∧ orig.2 + 3 < h - b) (dx dy : Int) (hdx : -3 ≤ dx ∧ dx ≤ 3) (hdy : -3 ≤ dy ∧ dy ≤ 3) (start : Nat) :
    ((Finset.Ico start (start + 512)).filter fun k : Nat => samplePosition7 k orig b w h = (orig.1 + dx, orig.2 + dy)).card =
      gauss7 (dx ^ 2 + dy ^ 2).toNat := by
  have := frequency_aux kernel7 (by decide) 7 rfl (by decide) 512 (by decide) (by decide) orig b w h
    (by omega) (by omega) (by omega) (by omega) (dx + 3).toNat (dy + 3).toNat
    (by omega) (by omega) start
  have e1 : orig.1 - ((7 / 2 : Nat) : Int) + ((dx + 3).toNat : Int) = orig.1 + dx := by omega
  have e2 : orig.2 - ((7 / 2 : Nat) : Int) + ((dy + 3).toNat : Int) = orig.2 + dy := by omega
  rw [e1, e2] at this
  have hw : weight kernel7 (dx + 3).toNat (dy + 3).toNat = gauss7 (dx ^ 2 + dy ^ 2).toNat := by
    obtain ⟨h1, h2⟩ := hdx; obtain ⟨h3, h4⟩ := hdy
    interval_cases dx <;> interval_cases dy <;> rfl
  rw [hw] at this
  exact_mod_cast this

/-! ### Neighbours -/

theorem neighbor_aux (pattern : List (Int × Int)) (d : Int) (hp : ∀ q ∈ pattern, InWindow d (0, 0) q) (h0 : pattern ≠ [])
    (rnd : Nat) (orig : Int × Int) (b w h : Int) (hw : 2 * b < w) (hh : 2 * b < h) :
    ∃ p, getNeighborPosition pattern rnd orig b w h = some p ∧ Inside b w h p ∧ (Inside b w h orig → InWindow d orig p) := by
  have hlen : 0 < pattern.length := List.length_pos_iff.2 h0
  have hm : ((rnd : Int)).tmod (pattern.length : Int) = ((rnd % pattern.length : Nat) : Int) := by
    rw [Int.tmod_eq_emod_of_nonneg (by omega)]; exact (Int.natCast_mod _ _).symm
  have hlt := Nat.mod_lt rnd hlen
  unfold getNeighborPosition
  rw [hm]
  dsimp only
  rw [if_neg (by omega), Int.toNat_natCast, List.getElem?_eq_getElem hlt, Option.map_some]
  refine ⟨_, rfl, (clamp_spec b w h hw hh _).1, fun ho => (clamp_spec b w h hw hh _).2.2 orig d ho ?_⟩
  obtain ⟨q1, q2, q3, q4⟩ := hp _ (List.getElem_mem hlt)
  dsimp only at q1 q2 q3 q4
  refine ⟨?_, ?_, ?_, ?_⟩ <;> dsimp only <;> omega

instance (d : Int) (o p : Int × Int) : Decidable (InWindow d o p) := by unfold InWindow; infer_instance

/-- C22 for the neighbour functions: for every non-negative random number the position is defined, in the image, and in the
3x3 (5x5) window of a centre in the image. -/
theorem neighbor_in_window (rnd : Nat) (orig : Int × Int) (b w h : Int) (hw : 2 * b < w) (hh : 2 * b < h) :
    (∃ p, neighborPosition3 rnd orig b w h = some p ∧ Inside b w h p ∧ (Inside b w h orig → InWindow 1 orig p)) ∧
    (∃ p, neighborPosition5 rnd orig b w h = some p ∧ Inside b w h p ∧ (Inside b w h orig → InWindow 2 orig p)) :=
  ⟨neighbor_aux neighbors3 1 (by decide) (by decide) rnd orig b w h hw hh,
    neighbor_aux neighbors5 2 (by decide) (by decide) rnd orig b w h hw hh⟩

/-- A negative random number reads outside the pattern array. -/
theorem neighbor_negative_undefined : neighborPosition3 (-1) (5, 5) 0 10 10 = none := by decide

theorem neighbor_frequency_aux (pattern : List (Int × Int)) (d : Int) (hnd : pattern.Nodup)
    (hp : ∀ q ∈ pattern, InWindow d (0, 0) q) (h0 : pattern ≠ []) (orig : Int × Int) (b w h : Int)
    (hx : b + d ≤ orig.1 ∧ orig.1 + d < w - b) (hy : b + d ≤ orig.2 ∧ orig.2 + d < h - b) (dx dy : Int) (start : Nat) :
    ((Finset.Ico start (start + pattern.length)).filter fun k : Nat =>
      getNeighborPosition pattern k orig b w h = some (orig.1 + dx, orig.2 + dy)).card =
      if (dx, dy) ∈ pattern then 1 else 0 := by
  have hlen : 0 < pattern.length := List.length_pos_iff.2 h0
  have hval : ∀ k : Nat, getNeighborPosition pattern k orig b w h = some (orig.1 + dx, orig.2 + dy) ↔
      pattern[k % pattern.length]? = some (dx, dy) := by
    intro k
    have hm : ((k : Int)).tmod (pattern.length : Int) = ((k % pattern.length : Nat) : Int) := by
      rw [Int.tmod_eq_emod_of_nonneg (by omega)]; exact (Int.natCast_mod _ _).symm
    have hlt := Nat.mod_lt k hlen
    unfold getNeighborPosition
    rw [hm]
    dsimp only
    rw [if_neg (by omega), Int.toNat_natCast, List.getElem?_eq_getElem hlt, Option.map_some]
    obtain ⟨q1, q2, q3, q4⟩ := hp _ (List.getElem_mem hlt)
    generalize pattern[k % pattern.length] = q at *
    unfold clampImageCoords
    dsimp only at *
    rw [clampCoord_id b w _ (by omega) (by omega), clampCoord_id b h _ (by omega) (by omega)]
    simp only [Option.some.injEq, Prod.ext_iff]
    omega
  have hfil : ((Finset.Ico start (start + pattern.length)).filter fun k : Nat =>
      getNeighborPosition pattern k orig b w h = some (orig.1 + dx, orig.2 + dy)).card =
      ((Finset.Ico start (start + pattern.length)).filter fun k : Nat => pattern[k % pattern.length]? = some (dx, dy)).card := by
    congr 1
    apply Finset.filter_congr
    intro k _
    exact hval k
  rw [hfil, Nat.filter_Ico_card_eq_of_periodic _ _ (fun k : Nat => pattern[k % pattern.length]? = some (dx, dy))
    (fun k => by simp), Nat.count_eq_card_filter_range]
  split
  · rename_i hmem
    obtain ⟨i, hi, he⟩ := List.getElem_of_mem hmem
    rw [Finset.card_eq_one]
    refine ⟨i, ?_⟩
    ext k
    simp only [Finset.mem_filter, Finset.mem_range, Finset.mem_singleton]
    constructor
    · rintro ⟨hk, h⟩
      rw [Nat.mod_eq_of_lt hk, List.getElem?_eq_getElem hk, Option.some.injEq, ← he] at h
      exact (List.Nodup.getElem_inj_iff hnd).1 h
    · rintro rfl
      exact ⟨hi, by rw [Nat.mod_eq_of_lt hi, List.getElem?_eq_getElem hi, he]⟩
  · rename_i hmem
    rw [Finset.card_eq_zero, Finset.filter_eq_empty_iff]
    intro k _ h
    exact hmem (List.mem_of_getElem? h)

/-- C22/C23 for `getNeighborPosition_3x3`: away from the borders, over any eight consecutive random numbers, every
position of the 3x3 window except the centre is returned exactly once, and no other position ever is. -/
theorem neighbor3_frequency (orig : Int × Int) (b w h : Int) (hx : b + 1 ≤ orig.1 ∧ orig.1 + 1 < w - b)
    (hy : b + 1 ≤ orig.2 ∧ orig.2 + 1 < h - b) (dx dy : Int) (start : Nat) :
    ((Finset.Ico start (start + 8)).filter fun k : Nat =>
      neighborPosition3 k orig b w h = some (orig.1 + dx, orig.2 + dy)).card =
      if (-1 ≤ dx ∧ dx ≤ 1 ∧ -1 ≤ dy ∧ dy ≤ 1) ∧ ¬ (dx = 0 ∧ dy = 0) then 1 else 0 := by
  have := neighbor_frequency_aux neighbors3 1 (by decide) (by decide) (by decide) orig b w h hx hy dx dy start
  rw [show neighbors3.length = 8 from rfl] at this
  unfold neighborPosition3
  rw [this]
  congr 1
  simp only [neighbors3, List.mem_cons, List.not_mem_nil, Prod.mk.injEq, or_false, eq_iff_iff]
  omega

/-- C22/C23 for `getNeighborPosition_5x5`. -/
theorem neighbor5_frequency (orig : Int × Int) (b w h : Int) (hx : b + 2 ≤ orig.1 ∧ orig.1 + 2 < w - b)
    (hy : b + 2 ≤ orig.2 ∧ orig.2 + 2 < h - b) (dx dy : Int) (start : Nat) :
    ((Finset.Ico start (start + 24)).filter fun k : Nat =>
      neighborPosition5 k orig b w h = some (orig.1 + dx, orig.2 + dy)).card =
      if (-2 ≤ dx ∧ dx ≤ 2 ∧ -2 ≤ dy ∧ dy ≤ 2) ∧ ¬ (dx = 0 ∧ dy = 0) then 1 else 0 := by
  have := neighbor_frequency_aux neighbors5 2 (by decide) (by decide) (by decide) orig b w h hx hy dx dy start
  rw [show neighbors5.length = 24 from rfl] at this
  unfold neighborPosition5
  rw [this]
  have hiff : (dx, dy) ∈ neighbors5 ↔ (-2 ≤ dx ∧ dx ≤ 2 ∧ -2 ≤ dy ∧ dy ≤ 2) ∧ ¬ (dx = 0 ∧ dy = 0) := by
    constructor
    · have : ∀ q ∈ neighbors5, (-2 ≤ q.1 ∧ q.1 ≤ 2 ∧ -2 ≤ q.2 ∧ q.2 ≤ 2) ∧ ¬ (q.1 = 0 ∧ q.2 = 0) := by decide
      exact fun h => this _ h
    · rintro ⟨⟨h1, h2, h3, h4⟩, h5⟩
      interval_cases dx <;> interval_cases dy <;> first | decide | exact absurd ⟨rfl, rfl⟩ h5
  simp only [hiff]

example : neighborPosition5 100 (7, 9) 2 20 20 = some (9, 11) := by decide

end Litiv.Sampling
