import Verif.Model.Sampling
import Mathlib.Order.Interval.Finset.Nat
import Mathlib.Algebra.Order.BigOperators.Group.List
import Mathlib.Data.Nat.Periodic
import Mathlib.Data.List.GetD

namespace Litiv.Sampling

theorem clampCoord_mem (b size v : Int) (h : 2 * b < size) : b ≤ clampCoord b size v ∧ clampCoord b size v < size - b := by
  unfold clampCoord; split
  · omega
  · split <;> omega

theorem clampCoord_id (b size v : Int) (h1 : b ≤ v) (h2 : v < size - b) : clampCoord b size v = v := by
  unfold clampCoord; rw [if_neg (by omega), if_neg (by omega)]

/-- Clamping never moves a coordinate away from a point inside. -/
theorem clampCoord_near (b size v o : Int) (d : Int) (h1 : b ≤ o) (h2 : o < size - b) (hl : o - d ≤ v) (hr : v ≤ o + d) :
    o - d ≤ clampCoord b size v ∧ clampCoord b size v ≤ o + d := by
  unfold clampCoord; split
  · omega
  · split <;> omega

theorem walkRow_spec (ks : List Int) (hk : ∀ k ∈ ks, 0 ≤ k) (x : Nat) (r : Int) (hr : 0 < r) :
    (r ≤ ks.sum → ∃ i, i < ks.length ∧ walkRow ks x r = .inl (x + i) ∧
      (ks.take i).sum < r ∧ r ≤ (ks.take (i + 1)).sum) ∧
    (ks.sum < r → walkRow ks x r = .inr (r - ks.sum)) := by
  induction ks generalizing x r with
  | nil => refine ⟨fun h => ?_, fun _ => by simp [walkRow]⟩; simp at h; omega
  | cons k ks ih =>
    have hk0 : 0 ≤ k := hk k List.mem_cons_self
    have hks : ∀ k ∈ ks, 0 ≤ k := fun j hj => hk j (List.mem_cons_of_mem _ hj)
    have hs : 0 ≤ ks.sum := List.sum_nonneg hks
    by_cases hle : r - k ≤ 0
    · refine ⟨fun _ => ⟨0, by simp, by simp [walkRow, hle], by simpa using hr, by simpa using hle⟩, fun h => ?_⟩
      simp at h; omega
    · obtain ⟨h1, h2⟩ := ih hks (x + 1) (r - k) (by omega)
      refine ⟨fun h => ?_, fun h => ?_⟩
      · rw [List.sum_cons] at h
        obtain ⟨i, hi, hw, ha, hb⟩ := h1 (by omega)
        refine ⟨i + 1, by simpa using hi, ?_, ?_, ?_⟩
        · rw [walkRow, if_neg hle, hw]; congr 1; omega
        · simp only [List.take_succ_cons, List.sum_cons]; omega
        · rw [List.take_succ_cons, List.sum_cons]; omega
      · rw [List.sum_cons] at h
        rw [walkRow, if_neg hle, h2 (by omega), List.sum_cons]
        congr 1; omega

/-- Sum of all weights before cell (x, y) in scan order. -/
def before (rows : List (List Int)) (x y : Nat) : Int :=
  ((rows.take y).map List.sum).sum + ((rows.getD y []).take x).sum

/-- Weight of cell (x, y). -/
def weight (rows : List (List Int)) (x y : Nat) : Int := (rows.getD y []).getD x 0

theorem walk_spec (w : Nat) (rows : List (List Int)) (hk : ∀ row ∈ rows, ∀ k ∈ row, 0 ≤ k) (y0 : Nat) (r : Int) (hr : 0 < r) :
    (r ≤ (rows.map List.sum).sum → ∃ x y, y < rows.length ∧ x < (rows.getD y []).length ∧ walk w rows y0 r = (x, y0 + y) ∧
      before rows x y < r ∧ r ≤ before rows x y + weight rows x y) ∧
    ((rows.map List.sum).sum < r → walk w rows y0 r = (w, y0 + rows.length)) := by
  induction rows generalizing y0 r with
  | nil => refine ⟨fun h => ?_, fun _ => by simp [walk]⟩; simp at h; omega
  | cons row rows ih =>
    have hrow := hk row List.mem_cons_self
    have hrows : ∀ row ∈ rows, ∀ k ∈ row, 0 ≤ k := fun j hj => hk j (List.mem_cons_of_mem _ hj)
    obtain ⟨h1, h2⟩ := walkRow_spec row hrow 0 r hr
    have hs : 0 ≤ (rows.map List.sum).sum := List.sum_nonneg (by
      intro s hs
      obtain ⟨row', hr', rfl⟩ := List.mem_map.1 hs
      exact List.sum_nonneg (hrows row' hr'))
    by_cases hle : r ≤ row.sum
    · obtain ⟨i, hi, hw, ha, hb⟩ := h1 hle
      refine ⟨fun _ => ⟨i, 0, by simp, by simpa using hi, by simp [walk, hw], ?_, ?_⟩, fun h => ?_⟩
      · simpa [before] using ha
      · rw [List.sum_take_succ _ _ hi] at hb
        simpa [before, weight, List.getD_eq_getElem?_getD, List.getElem?_eq_getElem hi] using hb
      · simp at h; omega
    · have hw := h2 (by omega)
      obtain ⟨i1, i2⟩ := ih hrows (y0 + 1) (r - row.sum) (by omega)
      refine ⟨fun h => ?_, fun h => ?_⟩
      · rw [List.map_cons, List.sum_cons] at h
        obtain ⟨x, y, hy, hx, hwk, ha, hb⟩ := i1 (by omega)
        refine ⟨x, y + 1, by simpa using hy, by simpa using hx, ?_, ?_, ?_⟩
        · rw [walk, hw]; simp only []; rw [hwk]; congr 1; omega
        · simp only [before, List.take_succ_cons, List.map_cons, List.sum_cons, List.getD_cons_succ] at ha ⊢; omega
        · simp only [before, weight, List.take_succ_cons, List.map_cons, List.sum_cons, List.getD_cons_succ] at hb ⊢; omega
      · rw [List.map_cons, List.sum_cons] at h
        rw [walk, hw]; simp only []; rw [i2 (by omega), List.length_cons]; congr 1; omega

/-- The intervals of different cells are disjoint: a remainder determines its cell. -/
theorem before_mono (rows : List (List Int)) (hk : ∀ row ∈ rows, ∀ k ∈ row, 0 ≤ k) (x y x' y' : Nat)
    (hx : x < (rows.getD y []).length) (hy : y < rows.length) (hlt : y < y' ∨ (y = y' ∧ x < x')) :
    before rows x y + weight rows x y ≤ before rows x' y' := by
  have hnn : ∀ z, ∀ k ∈ rows.getD z [], 0 ≤ k := by
    intro z k hkm
    rw [List.getD_eq_getElem?_getD] at hkm
    cases hz : rows[z]? with
    | none => rw [hz] at hkm; simp at hkm
    | some row => rw [hz] at hkm; exact hk row (List.mem_of_getElem? hz) k hkm
  have htk : before rows x y + weight rows x y = ((rows.take y).map List.sum).sum + ((rows.getD y []).take (x + 1)).sum := by
    unfold before weight
    rw [List.sum_take_succ _ _ hx, List.getD_eq_getElem _ _ hx]
    omega
  have hmono : ∀ (l : List Int), (∀ k ∈ l, 0 ≤ k) → ∀ a b, a ≤ b → (l.take a).sum ≤ (l.take b).sum := by
    intro l hl a b hab
    have : l.take b = l.take a ++ (l.take b).drop a := by
      conv_lhs => rw [← List.take_append_drop a (l.take b)]
      rw [List.take_take, Nat.min_eq_left hab]
    rw [this, List.sum_append]
    have : 0 ≤ ((l.take b).drop a).sum := List.sum_nonneg fun k hk' =>
      hl k (List.mem_of_mem_take (List.mem_of_mem_drop hk'))
    omega
  rw [htk]
  rcases hlt with hlt | ⟨rfl, hlt⟩
  · have h1 : ((rows.getD y []).take (x + 1)).sum ≤ (rows.getD y []).sum := by
      have := hmono (rows.getD y []) (hnn y) (x + 1) (rows.getD y []).length (by omega)
      rwa [List.take_length] at this
    have h2 : ((rows.take y).map List.sum).sum + (rows.getD y []).sum = ((rows.take (y + 1)).map List.sum).sum := by
      rw [List.map_take, List.map_take, List.sum_take_succ _ _ (by simpa using hy)]
      simp [List.getD_eq_getElem?_getD, List.getElem?_eq_getElem hy]
    have h3 : ((rows.take (y + 1)).map List.sum).sum ≤ ((rows.take y').map List.sum).sum := by
      rw [List.map_take, List.map_take]
      apply hmono _ _ _ _ hlt
      intro s hs
      obtain ⟨row', hr', rfl⟩ := List.mem_map.1 hs
      exact List.sum_nonneg (hk row' hr')
    have h4 : 0 ≤ ((rows.getD y' []).take x').sum := List.sum_nonneg fun k hk' =>
      hnn y' k (List.mem_of_mem_take hk')
    unfold before
    omega
  · unfold before
    have := hmono (rows.getD y []) (hnn y) (x + 1) x' (by omega)
    omega

theorem walk_eq_iff (w : Nat) (rows : List (List Int)) (hk : ∀ row ∈ rows, ∀ k ∈ row, 0 ≤ k) (r : Int) (hr : 0 < r) (x y : Nat)
    (hy : y < rows.length) (hx : x < (rows.getD y []).length) :
    walk w rows 0 r = (x, y) ↔ before rows x y < r ∧ r ≤ before rows x y + weight rows x y := by
  by_cases hle : r ≤ (rows.map List.sum).sum
  · obtain ⟨x1, y1, hy1, hx1, hw, ha, hb⟩ := (walk_spec w rows hk 0 r hr).1 hle
    rw [Nat.zero_add] at hw
    constructor
    · intro h
      rw [hw] at h
      injection h with h1 h2
      subst h1; subst h2
      exact ⟨ha, hb⟩
    · rintro ⟨h1, h2⟩
      rw [hw]
      by_contra hne
      have hor : (y1 < y ∨ (y1 = y ∧ x1 < x)) ∨ (y < y1 ∨ (y = y1 ∧ x < x1)) := by
        by_cases hyy : y1 = y
        · subst hyy
          have : x1 ≠ x := fun h => hne (by rw [h])
          omega
        · omega
      rcases hor with h | h
      · have := before_mono rows hk x1 y1 x y hx1 hy1 h; omega
      · have := before_mono rows hk x y x1 y1 hx hy h; omega
  · have hw := (walk_spec w rows hk 0 r hr).2 (by omega)
    rw [Nat.zero_add] at hw
    constructor
    · intro h
      rw [hw] at h
      injection h with h1 h2
      omega
    · rintro ⟨h1, h2⟩
      exfalso
      have hlast := before_mono rows hk x y 0 rows.length hx hy (Or.inl hy)
      have : before rows 0 rows.length = (rows.map List.sum).sum := by
        unfold before; rw [List.take_length]; simp
      omega

theorem before_nonneg (rows : List (List Int)) (hk : ∀ row ∈ rows, ∀ k ∈ row, 0 ≤ k) (x y : Nat) : 0 ≤ before rows x y := by
  have h1 : 0 ≤ ((rows.take y).map List.sum).sum := List.sum_nonneg (by
    intro s hs
    obtain ⟨row', hr', rfl⟩ := List.mem_map.1 hs
    exact List.sum_nonneg (hk row' (List.mem_of_mem_take hr')))
  have h2 : 0 ≤ ((rows.getD y []).take x).sum := List.sum_nonneg fun k hk' => by
    have hkm := List.mem_of_mem_take hk'
    rw [List.getD_eq_getElem?_getD] at hkm
    cases hz : rows[y]? with
    | none => rw [hz] at hkm; simp at hkm
    | some row => rw [hz] at hkm; exact hk row (List.mem_of_getElem? hz) k hkm
  unfold before; omega

/-- Number of `k` below `tot` whose walk stops at a cell. -/
theorem walk_count (w : Nat) (rows : List (List Int)) (hk : ∀ row ∈ rows, ∀ k ∈ row, 0 ≤ k) (tot : Nat)
    (hsum : (rows.map List.sum).sum ≤ tot) (x y : Nat) (hy : y < rows.length) (hx : x < (rows.getD y []).length) :
    (((Finset.range tot).filter fun k : Nat => walk w rows 0 (1 + (k : Int)) = (x, y)).card : Int) = weight rows x y := by
  have h0 := before_nonneg rows hk x y
  have h1 : before rows x y + weight rows x y ≤ tot := by
    have hlast := before_mono rows hk x y 0 rows.length hx hy (Or.inl hy)
    have : before rows 0 rows.length = (rows.map List.sum).sum := by
      unfold before; rw [List.take_length]; simp
    omega
  have h2 : 0 ≤ weight rows x y := by
    unfold weight
    rw [List.getD_eq_getElem _ _ hx]
    have : rows.getD y [] = rows[y] := List.getD_eq_getElem _ _ hy
    exact hk (rows.getD y []) (by rw [this]; exact List.getElem_mem hy) _ (List.getElem_mem hx)
  have : (Finset.range tot).filter (fun k : Nat => walk w rows 0 (1 + (k : Int)) = (x, y)) =
      Finset.Ico (before rows x y).toNat ((before rows x y).toNat + (weight rows x y).toNat) := by
    ext k
    rw [Finset.mem_filter, walk_eq_iff w rows hk _ (by omega) x y hy hx, Finset.mem_range, Finset.mem_Ico]
    omega
  rw [this, Nat.card_Ico]
  omega

end Litiv.Sampling
