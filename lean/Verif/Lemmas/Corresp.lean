import Verif.Spec.Corresp
import Verif.Props.Shift

namespace Litiv.Corresp

open Shift (Img Border)
open Subset (gtDisparity)

theorem disparity_pair (p : Pair) (flip : Bool) (off : Int) :
    gtDisparity flip off p.rgb.d = if p.Shown flip off then some (p.value flip off) else none := rfl

theorem agree_pair (p : Pair) : agree p.rgb p.lwir = true := by
  simp [agree, Pair.rgb, Pair.lwir]

theorem agree_iff (r l : Pt) : agree r l = true ↔ ∃ p : Pair, r = p.rgb ∧ l = p.lwir := by
  constructor
  · intro h
    obtain ⟨rx, ry, rd⟩ := r
    obtain ⟨lx, ly, ld⟩ := l
    simp [agree] at h
    refine ⟨⟨rx, ry, rd⟩, rfl, ?_⟩
    simp only [Pair.lwir, Pt.mk.injEq]
    omega
  · rintro ⟨p, rfl, rfl⟩
    exact agree_pair p

theorem lastOf_nil (flip : Bool) (off : Int) (q : Pair → Bool) : lastOf flip off [] q = 255 := rfl

theorem lastOf_snoc (flip : Bool) (off : Int) (ps : List Pair) (p : Pair) (q : Pair → Bool) :
    lastOf flip off (ps ++ [p]) q =
      if p.Shown flip off ∧ q p = true then p.value flip off else lastOf flip off ps q := by
  unfold lastOf
  rw [List.filter_append]
  by_cases h : p.Shown flip off ∧ q p = true
  · rw [if_pos h]
    simp [List.filter_cons, h.1, h.2]
  · rw [if_neg h]
    have : (decide (p.Shown flip off) && q p) = false := by
      rw [Bool.eq_false_iff]
      intro hh
      simp at hh
      exact h hh
    simp [List.filter_cons, this]

/-- What the loop leaves, from maps that show the pairs `done`. -/
theorem fill_pairs (rows cols : Nat) (flip : Bool) (off : Int) (ps : List Pair) :
    ∀ (done : List Pair) (R L : Img ℚ), R.rows = rows → R.cols = cols → L.rows = rows → L.cols = cols →
    (∀ p ∈ ps, p.Shown flip off → p.Inside rows cols) →
    (∀ y x, R.px y x = (lastOf flip off done fun p => decide (p.y = y ∧ p.x = x) : Int)) →
    (∀ y x, L.px y x = (lastOf flip off done fun p => decide (p.y = y ∧ p.x + p.d = x) : Int)) →
    ∃ R' L', fill flip off (ps.map fun p => (p.rgb, p.lwir)) R L = some (R', L') ∧
      R'.rows = rows ∧ R'.cols = cols ∧ L'.rows = rows ∧ L'.cols = cols ∧
      (∀ y x, R'.px y x = (lastOf flip off (done ++ ps) fun p => decide (p.y = y ∧ p.x = x) : Int)) ∧
      (∀ y x, L'.px y x = (lastOf flip off (done ++ ps) fun p => decide (p.y = y ∧ p.x + p.d = x) : Int)) := by
  induction ps with
  | nil =>
    intro done R L h1 h2 h3 h4 _ hR hL
    exact ⟨R, L, rfl, h1, h2, h3, h4, by simpa using hR, by simpa using hL⟩
  | cons p ps ih =>
    intro done R L h1 h2 h3 h4 hin hR hL
    have hin' : ∀ p ∈ ps, p.Shown flip off → p.Inside rows cols := fun q hq => hin q (List.mem_cons_of_mem _ hq)
    rw [List.map_cons, fill, if_pos (agree_pair p), disparity_pair]
    have e : done ++ p :: ps = (done ++ [p]) ++ ps := by simp
    by_cases hs : p.Shown flip off
    · rw [if_pos hs]
      obtain ⟨i1, i2, i3⟩ := hin p List.mem_cons_self hs
      have a1 : R.has p.rgb.y p.rgb.x = true := by
        rw [Shift.has_iff, h1, h2]; exact ⟨i1, i2⟩
      have a2 : L.has p.lwir.y p.lwir.x = true := by
        rw [Shift.has_iff, h3, h4]; exact ⟨i1, i3⟩
      simp only [put, a1, a2, if_true]
      rw [e]
      refine ih (done ++ [p]) _ _ h1 h2 h3 h4 hin' ?_ ?_
      · intro y x
        rw [lastOf_snoc]
        dsimp only
        by_cases hc : y = p.rgb.y ∧ x = p.rgb.x
        · rw [if_pos hc, if_pos ⟨hs, by simpa [Pair.rgb] using ⟨hc.1.symm, hc.2.symm⟩⟩]
        · rw [if_neg hc, if_neg, hR]
          rintro ⟨-, h⟩
          simp at h
          exact hc ⟨h.1.symm, h.2.symm⟩
      · intro y x
        rw [lastOf_snoc]
        dsimp only
        by_cases hc : y = p.lwir.y ∧ x = p.lwir.x
        · rw [if_pos hc, if_pos ⟨hs, by simpa [Pair.lwir] using ⟨hc.1.symm, hc.2.symm⟩⟩]
        · rw [if_neg hc, if_neg, hL]
          rintro ⟨-, h⟩
          simp at h
          exact hc ⟨h.1.symm, h.2.symm⟩
    · rw [if_neg hs, e]
      refine ih (done ++ [p]) R L h1 h2 h3 h4 hin' ?_ ?_
      · intro y x
        rw [lastOf_snoc, if_neg (fun h => hs h.1), hR]
      · intro y x
        rw [lastOf_snoc, if_neg (fun h => hs h.1), hL]

/-- A pair which does not agree stops the loop. -/
theorem fill_bad (flip : Bool) (off : Int) (ps : List (Pt × Pt)) (e : Pt × Pt) (he : e ∈ ps)
    (hb : agree e.1 e.2 = false) : ∀ R L, fill flip off ps R L = none := by
  induction ps with
  | nil => simp at he
  | cons a ps ih =>
    intro R L
    obtain ⟨r, l⟩ := a
    rw [fill]
    rcases List.mem_cons.1 he with rfl | he
    · rw [if_neg]
      simpa using hb
    · by_cases ha : agree r l = true
      · rw [if_pos ha]
        cases gtDisparity flip off r.d with
        | none => exact ih he R L
        | some v =>
          dsimp only
          cases put R r v with
          | none => rfl
          | some R' =>
            cases put L l v with
            | none => rfl
            | some L' => exact ih he R' L'
      · rw [if_neg ha]

theorem shiftBy_ok (m : Img ℚ) (off : Int) (v : ℚ) (ho : |off| < m.cols) (hr : 0 < m.rows) :
    ∃ o, shiftBy m off v = some o ∧ o.rows = m.rows ∧ o.cols = m.cols ∧
      ∀ y x, m.has y x = true → o.px y x = if m.has y (x - off) then m.px y (x - off) else v := by
  unfold shiftBy
  by_cases h0 : off = 0
  · rw [if_pos h0]
    refine ⟨m, rfl, rfl, rfl, ?_⟩
    intro y x h
    rw [h0, sub_zero, if_pos h]
  · rw [if_neg h0]
    obtain ⟨o, e, e1, e2, e3, e4⟩ := Shift.shift_integer true m off 0 (.constant v) ho (by simpa using hr)
    rw [Int.cast_zero] at e
    refine ⟨o, by rw [e]; rfl, e1, e2, ?_⟩
    intro y x h
    by_cases hx : m.has y (x - off) = true
    · rw [if_pos hx]
      have := e3 y (x - off) hx (by rw [add_zero, sub_add_cancel]; exact h)
      rwa [add_zero, sub_add_cancel] at this
    · rw [if_neg hx]
      exact (e4 y x h (by rw [sub_zero]; exact hx)).1 v rfl

theorem lastOf_outside (flip : Bool) (off : Int) (rows cols : Nat) (ps : List Pair)
    (hin : ∀ p ∈ ps, p.Shown flip off → p.Inside rows cols) (y x : Int) (h : ¬ (0 ≤ x ∧ x < cols)) :
    (lastOf flip off ps fun p => decide (p.y = y ∧ p.x + p.d = x)) = 255 := by
  unfold lastOf
  rw [List.filter_eq_nil_iff.2]
  · rfl
  · intro p hp hq
    simp at hq
    exact h (by have := (hin p hp hq.1).2.2; rw [hq.2.2] at this; exact this)

/-- A pair that no later pair covers is the last one. -/
theorem lastOf_split (flip : Bool) (off : Int) (pre post : List Pair) (p : Pair) (q : Pair → Bool)
    (hs : p.Shown flip off) (hq : q p = true) (hl : ∀ p' ∈ post, p'.Shown flip off → q p' = false) :
    lastOf flip off (pre ++ p :: post) q = p.value flip off := by
  unfold lastOf
  have : post.filter (fun p => decide (p.Shown flip off) && q p) = [] := by
    rw [List.filter_eq_nil_iff]
    intro p' hp' h
    simp at h
    rw [hl p' hp' h.1] at h
    exact absurd h.2 (by simp)
  rw [List.filter_append, List.filter_cons, this]
  simp [hs, hq]

end Litiv.Corresp
