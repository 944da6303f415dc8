import Verif.Lemmas.Corresp
import Verif.Props.Subset

/-!
# Properties of the disparity ground truth of LITIV 2018 sequences (C204-C206)
-/

namespace Litiv.Corresp

open Shift (Img Border)

/-- C204. When the two files record the same pairs and the pairs shown are inside the image, both maps are read, and every
pixel holds the disparity of the last pair shown there, or 255: in the RGB map at the RGB point, in the LWIR map at the
LWIR point moved by the offset; both mirrored together. -/
theorem maps_exact (rows cols : Nat) (flip : Bool) (off : Int) (ext : Bool) (ps : List Pair) (hne : ps ≠ [])
    (hr : 0 < rows) (ho : |off| < cols) (hin : ∀ p ∈ ps, p.Shown flip off → p.Inside rows cols) :
    ∃ R L, gtMaps rows cols flip off ext (ps.map Pair.rgb) (ps.map Pair.lwir) = some (R, L) ∧
      R.rows = rows ∧ R.cols = cols ∧ L.rows = rows ∧ L.cols = cols ∧
      ∀ y x : Int, 0 ≤ y → y < rows → 0 ≤ x → x < cols →
        R.px y x = (lastOf flip off ps fun p => decide (p.y = y ∧ p.x = column cols (ext ^^ flip) x) : Int) ∧
        L.px y x = (lastOf flip off ps fun p => decide (p.y = y ∧ p.x + p.d = column cols (ext ^^ flip) x - off) : Int) := by
  obtain ⟨R, L, h, r1, r2, l1, l2, hR, hL⟩ := fill_pairs rows cols flip off ps [] (blank rows cols) (blank rows cols)
    rfl rfl rfl rfl hin (fun _ _ => by rw [lastOf_nil]; rfl) (fun _ _ => by rw [lastOf_nil]; rfl)
  rw [List.nil_append] at hR hL
  obtain ⟨S, s, s1, s2, hS⟩ := shiftBy_ok L off 255 (by rw [l2]; exact ho) (by rw [l1]; exact hr)
  have hz : (ps.map Pair.rgb).zip (ps.map Pair.lwir) = ps.map fun p => (p.rgb, p.lwir) := by
    rw [List.zip_map']
  have hlen : (ps.map Pair.rgb).length = (ps.map Pair.lwir).length ∧ (ps.map Pair.lwir).length ≥ 1 := by
    have := List.length_pos_iff.2 hne
    simp only [List.length_map, true_and]
    exact this
  have hS' : ∀ y x : Int, 0 ≤ y → y < rows → 0 ≤ x → x < cols →
      S.px y x = (lastOf flip off ps fun p => decide (p.y = y ∧ p.x + p.d = x - off) : Int) := by
    intro y x a b c d
    rw [hS y x (by rw [Shift.has_iff, l1, l2]; exact ⟨⟨a, b⟩, c, d⟩)]
    by_cases hx : L.has y (x - off) = true
    · rw [if_pos hx, hL]
    · rw [if_neg hx, lastOf_outside flip off rows cols ps hin]
      · rfl
      · intro h
        exact hx (by rw [Shift.has_iff, l1, l2]; exact ⟨⟨a, b⟩, h⟩)
  unfold gtMaps
  rw [if_pos hlen, hz, h]
  dsimp only
  rw [s]
  dsimp only
  cases hm : (ext ^^ flip)
  · refine ⟨R, S, by simp, r1, r2, s1.trans l1, s2.trans l2, ?_⟩
    intro y x a b c d
    exact ⟨hR y x, hS' y x a b c d⟩
  · refine ⟨mirror R, mirror S, by simp, r1, r2, s1.trans l1, s2.trans l2, ?_⟩
    intro y x a b c d
    simp only [mirror, column, if_true]
    refine ⟨?_, ?_⟩
    · rw [hR, r2]
    · rw [s2, l2]
      exact hS' y _ a b (by omega) (by omega)

/-- C204. Files with different numbers of points, without points, or with two points which do not refer to each other, are
refused. -/
theorem maps_refused (rows cols : Nat) (flip : Bool) (off : Int) (ext : Bool) (fr fl : List Pt)
    (h : fr.length ≠ fl.length ∨ fr = [] ∨ ∃ e ∈ fr.zip fl, ¬ ∃ p : Pair, e.1 = p.rgb ∧ e.2 = p.lwir) :
    gtMaps rows cols flip off ext fr fl = none := by
  unfold gtMaps
  rcases h with h | h | ⟨e, he, hb⟩
  · exact if_neg fun hc => h hc.1
  · subst h
    exact if_neg fun hc => by have := hc.1; simp at this; have := hc.2; omega
  · by_cases hc : fr.length = fl.length ∧ fl.length ≥ 1
    · rw [if_pos hc, fill_bad flip off _ e he (by
        rw [Bool.eq_false_iff]; intro ha; exact hb ((agree_iff _ _).1 ha))]
    · rw [if_neg hc]

/-- Three pairs: the first is covered by the second, the third is on the wrong side and not shown. -/
def exPairs : List Pair := [⟨20, 1, -10⟩, ⟨20, 1, -12⟩, ⟨3, 2, 30⟩]

example : ∀ p ∈ exPairs, p.Shown false 0 → p.Inside 4 40 := by
  intro p hp _
  simp [exPairs] at hp
  rcases hp with rfl | rfl | rfl <;> simp [Pair.Inside]

example : lastOf false 0 exPairs (fun p => decide (p.y = 1 ∧ p.x = 20)) = 12 ∧
    lastOf false 0 exPairs (fun p => decide (p.y = 1 ∧ p.x + p.d = 10)) = 10 ∧
    lastOf false 0 exPairs (fun p => decide (p.y = 2 ∧ p.x = 3)) = 255 := by decide +kernel

/-- C205. For a range file from `a` to `b` with `a = 0` or `|a| > |b|`, at scale 1: the pixel matching an RGB pixel of
disparity `v` is, in the LWIR map, `v` pixels to the left (to the right when disparities are flipped), and has the same
disparity, as long as it is in the image and no later pair covers one of the two points. What is missing: other ranges, see
`disparity_match_refuted`. -/
theorem disparity_match_partial (rows cols : Nat) (a b : Int) (hab : a = 0 ∨ b.natAbs < a.natAbs) (flip : Bool)
    (off mn mx : Int) (hrange : Subset.rangeLitiv (some (a, b)) 1 = some (flip, off, mn, mx)) (ext : Bool)
    (pre post : List Pair) (p : Pair) (hr : 0 < rows) (ho : |off| < cols)
    (hin : ∀ q ∈ pre ++ p :: post, q.Shown flip off → q.Inside rows cols) (hs : p.Shown flip off)
    (hlast : ∀ q ∈ post, q.Shown flip off → (q.y = p.y → q.x ≠ p.x ∧ q.x + q.d ≠ p.x + p.d))
    (hm : 0 ≤ p.x + p.d + off ∧ p.x + p.d + off < cols) :
    ∃ R L, gtMaps rows cols flip off ext ((pre ++ p :: post).map Pair.rgb) ((pre ++ p :: post).map Pair.lwir) =
        some (R, L) ∧
      ∃ x v : Int, x = column cols (ext ^^ flip) p.x ∧ v = p.value flip off ∧ R.px p.y x = v ∧
        L.px p.y (if ext then x + v else x - v) = v := by
  obtain ⟨R, L, h, -, -, -, -, hp⟩ := maps_exact rows cols flip off ext (pre ++ p :: post) (by simp) hr ho hin
  refine ⟨R, L, h, _, _, rfl, rfl, ?_⟩
  have hcase : flip = true ∨ off = 0 := by
    unfold Subset.rangeLitiv at hrange
    dsimp only [Option.getD_some] at hrange
    rcases hab with rfl | hab
    · right
      simp only [Int.natAbs_zero, Nat.not_lt_zero, gt_iff_lt, if_false, ne_eq, not_true_eq_false] at hrange
      split at hrange
      · simp only [Option.some.injEq, Prod.mk.injEq] at hrange
        rw [← hrange.2.1]
        decide +kernel
      · simp at hrange
    · left
      rw [if_pos hab] at hrange
      dsimp only at hrange
      by_cases hz : -b ≠ 0
      · rw [if_pos hz] at hrange
        dsimp only at hrange
        split at hrange
        · simp only [Option.some.injEq, Prod.mk.injEq] at hrange
          exact hrange.1.symm
        · simp at hrange
      · rw [if_neg hz] at hrange
        dsimp only at hrange
        split at hrange
        · simp only [Option.some.injEq, Prod.mk.injEq] at hrange
          exact hrange.1.symm
        · simp at hrange
  obtain ⟨i1, i2, i3⟩ := hin p (by simp) hs
  -- where the match is
  have hx : (if ext then column cols (ext ^^ flip) p.x + p.value flip off
      else column cols (ext ^^ flip) p.x - p.value flip off) = column cols (ext ^^ flip) (p.x + p.d + off) := by
    unfold column Pair.value
    cases ext <;> cases flip <;> simp at hcase ⊢ <;> omega
  have hcc : ∀ z : Int, column cols (ext ^^ flip) (column cols (ext ^^ flip) z) = z := by
    intro z
    unfold column
    split <;> omega
  have hcr : ∀ z : Int, 0 ≤ z → z < cols → 0 ≤ column cols (ext ^^ flip) z ∧ column cols (ext ^^ flip) z < cols := by
    intro z a b
    unfold column
    split <;> omega
  refine ⟨?_, ?_⟩
  · obtain ⟨c1, c2⟩ := hcr p.x i2.1 i2.2
    rw [(hp p.y _ i1.1 i1.2 c1 c2).1, hcc]
    rw [lastOf_split flip off pre post p _ hs (by simp)]
    intro q hq hqs
    simp only [decide_eq_false_iff_not]
    rintro ⟨e1, e2⟩
    exact (hlast q hq hqs e1).1 e2
  · rw [hx]
    obtain ⟨c1, c2⟩ := hcr _ hm.1 hm.2
    rw [(hp p.y _ i1.1 i1.2 c1 c2).2, hcc]
    rw [lastOf_split flip off pre post p _ hs (by simp)]
    intro q hq hqs
    simp only [decide_eq_false_iff_not]
    rintro ⟨e1, e2⟩
    exact (hlast q hq hqs e1).2 (by omega)

example : Subset.rangeLitiv (some (-30, -2)) 1 = some (true, -2, 0, 28) := by decide +kernel

example : (⟨10, 1, 10⟩ : Pair).Shown true (-2) ∧ (⟨10, 1, 10⟩ : Pair).Inside 4 40 := by
  simp [Pair.Shown, Pair.value, Pair.Inside]

/-- C205 does not hold for other ranges. With a range from 2 to 30 the LWIR map is moved by two pixels to the left instead
of to the right: an RGB pixel at column 20 has disparity 8, but 8 pixels to its left the LWIR map is empty, and the
matching point is 12 pixels away. -/
theorem disparity_match_refuted :
    Subset.rangeLitiv (some (2, 30)) 1 = some (false, -2, 0, 28) ∧
    ∃ R L, gtMaps 4 40 false (-2) false [⟨20, 1, -10⟩] [⟨10, 1, 10⟩] = some (R, L) ∧
      R.px 1 20 = 8 ∧ L.px 1 (20 - 8) = 255 ∧ L.px 1 8 = 8 := by
  refine ⟨by decide +kernel, ?_⟩
  obtain ⟨R, L, h, -, -, -, -, hp⟩ := maps_exact 4 40 false (-2) false [⟨20, 1, -10⟩] (by simp) (by simp) (by simp)
    (by intro p hp _; simp at hp; subst hp; simp [Pair.Inside])
  refine ⟨R, L, h, ?_, ?_, ?_⟩
  · rw [(hp 1 20 (by simp) (by simp) (by simp) (by simp)).1]
    norm_cast
  · rw [(hp 1 (20 - 8) (by simp) (by simp) (by simp) (by simp)).2]
    norm_cast
  · rw [(hp 1 8 (by simp) (by simp) (by simp) (by simp)).2]
    norm_cast

/-- C206. `inverseRemapOutput` moves every pixel of an LWIR image back to where it was before the image was presented,
unless the offset pushed it out of the image. -/
theorem unpresent_present (m : Img ℚ) (flip : Bool) (off : Int) (ext : Bool) (ho : |off| < m.cols) (hr : 0 < m.rows) :
    ∃ o o', present flip off ext m = some o ∧ unpresent flip off ext o = some o' ∧
      o'.rows = m.rows ∧ o'.cols = m.cols ∧
      ∀ y x : Int, 0 ≤ y → y < m.rows → 0 ≤ x → x < m.cols →
        o'.px y x = if 0 ≤ x + off ∧ x + off < m.cols then m.px y x else 0 := by
  obtain ⟨s, e, s1, s2, hs⟩ := shiftBy_ok m off 0 ho hr
  obtain ⟨t, f, t1, t2, ht⟩ := shiftBy_ok s (-off) 0 (by rw [abs_neg, s2]; exact ho) (by rw [s1]; exact hr)
  have hmm : ∀ k : Img ℚ, mirror (mirror k) = k := by
    intro k
    obtain ⟨r, c, f⟩ := k
    simp [mirror]
  refine ⟨_, t, by unfold present; rw [e]; rfl, ?_, t1.trans s1, t2.trans s2, ?_⟩
  · unfold unpresent
    cases (ext ^^ flip)
    · exact f
    · simp only [if_true, hmm]
      exact f
  · intro y x a b c d
    rw [ht y x (by rw [Shift.has_iff, s1, s2]; exact ⟨⟨a, b⟩, c, d⟩), sub_neg_eq_add]
    by_cases hx : 0 ≤ x + off ∧ x + off < m.cols
    · rw [if_pos hx, if_pos (by rw [Shift.has_iff, s1, s2]; exact ⟨⟨a, b⟩, hx⟩),
        hs y _ (by rw [Shift.has_iff]; exact ⟨⟨a, b⟩, hx⟩), add_sub_cancel_right,
        if_pos (by rw [Shift.has_iff]; exact ⟨⟨a, b⟩, c, d⟩)]
    · rw [if_neg hx, if_neg]
      rw [Shift.has_iff, s1, s2]
      exact fun h => hx h.2

example : |(-2 : Int)| < ((blank 4 40).cols : Int) ∧ 0 < (blank 4 40).rows := by simp [blank]

end Litiv.Corresp
