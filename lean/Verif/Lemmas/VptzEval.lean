import Verif.Spec.VptzEval
import Mathlib.Tactic.Linarith
import Mathlib.Order.Interval.Finset.Nat
import Mathlib.Data.Finset.Card

/-!
# Lemmas about the evaluation of trackers
-/

namespace Litiv.VptzEval
open Litiv.Vptz Spec

theorem setupIdx_spec {t : Test} {a b : ℤ} (h : setupIdx t = some (a, b)) :
    t.gtFirst ≤ a ∧ b ≤ t.gtLast ∧ t.gtLast = t.gtFirst + t.gtCount - 1 ∧ 0 ≤ a ∧ a < t.camCount ∧ (0 ≤ t.nFirst → a = t.nFirst ∧ a < b) ∧ (t.nFirst < 0 → a = t.gtFirst) ∧ b ≤ t.nLast := by
  unfold setupIdx at h
  by_cases c1 : t.nFirst < t.nLast ∧ t.nLast > 0
  swap
  · rw [if_pos c1] at h; cases h
  rw [if_neg (not_not.2 c1)] at h
  by_cases c2 : t.fileCount = 0
  · rw [if_pos c2] at h; cases h
  rw [if_neg c2] at h
  by_cases c3 : t.fileCount = t.camCount
  swap
  · rw [if_pos c3] at h; cases h
  rw [if_neg (not_not.2 c3)] at h
  by_cases c4 : t.gtCount = 0
  · rw [if_pos c4] at h; cases h
  rw [if_neg c4] at h
  by_cases c5 : t.gtFirst > t.fileCount
  · rw [if_pos c5] at h; cases h
  rw [if_neg c5] at h
  by_cases c6 : (t.gtCount : ℤ) = t.gtLast - t.gtFirst + 1
  swap
  · rw [if_pos c6] at h; cases h
  rw [if_neg (not_not.2 c6)] at h
  dsimp only at h
  have hl : ∀ l, l = (if t.nLast < t.gtLast then t.nLast else t.gtLast) → l ≤ t.nLast ∧ l ≤ t.gtLast := by
    intro l e; split_ifs at e <;> omega
  generalize hle : (if t.nLast < t.gtLast then t.nLast else t.gtLast) = l at h
  have hl := hl l hle.symm
  by_cases c7 : t.nFirst < 0
  · rw [if_pos c7] at h
    by_cases c8 : t.gtFirst > t.camCount - 1 ∨ t.gtFirst < 0
    · rw [if_pos c8] at h; cases h
    · rw [if_neg c8] at h
      simp only [Option.some.injEq, Prod.mk.injEq] at h
      omega
  rw [if_neg c7] at h
  by_cases c8 : t.nFirst < t.gtFirst
  · rw [if_pos c8] at h; cases h
  rw [if_neg c8] at h
  by_cases c9 : t.nFirst ≥ l
  · rw [if_pos c9] at h; cases h
  rw [if_neg c9] at h
  by_cases c10 : t.nFirst > t.camCount - 1
  · rw [if_pos c10] at h; cases h
  rw [if_neg c10] at h
  simp only [Option.some.injEq, Prod.mk.injEq] at h
  omega

/-- What holds in every history. -/
structure Inv (s : Ev) : Prop where
  ready : s.running = true → s.ready = true
  range : s.ready = true → s.gtFirst ≤ s.first ∧ s.last ≤ s.gtFirst + s.gtCount - 1 ∧ 0 ≤ s.first ∧ s.first < s.camCount ∧ s.frameCount = s.last - s.first
  cur : s.queried = true → s.first ≤ s.cur ∧ s.cur ≤ s.last ∧ s.cur = s.pos ∧ s.running = true
  pos : s.running = true → s.first ≤ s.pos
  sorted : s.running = true → s.results.Pairwise (fun a b => b.pos < a.pos)
  bounds : s.running = true → ∀ r ∈ s.results, s.first < r.pos ∧ r.pos ≤ s.last ∧ r.pos ≤ s.pos ∧ (s.queried = true → r.pos < s.pos)
  queried : s.queried = true → s.first < s.pos
  count : s.running = true → s.processed = s.results.length ∧ s.oov = (outs s.results).length
  sums : s.running = true → s.err = ((ins s.results).map fun r => norm2 r.seen.x r.seen.y (half (2 * r.box.x + r.box.w)) (half (2 * r.box.y + r.box.h))).sum ∧
    s.off = ((ins s.results).map fun r => norm2 r.seen.x r.seen.y (r.seen.W / 2) (r.seen.H / 2)).sum ∧
    s.overlap = (s.results.map fun r => overlapRatio r.seen.box r.box).sum

theorem inv_create (multi : Bool) (tests : List Test) : Inv (create multi tests) := by
  constructor <;> intro h <;> simp [create] at h

theorem inv_setup {s : Ev} (h : Inv s) (i : ℤ) : Inv (setupTesting s i).2 := by
  unfold setupTesting
  split
  · exact h
  · split
    · exact h
    · dsimp only
      cases s.tests[i.toNat]? with
      | none => exact h
      | some t =>
        dsimp only
        cases hi : setupIdx t with
        | none => constructor <;> intro h <;> cases h
        | some ab =>
          obtain ⟨a, b⟩ := ab
          have hs := setupIdx_spec hi
          dsimp only
          cases t.rest with
          | error => constructor <;> intro h <;> cases h
          | cvError => constructor <;> intro h <;> cases h
          | fine =>
            constructor <;> intro h <;> try cases h
            dsimp only
            omega

theorem inv_begin {s : Ev} (h : Inv s) : Inv (beginTesting s).2 := by
  unfold beginTesting
  split
  · exact h
  · split
    · next h1 h2 =>
      have := h.range (by simpa using h1)
      omega
    · next h1 h2 =>
      constructor
      · intro _; simpa using h1
      · intro _; exact h.range (by simpa using h1)
      · intro h; cases h
      · intro _; exact le_refl _
      · intro _; exact List.Pairwise.nil
      · intro _ r hr; cases hr
      · intro h; cases h
      · intro _; exact ⟨rfl, rfl⟩
      · intro _; simp [ins]

theorem inv_next {s : Ev} (h : Inv s) (m : Bool) (p : ℤ) : Inv (nextFrame s m p).2 := by
  unfold nextFrame
  split
  · exact h
  · next h0 =>
    simp only [not_not] at h0
    split
    · exact h
    · dsimp only
      have hpos : ∀ q, (q = if s.pos ≥ s.camCount then s.pos else max p (s.pos + 1)) → s.pos ≤ q := by
        intro q hq; split_ifs at hq <;> omega
      have hpos' : ¬s.pos ≥ s.camCount → ∀ q, (q = if s.pos ≥ s.camCount then s.pos else max p (s.pos + 1)) → s.pos < q := by
        intro hn q hq; rw [if_neg hn] at hq; omega
      generalize hq : (if s.pos ≥ s.camCount then s.pos else max p (s.pos + 1)) = q
      have hle := hpos q hq.symm
      have hf := h.pos h0.2
      split
      · refine ⟨h.ready, h.range, (by intro h; cases h), fun _ => ?_, h.sorted, fun hr r hm => ?_, (by intro h; cases h), h.count, h.sums⟩
        · show s.first ≤ q
          omega
        · have := h.bounds hr r hm
          exact ⟨this.1, this.2.1, le_trans this.2.2.1 hle, (by intro h; cases h)⟩
      · next h2 =>
        simp only [not_or, not_not] at h2
        have hlt := hpos' h2.1 q hq.symm
        split
        · refine ⟨h.ready, h.range, (by intro h; cases h), fun _ => ?_, h.sorted, fun hr r hm => ?_, (by intro h; cases h), h.count, h.sums⟩
          · show s.first ≤ q
            omega
          · have := h.bounds hr r hm
            exact ⟨this.1, this.2.1, le_trans this.2.2.1 hle, (by intro h; cases h)⟩
        · next h3 =>
          simp only [not_or, not_lt, gt_iff_lt] at h3
          refine ⟨h.ready, h.range, fun _ => ⟨h3.1, h3.2, rfl, h0.2⟩, fun _ => ?_, h.sorted, fun hr r hm => ?_, fun _ => ?_, h.count, h.sums⟩
          · show s.first ≤ q
            omega
          · have := h.bounds hr r hm
            exact ⟨this.1, this.2.1, le_trans this.2.2.1 hle, fun _ => lt_of_le_of_lt this.2.2.1 hlt⟩
          · show s.first < q
            omega

theorem inv_end {s : Ev} (h : Inv s) : Inv (endTesting s).2 := by
  unfold endTesting
  split
  · exact h
  · constructor <;> intro h <;> cases h

theorem update_index {s : Ev} (h : Inv s) (g : Option Seen) (b : Rect) : update s g b ≠ .badIndex := by
  unfold update
  split
  · intro hc; cases hc
  · split
    · intro hc; cases hc
    · next h1 h2 =>
      simp only [not_not] at h1
      have hr := h.range h1.1
      have hc := h.cur (by simpa using h2)
      split
      · omega
      · split <;> intro hc <;> cases hc

theorem inv_update {s s' : Ev} (h : Inv s) (g : Option Seen) (b : Rect) {r : Bool} (hs : update s g b = .done r s') : Inv s' := by
  unfold update at hs
  split at hs
  · cases hs; exact h
  · split at hs
    · cases hs; exact h
    · split at hs
      · cases hs
      · next h1 h2 h3 =>
        simp only [not_not] at h1
        have hq : s.queried = true := by simpa using h2
        have hc := h.cur hq
        cases g with
        | none => cases hs; exact h
        | some g =>
          cases hs
          refine ⟨h.ready, h.range, (by intro h; cases h), h.pos, fun hr => ?_, fun hr r hm => ?_, (by intro h; cases h), fun hr => ?_, fun hr => ?_⟩
          · refine List.pairwise_cons.2 ⟨fun r hm => ?_, h.sorted hr⟩
            have := (h.bounds hr r hm).2.2.2 hq
            show r.pos < s.cur
            omega
          · dsimp only at hm ⊢
            rcases List.mem_cons.1 hm with e | hm
            · subst e
              have := h.queried hq
              dsimp only
              refine ⟨by omega, by omega, by omega, (by intro h; cases h)⟩
            · have := h.bounds hr r hm
              exact ⟨this.1, this.2.1, this.2.2.1, (by intro h; cases h)⟩
          · obtain ⟨c1, c2⟩ := h.count hr
            refine ⟨by dsimp only; rw [c1]; rfl, ?_⟩
            dsimp only [outs]
            rw [List.filter_cons]
            dsimp only
            split
            · rw [c2]; rfl
            · exact c2
          · obtain ⟨e1, e2, e3⟩ := h.sums hr
            dsimp only [ins]
            rw [List.filter_cons]
            dsimp only
            refine ⟨?_, ?_, ?_⟩
            · cases outOfView g b
              · simp only [Bool.false_eq_true, if_false, Bool.not_false, if_true, List.map_cons, List.sum_cons]
                rw [e1, add_comm]; rfl
              · simp only [Bool.not_true, Bool.false_eq_true, if_false, if_true]
                exact e1
            · cases outOfView g b
              · simp only [Bool.false_eq_true, if_false, Bool.not_false, if_true, List.map_cons, List.sum_cons]
                rw [e2, add_comm]; rfl
              · simp only [Bool.not_true, Bool.false_eq_true, if_false, if_true]
                exact e2
            · rw [List.map_cons, List.sum_cons, e3, add_comm]

theorem reach_inv {multi : Bool} {tests : List Test} {s : Ev} (h : Reach multi tests s) : Inv s := by
  induction h with
  | init => exact inv_create multi tests
  | step h o hs ih =>
    cases o with
    | setup i => cases hs; exact inv_setup ih i
    | begin => cases hs; exact inv_begin ih
    | next m p => cases hs; exact inv_next ih m p
    | update g b => exact inv_update ih g b hs
    | finish => cases hs; exact inv_end ih

/-! ## Rectangles -/

theorem card_pixels (r : Rect) (hw : 0 ≤ r.w) (hh : 0 ≤ r.h) : ((pixels r).card : ℤ) = area r := by
  unfold pixels area
  rw [Finset.card_product, Int.card_Ico, Int.card_Ico]
  push_cast
  rw [Int.toNat_of_nonneg (by omega), Int.toNat_of_nonneg (by omega)]
  ring

theorem pixels_inter (a b : Rect) (ha : 0 ≤ a.w ∧ 0 ≤ a.h) (hb : 0 ≤ b.w ∧ 0 ≤ b.h) : ((pixels a ∩ pixels b).card : ℤ) = area (inter a b) := by
  have e : pixels a ∩ pixels b = Finset.Ico (max a.x b.x) (min (a.x + a.w) (b.x + b.w)) ×ˢ Finset.Ico (max a.y b.y) (min (a.y + a.h) (b.y + b.h)) := by
    unfold pixels
    ext ⟨u, v⟩
    simp only [Finset.mem_inter, Finset.mem_product, Finset.mem_Ico, max_le_iff, lt_min_iff]
    omega
  rw [e, Finset.card_product, Int.card_Ico, Int.card_Ico]
  unfold inter area
  dsimp only
  push_cast
  split
  · next h =>
    rcases h with h | h
    · rw [Int.toNat_of_nonpos (by omega)]; simp
    · rw [Int.toNat_of_nonpos (z := min (a.y + a.h) (b.y + b.h) - max a.y b.y) (by omega)]; simp
  · next h =>
    simp only [not_or, not_le] at h
    rw [Int.toNat_of_nonneg (by omega), Int.toNat_of_nonneg (by omega)]

theorem card_union (a b : Rect) (ha : 0 ≤ a.w ∧ 0 ≤ a.h) (hb : 0 ≤ b.w ∧ 0 ≤ b.h) : ((pixels a ∪ pixels b).card : ℤ) = area a + area b - area (inter a b) := by
  have h := Finset.card_union_add_card_inter (pixels a) (pixels b)
  have h1 := card_pixels a ha.1 ha.2
  have h2 := card_pixels b hb.1 hb.2
  have h3 := pixels_inter a b ha hb
  have h' : ((pixels a ∪ pixels b).card : ℤ) + ((pixels a ∩ pixels b).card : ℤ) = (pixels a).card + (pixels b).card := by exact_mod_cast h
  rw [← h1, ← h2, ← h3]
  linarith

/-! ## The file -/

/-- What is open. -/
def expected (multi running ready : Bool) : File :=
  some (if multi then (if running then [false, true, false] else if ready then [true, false] else [false]) else if running then [false] else [])

/-- The file is as expected. -/
structure FInv (s : Ev) : Prop where
  ready : s.running = true → s.ready = true
  file : s.file = expected s.multi s.running s.ready

theorem finv_step {s : Ev} (h : FInv s) (o : Op) (ho : o = .begin → s.running = false) (ht : ∀ t ∈ s.tests, t.rest ≠ .cvError) {r : Bool} {s' : Ev}
    (hs : step s o = .done r s') : FInv s' ∧ s'.tests = s.tests ∧ s'.multi = s.multi := by
  obtain ⟨multi, tests, running, ready, queried, idx, first, last, gtFirst, gtCount, frameCount, pos, camCount, cur, results, oov, processed, err, off, overlap, file⟩ := s
  obtain ⟨h1, h2⟩ := h
  dsimp only at h1 h2 ho ht
  subst h2
  cases o with
  | setup i =>
    cases hs
    unfold setupTesting
    dsimp only
    split
    · exact ⟨⟨h1, rfl⟩, rfl, rfl⟩
    · split
      · exact ⟨⟨h1, rfl⟩, rfl, rfl⟩
      · next hr =>
        have hr' : running = false := by simpa using hr
        subst hr'
        cases hg : tests[i.toNat]? with
        | none => exact ⟨⟨h1, rfl⟩, rfl, rfl⟩
        | some t =>
          have htm := ht t (List.mem_of_getElem? hg)
          dsimp only
          cases setupIdx t with
          | none => refine ⟨⟨(by intro h; cases h), ?_⟩, rfl, rfl⟩; cases multi <;> cases ready <;> rfl
          | some ab =>
            dsimp only
            cases hre : t.rest with
            | error => refine ⟨⟨(by intro h; cases h), ?_⟩, rfl, rfl⟩; cases multi <;> cases ready <;> rfl
            | cvError => exact absurd hre htm
            | fine => refine ⟨⟨(by intro h; cases h), ?_⟩, rfl, rfl⟩; cases multi <;> cases ready <;> rfl
  | begin =>
    cases hs
    have hr := ho rfl
    subst hr
    unfold beginTesting
    dsimp only
    split
    · exact ⟨⟨h1, rfl⟩, rfl, rfl⟩
    · next hrd =>
      have hrd' : ready = true := by simpa using hrd
      subst hrd'
      split
      · refine ⟨⟨(by intro h; cases h), ?_⟩, rfl, rfl⟩; cases multi <;> rfl
      · refine ⟨⟨(by intro h; rfl), ?_⟩, rfl, rfl⟩; cases multi <;> rfl
  | next m p =>
    cases hs
    unfold nextFrame
    dsimp only
    split
    · exact ⟨⟨h1, rfl⟩, rfl, rfl⟩
    · split
      · exact ⟨⟨h1, rfl⟩, rfl, rfl⟩
      · generalize (if pos ≥ camCount then pos else max p (pos + 1)) = q
        split
        · exact ⟨⟨h1, rfl⟩, rfl, rfl⟩
        · split <;> exact ⟨⟨h1, rfl⟩, rfl, rfl⟩
  | update g b =>
    simp only [step, update] at hs
    split at hs
    · cases hs; exact ⟨⟨h1, rfl⟩, rfl, rfl⟩
    · next h0 =>
      simp only [not_not] at h0
      obtain ⟨hr, hn⟩ := h0
      subst hr hn
      split at hs
      · cases hs; exact ⟨⟨h1, rfl⟩, rfl, rfl⟩
      · split at hs
        · cases hs
        · cases g with
          | none => cases hs; exact ⟨⟨h1, rfl⟩, rfl, rfl⟩
          | some g => cases hs; refine ⟨⟨h1, ?_⟩, rfl, rfl⟩; cases multi <;> rfl
  | finish =>
    cases hs
    unfold endTesting
    dsimp only
    split
    · exact ⟨⟨h1, rfl⟩, rfl, rfl⟩
    · next hr =>
      have hr' : running = true := by simpa using hr
      have := h1 hr'
      subst hr' this
      refine ⟨⟨(by intro h; cases h), ?_⟩, rfl, rfl⟩; cases multi <;> rfl

theorem finv_reach {multi : Bool} {tests : List Test} {s : Ev} (h : ReachOnce multi tests s) : FInv s ∧ s.tests = tests ∧ s.multi = multi := by
  induction h with
  | init => refine ⟨⟨(by intro h; cases h), ?_⟩, rfl, rfl⟩; cases multi <;> rfl
  | step h o ho ht hs ih =>
    obtain ⟨a, b, c⟩ := ih
    obtain ⟨a', b', c'⟩ := finv_step a o ho (by rw [b]; exact ht) hs
    exact ⟨a', b'.trans b, c'.trans c⟩

end Litiv.VptzEval
