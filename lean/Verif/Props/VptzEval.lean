import Verif.Lemmas.VptzEval

/-!
# C138 — evaluation of trackers: frames and file; C139 — its measures
-/

namespace Litiv.VptzEval
open Litiv.Vptz Spec

/-! ## C138: which frames are evaluated -/

/-- **C138, proved part.** If a test can be set up, its first frame is in the video, all of its frames have a ground truth, it ends no later than was
asked for, and, if a first frame was asked for, it starts with this frame and is not empty. (Missing: a test that starts where the ground truth
does, see `setup_refuted`.) -/
theorem setup_partial {t : Test} {a b : ℤ} (h : setupIdx t = some (a, b)) :
    (0 ≤ a ∧ a < t.camCount) ∧ b ≤ t.nLast ∧ (∀ f, a ≤ f → f ≤ b → 0 ≤ f - t.gtFirst ∧ f - t.gtFirst < t.gtCount) ∧ (0 ≤ t.nFirst → a = t.nFirst ∧ a < b) := by
  have := setupIdx_spec h
  refine ⟨⟨by omega, by omega⟩, by omega, fun f h1 h2 => ⟨by omega, by omega⟩, this.2.2.2.2.2.1⟩

example : setupIdx ⟨5, 20, 100, 100, 3, 99, 97, .fine⟩ = some (5, 20) := by decide

/-- **C138, refuted.** With a negative index (the first frame of the ground truth) the end of the test is not compared to its beginning: a test can be set
up that ends before it starts, with a negative number of frames. -/
theorem setup_refuted : ∃ t a b, setupIdx t = some (a, b) ∧ b - a = -4 := ⟨⟨-1, 1, 100, 100, 5, 99, 95, .fine⟩, 5, 1, by decide, by decide⟩

/-- **C138.** Whatever is called, in any order, the ground truth of a result is one that exists: its index is never out of range. -/
theorem gt_index {multi : Bool} {tests : List Test} {s : Ev} (h : Reach multi tests s) (g : Option Seen) (b : Rect) : update s g b ≠ .badIndex :=
  update_index (reach_inv h) g b

/-- **C138.** During a test, the results are those of frames that follow one another, each evaluated at most once, after the first frame of the test and
not after its last; so there are at most as many as the number of frames that was announced. -/
theorem frames_once {multi : Bool} {tests : List Test} {s : Ev} (h : Reach multi tests s) (hr : s.running = true) :
    s.results.Pairwise (fun a b => b.pos < a.pos) ∧ (∀ r ∈ s.results, s.first < r.pos ∧ r.pos ≤ s.last) ∧ s.processed = s.results.length ∧
      (s.results ≠ [] → (s.processed : ℤ) ≤ s.frameCount) := by
  have hi := reach_inv h
  refine ⟨hi.sorted hr, fun r hm => ⟨(hi.bounds hr r hm).1, (hi.bounds hr r hm).2.1⟩, (hi.count hr).1, fun hne => ?_⟩
  have hc := (hi.range (hi.ready hr)).2.2.2.2
  rw [(hi.count hr).1, hc]
  have key : ∀ l : List Result, l.Pairwise (fun a b => b.pos < a.pos) → (∀ r ∈ l, s.first < r.pos ∧ r.pos ≤ s.last) → ∀ r ∈ l.head?, (l.length : ℤ) ≤ r.pos - s.first := by
    intro l hp hb
    induction l with
    | nil => intro r hr; cases hr
    | cons a l ih =>
      intro r hr
      cases Option.some.inj hr
      have ha := hb a List.mem_cons_self
      cases l with
      | nil => simp only [List.length_cons, List.length_nil]; omega
      | cons b l =>
        have h1 := ih (List.pairwise_cons.1 hp).2 (fun r hm => hb r (List.mem_cons_of_mem _ hm)) b rfl
        have h2 := (List.pairwise_cons.1 hp).1 b List.mem_cons_self
        simp only [List.length_cons] at h1 ⊢
        push_cast at h1 ⊢
        omega
  cases hl : s.results with
  | nil => exact absurd hl hne
  | cons a l =>
    have h1 := key s.results (hi.sorted hr) (fun r hm => ⟨(hi.bounds hr r hm).1, (hi.bounds hr r hm).2.1⟩) a (by rw [hl]; rfl)
    have h2 := (hi.bounds hr a (by rw [hl]; exact List.mem_cons_self)).2.1
    rw [hl] at h1
    omega

/-- **C138.** A frame that is returned (so that its result can be given) is one of the test, after all those already evaluated. -/
theorem next_frame {multi : Bool} {tests : List Test} {s : Ev} (h : Reach multi tests s) (m : Bool) (p : ℤ) {s' : Ev} (hn : nextFrame s m p = (true, s'))
    (hq : s'.queried = true) : s.first < s'.cur ∧ s'.cur ≤ s.last ∧ s.pos < s'.cur ∧ s'.cur < s.camCount ∧ ∀ r ∈ s'.results, r.pos < s'.cur := by
  have hi := reach_inv h
  have hi' : Inv s' := by have := inv_next hi m p; rw [hn] at this; exact this
  unfold nextFrame at hn
  split at hn
  · cases hn
  · next h0 =>
    simp only [not_not] at h0
    split at hn
    · cases hn
    · dsimp only at hn
      have hq' : ∀ q, (q = if s.pos ≥ s.camCount then s.pos else max p (s.pos + 1)) → ¬s.pos ≥ s.camCount → s.pos < q := by
        intro q hq hn; rw [if_neg hn] at hq; omega
      generalize hqe : (if s.pos ≥ s.camCount then s.pos else max p (s.pos + 1)) = q at hn
      split at hn
      · cases hn; cases hq
      · split at hn
        · cases hn; cases hq
        · next h2 h3 =>
          simp only [not_or, not_lt, gt_iff_lt] at h2 h3
          have hlt := hq' q hqe.symm h2.1
          have hf := hi.pos h0.2
          cases hn
          dsimp only
          refine ⟨by omega, h3.2, hlt, not_le.1 h2.2, fun r hm => ?_⟩
          exact (hi'.bounds h0.2 r hm).2.2.2 rfl

/-! ## C138: the file -/

/-- **C138, proved part.** When the evaluator is destroyed, the file of results is complete: every bracket is closed by the one that matches it, and
every element is where it can be — if a test is never begun while another one runs, the last one was ended, and OpenCV threw nothing while tests were
set up. Failed calls (and tests that cannot be set up) do no harm. -/
theorem file_complete_partial {multi : Bool} {tests : List Test} {s : Ev} (h : ReachOnce multi tests s) (hr : s.running = false) : destroy s = some ([] : List Bool) := by
  obtain ⟨⟨-, hf⟩, -, -⟩ := finv_reach h
  unfold destroy
  rw [hf, hr]
  cases s.multi <;> cases s.ready <;> rfl

/-- **C138.** Under the same conditions nothing is ever written where it cannot be. -/
theorem file_valid_partial {multi : Bool} {tests : List Test} {s : Ev} (h : ReachOnce multi tests s) : ∃ l : List Bool, s.file = some l := by
  obtain ⟨⟨-, hf⟩, -, -⟩ := finv_reach h
  exact ⟨_, hf⟩

/-- A test with the first three frames of a video. -/
def test0 : Test := ⟨0, 2, 10, 10, 0, 9, 10, .fine⟩

/-- Runs calls; `none` if one of them has a bad index. -/
noncomputable def runOps (s : Ev) : List Op → Option Ev
  | [] => some s
  | o :: os => match step s o with | .badIndex => none | .done _ s' => runOps s' os

theorem runOps_reach {multi : Bool} {tests : List Test} {s s' : Ev} (h : Reach multi tests s) (os : List Op) (hr : runOps s os = some s') : Reach multi tests s' := by
  induction os generalizing s with
  | nil => cases Option.some.inj hr; exact h
  | cons o os ih =>
    rw [runOps] at hr
    cases hs : step s o with
    | badIndex => rw [hs] at hr; cases hr
    | done r t => rw [hs] at hr; exact ih (Reach.step h o hs) hr

/-- **C138, refuted.** The file is broken if a test is begun twice, if the evaluator is destroyed while a test runs, or if OpenCV throws while a test is
set up (its exceptions are not caught) and another one is set up after it. -/
theorem file_complete_refuted :
    (∃ s, Reach true [test0] s ∧ s.running = true ∧ destroy s = none) ∧
    (∃ s, Reach true [test0] s ∧ s.running = true ∧ s.file = none) ∧
    (∃ s, Reach true [{ test0 with rest := .cvError }, test0] s ∧ s.ready = true ∧ s.running = false ∧ s.file = none) := by
  refine ⟨?_, ?_, ?_⟩
  · exact ⟨_, runOps_reach Reach.init [.setup 0, .begin] rfl, rfl, rfl⟩
  · exact ⟨_, runOps_reach Reach.init [.setup 0, .begin, .begin] rfl, rfl, rfl⟩
  · exact ⟨_, runOps_reach Reach.init [.setup 0, .setup 1] rfl, rfl, rfl, rfl⟩

/-- A history that is allowed: a test with a frame and its result, then a failed call. -/
example : ∃ s, ReachOnce true [test0] s ∧ s.running = false ∧ s.idx = -1 := by
  have ht : ∀ t ∈ [test0], t.rest ≠ .cvError := by intro t hm; cases List.mem_singleton.1 hm; decide
  exact ⟨_, ((((ReachOnce.init.step (.setup 0) (by intro h; cases h) ht rfl).step .begin (by intro h; rfl) ht rfl).step (.next true 1) (by intro h; cases h) ht rfl).step
    .finish (by intro h; cases h) ht rfl).step (.setup 7) (by intro h; cases h) ht rfl, rfl, rfl⟩

/-! ## C139: measures -/

/-- **C139.** The overlap of two boxes, at least one of which is not empty, is the number of pixels that they have in common over the number of pixels that
one of them has: it is between 0 and 1, it is 1 for boxes with the same pixels only, and 0 for boxes with no pixel in common only. -/
theorem overlap_jaccard (a b : Rect) (ha : 0 ≤ a.w ∧ 0 ≤ a.h) (hb : 0 ≤ b.w ∧ 0 ≤ b.h) (hne : (pixels a ∪ pixels b).Nonempty) :
    overlapRatio a b = ((pixels a ∩ pixels b).card : ℝ) / (pixels a ∪ pixels b).card ∧ 0 ≤ overlapRatio a b ∧ overlapRatio a b ≤ 1 ∧
      (overlapRatio a b = 1 ↔ pixels a = pixels b) ∧ (overlapRatio a b = 0 ↔ Disjoint (pixels a) (pixels b)) := by
  have e : overlapRatio a b = ((pixels a ∩ pixels b).card : ℝ) / (pixels a ∪ pixels b).card := by
    unfold overlapRatio
    rw [← card_union a b ha hb, ← pixels_inter a b ha hb]
    push_cast
    rfl
  have hpos : (0 : ℝ) < (pixels a ∪ pixels b).card := by exact_mod_cast Finset.card_pos.2 hne
  have hsub : pixels a ∩ pixels b ⊆ pixels a ∪ pixels b := fun x hx => Finset.mem_union_left _ (Finset.mem_inter.1 hx).1
  have hle : ((pixels a ∩ pixels b).card : ℝ) ≤ (pixels a ∪ pixels b).card := by exact_mod_cast Finset.card_le_card hsub
  rw [e]
  refine ⟨rfl, by positivity, by rw [div_le_one hpos]; exact hle, ?_, ?_⟩
  · rw [div_eq_one_iff_eq hpos.ne']
    constructor
    · intro h
      have h1 : pixels a ∩ pixels b = pixels a ∪ pixels b := Finset.eq_of_subset_of_card_le hsub (le_of_eq (by exact_mod_cast h.symm))
      ext x
      constructor
      · intro hx
        have : x ∈ pixels a ∩ pixels b := by rw [h1]; exact Finset.mem_union_left _ hx
        exact (Finset.mem_inter.1 this).2
      · intro hx
        have : x ∈ pixels a ∩ pixels b := by rw [h1]; exact Finset.mem_union_right _ hx
        exact (Finset.mem_inter.1 this).1
    · intro h
      rw [h, Finset.inter_self, Finset.union_self]
  · rw [div_eq_zero_iff, or_iff_left hpos.ne', Nat.cast_eq_zero, Finset.card_eq_zero, Finset.disjoint_iff_inter_eq_empty]

example : overlapRatio ⟨0, 0, 2, 2⟩ ⟨1, 0, 2, 2⟩ = 1 / 3 := by
  unfold overlapRatio
  have e1 : area (inter ⟨0, 0, 2, 2⟩ ⟨1, 0, 2, 2⟩) = 2 := by decide
  rw [e1]
  have e2 : area ⟨0, 0, 2, 2⟩ = 4 := by decide
  have e3 : area ⟨1, 0, 2, 2⟩ = 4 := by decide
  rw [e2, e3]; norm_num

/-- **C139, refuted.** For two empty boxes the overlap is zero divided by zero. -/
theorem overlap_empty_refuted (a b : Rect) (ha : area a = 0) (hb : area b = 0) (hi : a.w = 0 ∨ b.w = 0) :
    area (inter a b) = 0 ∧ area a + area b - area (inter a b) = 0 := by
  have h : area (inter a b) = 0 := by
    unfold inter
    dsimp only
    rw [if_pos (Or.inl (by omega))]
    rfl
  rw [h, ha, hb]
  exact ⟨rfl, rfl⟩

/-- **C139, proved part.** What is averaged: when a test ends, the average error is the mean, over the frames counted as in view, of the distance between the
target and the centre of the box of the tracker, if there are such frames; the average offset is that of the distance between the target and the centre of
the image; the fragmentation is the proportion of frames counted as out of view. -/
theorem averages_partial {multi : Bool} {tests : List Test} {s : Ev} (h : Reach multi tests s) (hr : s.running = true) (hn : ins s.results ≠ []) :
    (averages s).err = ((ins s.results).map fun r => norm2 r.seen.x r.seen.y (half (2 * r.box.x + r.box.w)) (half (2 * r.box.y + r.box.h))).sum / (ins s.results).length ∧
    (averages s).off = ((ins s.results).map fun r => norm2 r.seen.x r.seen.y (r.seen.W / 2) (r.seen.H / 2)).sum / (ins s.results).length ∧
    (averages s).frag = ((outs s.results).length : ℝ) / s.results.length := by
  have hi := reach_inv h
  obtain ⟨c1, c2⟩ := hi.count hr
  obtain ⟨e1, e2, -⟩ := hi.sums hr
  have hlen : (ins s.results).length + (outs s.results).length = s.results.length := by
    unfold ins outs
    generalize s.results = l
    induction l with
    | nil => rfl
    | cons a l ih =>
      rw [List.filter_cons, List.filter_cons]
      cases outOfView a.seen a.box <;> simp <;> omega
  have hpos : 1 ≤ (ins s.results).length := List.length_pos_iff.2 hn
  have hmax : (max ((s.processed : ℤ) - s.oov) 1 : ℤ) = ((ins s.results).length : ℤ) := by
    rw [c1, c2]
    omega
  unfold averages
  dsimp only
  rw [hmax, ← e1, ← e2, c1, c2]
  push_cast
  exact ⟨rfl, rfl, rfl⟩

/-- **C139.** The centre of a box, rounded to an integer. -/
theorem half_near (n : ℤ) : 2 * half n = n ∨ 2 * half n = n + 1 ∨ 2 * half n = n - 1 := by
  unfold half
  split_ifs <;> omega

/-- The target on the right of a wide image, and the box of the tracker around it. -/
def right0 : Seen := ⟨500, 100, ⟨490, 90, 20, 20⟩, 640, 480⟩

/-- The target in the middle of the image. -/
def mid0 : Seen := ⟨320, 240, ⟨310, 230, 20, 20⟩, 640, 480⟩

/-- **C139, refuted.** The test of whether the target is in the image compares its column with the number of rows: targets on the right of a wide image
are counted as out of view, and targets below the image as in view. -/
theorem out_of_view_refuted :
    InImage right0 ∧ outOfView right0 ⟨490, 90, 20, 20⟩ = true ∧ ¬InImage ⟨100, 2000, ⟨0, 0, 0, 0⟩, 640, 480⟩ ∧
      outOfView ⟨100, 2000, ⟨0, 0, 0, 0⟩, 640, 480⟩ ⟨490, 90, 20, 20⟩ = false := by
  refine ⟨?_, by decide, ?_, by decide⟩
  · exact ⟨by decide, by decide⟩
  · rintro ⟨-, -, h⟩
    exact absurd h (by decide)

/-- **C139, refuted.** A perfect tracker: in a test of two frames, both with an overlap of 1, the average overlap is 2, because the frame that is
counted as out of view adds to the sum but not to the number of frames; and the ratio of processed frames is 2, because the number of frames is
decreased by one. -/
theorem averages_refuted :
    ∃ s, Reach true [test0] s ∧ s.running = true ∧ s.processed = 2 ∧ (∀ r ∈ s.results, overlapRatio r.seen.box r.box = 1) ∧ (averages s).overlap = 2 ∧ (averages s).processed = 2 := by
  have one : ∀ g : Seen, 0 < area g.box → area (inter g.box g.box) = area g.box → overlapRatio g.box g.box = 1 := by
    intro g h0 h
    unfold overlapRatio
    rw [h]
    have : ((area g.box : ℤ) : ℝ) ≠ 0 := by exact_mod_cast h0.ne'
    rw [show area g.box + area g.box - area g.box = area g.box by ring]
    exact div_self this
  have o1 := one right0 (by decide) (by decide)
  have o2 := one mid0 (by decide) (by decide)
  have hr : Reach true [test0] _ := runOps_reach Reach.init [.setup 0, .begin, .next true 1, .update (some right0) right0.box, .next true 2, .update (some mid0) mid0.box] rfl
  refine ⟨_, hr, rfl, rfl, ?_, ?_, ?_⟩
  · intro r hm
    have hm' : r ∈ [(⟨2, mid0, mid0.box⟩ : Result), ⟨1, right0, right0.box⟩] := hm
    simp only [List.mem_cons, List.not_mem_nil, or_false] at hm'
    rcases hm' with e | e
    · rw [e]; exact o2
    · rw [e]; exact o1
  · show ((0 : ℝ) + overlapRatio right0.box right0.box + overlapRatio mid0.box mid0.box) / ((max (((0 + 1 + 1 : ℕ) : ℤ) - ((0 + 1 : ℕ) : ℤ)) 1 : ℤ) : ℝ) = 2
    rw [o1, o2]; norm_num
  · show (((0 + 1 + 1 : ℕ) : ℝ)) / (((2 - 0 : ℤ) - 1 : ℤ) : ℝ) = 2
    norm_num

end Litiv.VptzEval
