import Verif.Lemmas.Bsds
import Verif.Props.Thinning
import Mathlib.Tactic.NormNum

/-!
# Properties C180-C182: counters of the edge map evaluation
-/

namespace Litiv.Bsds
open Spec

/-! ## C180: benchmark matching -/

/-- C180: the graph built for one groundtruth mask exactly fills the rows allocated for it, for every pair of masks and
every random draw, and no two rows link the same two nodes. -/
theorem graph_fits (g : Geo) (hd : 0 < g.d) (wt : Int → Int) (ow : Int) (r : Rand) (hr : KofN.Spec.HalfOpen r.rr)
    (segm gt : Mask) (s : Nat × Nat) :
    ∃ gr s', graph g wt ow r segm gt s = some (gr, s') ∧
      gr.length = edgeCount (realEdges g wt segm gt).length (nodesS g segm gt).length (nodesG g segm gt).length ∧
      (gr.map fun e => (e.1, e.2.1)).Nodup := by
  obtain ⟨gr, s', h1, h2, _⟩ := graph_ok hd wt ow r hr segm gt s
  exact ⟨gr, s', h1, h2, graph_simple hd wt ow r hr segm gt s h1⟩

open Classical in
/-- C180: for every thinned detection mask and every list of groundtruth masks, whatever the random outlier connections (with
draws in `[0, 1)`) and whatever perfect matching the solver returns, the evaluation ends without a failed assertion. For each
groundtruth mask the solver is given a solvable graph that links exactly the detected and groundtruth pixels in range,
and the links of its answer between such pixels form a one-to-one matching. Recall counts the matched pairs over all the
groundtruth pixels, precision counts the detected pixels matched at least once over all detected pixels. -/
theorem bench_counts (g : Geo) (hd : 0 < g.d) (wt : Int → Int) (ow : Int) (r : Rand) (hr : KofN.Spec.HalfOpen r.rr)
    (solve : Nat → List Edge → List Edge) (hs : Solver solve) (gts : List Mask) (segm : Mask) (s : Nat × Nat) :
    ∃ c s' Ms, evalBench g wt ow r solve gts segm s = some (c, s') ∧
      List.Forall₂ (fun gt M => Matched g wt solve segm gt M) gts Ms ∧
      c.indivTP = (Ms.map Finset.card).sum ∧ c.indivTPFN = (gts.map fun gt => (On g gt).card).sum ∧
      c.totalTP = ((On g segm).filter fun q => ∃ M ∈ Ms, ∃ p, (q, p) ∈ M).card ∧
      c.totalTPFP = (On g segm).card := by
  obtain ⟨a, s', Ms, e, h1, h2, h3, h4⟩ := loop_masks hd wt ow r hr solve hs segm gts ⟨0, 0, fun _ _ => false⟩ s
  have hin : ∀ M ∈ Ms, ∀ q p, (q, p) ∈ M → q ∈ On g segm := by
    have : ∀ (gts : List Mask) (Ms : List (Finset ((Nat × Nat) × (Nat × Nat)))),
        List.Forall₂ (fun gt M => Matched g wt solve segm gt M) gts Ms →
        ∀ M ∈ Ms, ∀ q p, (q, p) ∈ M → q ∈ On g segm := by
      intro gts Ms h
      induction h with
      | nil => simp
      | cons hm _ ih =>
        intro M hM q p hqp
        rcases List.mem_cons.1 hM with rfl | hM
        · obtain ⟨_, _, _, _, _, _, im, _⟩ := hm
          exact (im.close _ hqp).1
        · exact ih M hM q p hqp
    exact this gts Ms h1
  have hle : (Ms.map Finset.card).sum ≤ (gts.map fun gt => (On g gt).card).sum := by
    clear h2 h3 h4 hin e
    induction h1 with
    | nil => simp
    | cons hm _ ih =>
      obtain ⟨_, _, _, _, _, _, im, _⟩ := hm
      have := matching_card im
      simp only [List.map_cons, List.sum_cons]
      omega
  have hacc : countNonZero g a.acc = ((On g segm).filter fun q => ∃ M ∈ Ms, ∃ p, (q, p) ∈ M).card := by
    rw [countNonZero_card]
    congr 1
    ext q
    rw [Finset.mem_filter, mem_On, h4]
    constructor
    · rintro ⟨_, h | ⟨M, hM, p, hp⟩⟩
      · simp at h
      · exact ⟨hin M hM _ _ hp, M, hM, p, hp⟩
    · rintro ⟨hq, M, hM, p, hp⟩
      exact ⟨(mem_On.1 hq).1, Or.inr ⟨M, hM, p, hp⟩⟩
  unfold evalBench
  rw [e]
  simp only [Option.bind_some]
  have hfin : finish g segm a = some ⟨a.tp, a.gt, countNonZero g a.acc, countNonZero g segm⟩ := by
    unfold finish
    rw [if_pos]
    refine ⟨?_, ?_⟩
    · rw [h2, h3]; simpa using hle
    · rw [hacc, countNonZero_card]
      exact Finset.card_le_card (Finset.filter_subset _ _)
  rw [hfin]
  refine ⟨_, _, Ms, rfl, h1, ?_, ?_, hacc, countNonZero_card g segm⟩
  · simpa using h2
  · simpa using h3

/-- A solver that searches the subsets of the edges; the assumption on the solver can be met. -/
theorem solver_exists : ∃ solve, Solver solve := by
  classical
  refine ⟨fun n gr => if h : Solvable n gr then h.2.choose else [], fun n gr h => ?_⟩
  dsimp only
  rw [dif_pos h]
  exact h.2.choose_spec

example : ∃ (g : Geo) (r : Rand), 0 < g.d ∧ KofN.Spec.HalfOpen r.rr :=
  ⟨⟨321, 481, 4⟩, ⟨fun n => n, fun _ => 1 / 3⟩, by norm_num, fun _ => by norm_num⟩

/-! ## C181: matching without the benchmark code -/

open Classical in
/-- C181 (part): without the benchmark code the evaluation ends without a failed assertion; recall counts the groundtruth
pixels with a detected pixel in range, over all groundtruth pixels; the detected pixels counted by precision form a
set of detections that are in range of the groundtruth and that reaches every groundtruth pixel counted by recall. Missing:
precision should count every detection in range of the groundtruth (`simple_precision_refuted`). -/
theorem simple_counts_partial (g : Geo) (hd : 0 < g.d) (segm : Mask) (gts : List Mask) :
    ∃ (c : Counts) (T : Finset (Nat × Nat)), evalSimple g segm gts = some c ∧
      c.indivTP = (gts.map fun gt => ((On g gt).filter fun p => ∃ q ∈ On g segm, Near g.d p q).card).sum ∧
      c.indivTPFN = (gts.map fun gt => (On g gt).card).sum ∧ c.totalTPFP = (On g segm).card ∧
      c.totalTP = T.card ∧ (∀ q ∈ T, q ∈ On g segm ∧ ∃ gt ∈ gts, ∃ p ∈ On g gt, Near g.d p q) ∧
      ∀ gt ∈ gts, ∀ p ∈ On g gt, (∃ q ∈ On g segm, Near g.d p q) → ∃ q ∈ T, Near g.d p q := by
  obtain ⟨h1, h2, h3⟩ := foldl_masks g hd segm gts ⟨0, 0, fun _ _ => false⟩
  unfold evalSimple
  set a := gts.foldl (fun s gt => (pixels g.rows g.cols).foldl (visit g segm gt) s) ⟨0, 0, fun _ _ => false⟩ with ha
  have hacc : ∀ y x, a.acc y x = true ↔ ∃ gt ∈ gts, ∃ p ∈ On g gt, first g segm p = some (y, x) := by
    intro y x
    have := h3 y x
    simpa using this
  have hT : On g a.acc ⊆ On g segm := by
    intro q hq
    obtain ⟨gt, _, p, _, hf⟩ := (hacc _ _).1 (mem_On.1 hq).2
    exact (first_some hd hf).1
  have hle : a.tp ≤ a.gt := by
    rw [h1, h2]
    clear h1 h2 h3 ha hacc hT a
    induction gts with
    | nil => simp
    | cons gt gts ih =>
      have := Finset.card_le_card (Finset.filter_subset (fun p => ∃ q ∈ On g segm, Near g.d p q) (On g gt))
      simp only [List.map_cons, List.sum_cons] at ih ⊢
      omega
  refine ⟨⟨a.tp, a.gt, countNonZero g a.acc, countNonZero g segm⟩, On g a.acc, ?_, by simpa using h1, by simpa using h2,
    countNonZero_card _ _, countNonZero_card _ _, ?_, ?_⟩
  · unfold finish
    rw [if_pos ⟨hle, by rw [countNonZero_card, countNonZero_card]; exact Finset.card_le_card hT⟩]
  · intro q hq
    obtain ⟨gt, hgt, p, hp, hf⟩ := (hacc _ _).1 (mem_On.1 hq).2
    exact ⟨hT hq, gt, hgt, p, hp, (first_some hd hf).2⟩
  · intro gt hgt p hp hex
    obtain ⟨q, hq⟩ := Option.isSome_iff_exists.1 ((first_isSome hd).2 hex)
    have h5 := first_some hd hq
    exact ⟨q, mem_On.2 ⟨(mem_On.1 h5.1).1, (hacc _ _).2 ⟨gt, hgt, p, hp, hq⟩⟩, h5.2⟩

/-- The frame of the dataset. -/
def frame : Geo := ⟨321, 481, 1220774610672091 / 281474976710656⟩

/-- Two neighbouring edge pixels. -/
def twoPixels : Mask := fun y x => y == 0 && decide (x < 2)

theorem frame_maxDist : IsMaxDist frame := by norm_num [IsMaxDist, frame]

theorem on_twoPixels : On frame twoPixels = {(0, 0), (0, 1)} := by
  ext ⟨y, x⟩
  rw [mem_On]
  simp [twoPixels, frame]
  omega

theorem first_left : first frame twoPixels (0, 0) = some (0, 0) := by decide +kernel

theorem first_right : first frame twoPixels (0, 1) = some (0, 0) := by decide +kernel

set_option linter.constructorNameAsVariable false in
/-- C181 fails for precision: on a frame of the dataset, a detection identical to its groundtruth (two neighbouring
pixels) has a precision of one half, because both groundtruth pixels take the same first detected pixel of their window. -/
theorem simple_precision_refuted :
    IsMaxDist frame ∧ (evalSimple frame twoPixels [twoPixels]).map (fun c => (c.totalTP, c.totalTPFP)) = some (1, 2) := by
  have hd := frame_maxDist.1
  refine ⟨frame_maxDist, ?_⟩
  obtain ⟨h1, h2, h3⟩ := foldl_masks frame hd twoPixels [twoPixels] ⟨0, 0, fun _ _ => false⟩
  obtain ⟨c, T, e, -, -, e3, -, -, -⟩ := simple_counts_partial frame hd twoPixels [twoPixels]
  have e' := e
  unfold evalSimple finish at e
  split at e
  · rw [e']
    simp only [Option.map_some]
    have e4 : c.totalTP = 1 := by
      have := Option.some.inj e
      rw [← this]
      dsimp only
      rw [countNonZero_card]
      rw [Finset.card_eq_one]
      refine ⟨(0, 0), ?_⟩
      ext ⟨y, x⟩
      rw [mem_On, h3]
      constructor
      · rintro ⟨_, h | ⟨gt, hgt, p, hp, hf⟩⟩
        · cases h
        · rw [List.mem_singleton] at hgt
          subst hgt
          rw [on_twoPixels] at hp
          rw [Finset.mem_insert, Finset.mem_singleton] at hp
          rw [Finset.mem_singleton]
          rcases hp with rfl | rfl
          · rw [first_left] at hf; exact (Option.some.inj hf).symm
          · rw [first_right] at hf; exact (Option.some.inj hf).symm
      · intro h
        rw [Finset.mem_singleton, Prod.mk.injEq] at h
        obtain ⟨rfl, rfl⟩ := h
        refine ⟨⟨by change 0 < 321; omega, by change 0 < 481; omega⟩,
          Or.inr ⟨twoPixels, List.mem_singleton.2 rfl, (0, 0), ?_, first_left⟩⟩
        rw [on_twoPixels]
        exact Finset.mem_insert_self _ _
    have e5 : (On frame twoPixels).card = 2 := by rw [on_twoPixels]; decide
    rw [e4, e3, e5]
  · cases e

/-! ## C182: one evaluation per threshold -/

/-- The default thresholds: 99 increasing values from 2 to 255. -/
theorem thresholds_default :
    thresholds 99 = (List.range 99).map (fun i => 255 * (i + 1) / 99) ∧ (thresholds 99).Pairwise (· < ·) := by
  have h : thresholds 99 = (List.range 99).map (fun i => 255 * (i + 1) / 99) := by decide +kernel
  refine ⟨h, ?_⟩
  rw [h]
  decide +kernel

/-- With 25 bins the rounded product falls below 255 and the last threshold is 254. -/
theorem thresholds_last_refuted : (thresholds 25).getLast? = some 254 := by decide +kernel

/-- C182 (part): over every image with at least one pixel and every increasing list of thresholds, one entry is recorded
per threshold, and the entry of a threshold `t` is the result of an evaluation of the detections at a threshold `T ≤ t`,
such that no pixel has a value strictly between `T` and `t`. The evaluation may be any function, with any internal
state. -/
theorem bins_shared_partial {σ : Type} (ev : Mask → σ → Option (Counts × σ)) (hev : ∀ m s, (ev m s).isSome) (g : Geo)
    (h0 : 0 < g.rows) (h1 : 0 < g.cols) (cl : Nat → Nat → Nat) (ths : List Nat) (hths : ths.Pairwise (· < ·)) (s : σ) :
    ∃ l s', accumulate ev g cl ths s = some (l, s') ∧ l.length = ths.length ∧
      ∀ (k t : Nat) (c : Counts), ths[k]? = some t → l[k]? = some c →
        ∃ T m s1 s2, T ∈ ths ∧ T ≤ t ∧ Detected g cl T m ∧ ev m s1 = some (c, s2) ∧
          ∀ y x, y < g.rows → x < g.cols → ¬ (T < cl y x ∧ cl y x < t) := by
  obtain ⟨u1, u2⟩ := uniques_spec g cl
  have hne : uniques g cl ≠ [] := List.ne_nil_of_mem ((u2 _).2 ⟨0, 0, h0, h1, rfl⟩)
  obtain ⟨l, s', e⟩ := bins_total ev hev g cl ths none (uniques g cl) s hne u1
  obtain ⟨a, b⟩ := bins_spec ev g cl (uniques g cl) ths ths none (uniques g cl) s l s' e hths (fun t ht => ht) hne u1
    (fun v hv => hv)
  refine ⟨l, s', e, a, fun k t c hk hc => ?_⟩
  obtain ⟨T, s1, s2, hT, he, hle, hv⟩ := b k t c hk hc
  exact ⟨T, _, s1, s2, hT, hle, fun y x => by simp [above], he, fun y x hy hx => hv _ ((u2 _).2 ⟨y, x, hy, hx, rfl⟩)⟩

/-- C182 (part): the entry of a threshold is the result of evaluating the detections at this threshold when no pixel has
exactly the value of a lower threshold. -/
theorem bins_exact_partial {σ : Type} (ev : Mask → σ → Option (Counts × σ)) (hev : ∀ m s, (ev m s).isSome) (g : Geo)
    (h0 : 0 < g.rows) (h1 : 0 < g.cols) (cl : Nat → Nat → Nat) (ths : List Nat) (hths : ths.Pairwise (· < ·)) (s : σ) :
    ∃ l s', accumulate ev g cl ths s = some (l, s') ∧ l.length = ths.length ∧
      ∀ (k t : Nat) (c : Counts), ths[k]? = some t → l[k]? = some c →
        (∀ y x, y < g.rows → x < g.cols → cl y x ∈ ths → t ≤ cl y x) →
        ∃ m s1 s2, Detected g cl t m ∧ ev m s1 = some (c, s2) := by
  obtain ⟨l, s', e, a, b⟩ := bins_shared_partial ev hev g h0 h1 cl ths hths s
  refine ⟨l, s', e, a, fun k t c hk hc hno => ?_⟩
  obtain ⟨T, m, s1, s2, hT, hle, hm, he, hv⟩ := b k t c hk hc
  refine ⟨m, s1, s2, fun y x => ?_, he⟩
  rw [hm y x]
  refine and_congr_right fun hy => and_congr_right fun hx => ?_
  have h1 := hv y x hy hx
  constructor
  · intro h
    by_contra hc
    rcases Nat.eq_or_lt_of_le h with rfl | h'
    · exact hc (hno y x hy hx hT)
    · omega
  · intro h; omega

/-- A 5x5 image with two isolated pixels, of values 2 and 7. -/
def twoLevels : Nat → Nat → Nat := fun y x => if y = 1 ∧ x = 1 then 2 else if y = 3 ∧ x = 3 then 7 else 0

def small : Geo := ⟨5, 5, 7642862007030927 / 144115188075855872⟩

/-- Thinning followed by the evaluation without the benchmark code against one groundtruth mask. -/
def evThin (gt m : Mask) (_ : Unit) : Option (Counts × Unit) :=
  (evalSimple small (fun y x => Thinning.result (Thinning.thinning Thinning.Spec.intended .lamLeeSuen 5 5 50
    (fun y x => if m y x then 255 else 0)) y x != 0) [gt]).map fun c => (c, ())

/-- C182 fails: with the default thresholds 2, 5, 7, …, the entry of threshold 5 counts two detections on an image in which
only one pixel has a value of 5 or more (a pixel of value 2 is still counted; line 416 skips the values equal to the
threshold). -/
theorem bins_exact_refuted :
    (thresholds 99)[1]? = some 5 ∧
      (evThin twoPixels (above small twoLevels 5) ()).map (fun c => c.1.totalTPFP) = some 1 ∧
      ((accumulate (evThin twoPixels) small twoLevels (thresholds 99) ()).bind fun l => l.1[1]?.map (·.totalTPFP)) = some 2 := by
  refine ⟨by decide +kernel, by decide +kernel, ?_⟩
  rw [thresholds_default.1]
  decide +kernel

example : IsMaxDist small := by norm_num [IsMaxDist, small]

example : (∀ m s, (evThin twoPixels m s).isSome) ∧ (thresholds 99).Pairwise (· < ·) := by
  refine ⟨fun m s => ?_, thresholds_default.2⟩
  obtain ⟨c, _, h, _⟩ := simple_counts_partial small (by norm_num [small]) (fun y x => Thinning.result
    (Thinning.thinning Thinning.Spec.intended .lamLeeSuen 5 5 50 (fun y x => if m y x then 255 else 0)) y x != 0) [twoPixels]
  unfold evThin
  rw [h]
  rfl

end Litiv.Bsds
