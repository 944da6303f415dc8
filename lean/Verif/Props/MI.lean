import Verif.Lemmas.MIScore

/-!
# Properties of joint histograms and mutual information

Property C94 (`calcJointProbHist`) and property C95 (`calcMutualInfo`).
-/

namespace Litiv.MI

open Spec (freq level)

/-- Value from which the levels of an input are counted: the smallest value of its type if the scan for extremes is skipped (never done for
`int`), its own smallest value otherwise. -/
def origin (skip : Bool) (i : In) : Int := if skip = true ∧ i.isInt = false then i.lo else i.vals.min?.getD 0

/-- Largest value, likewise. -/
def top (skip : Bool) (i : In) : Int := if skip = true ∧ i.isInt = false then i.hi else i.vals.max?.getD 0

/-- Admissible arguments: a positive quantization step, inputs of `n > 0` elements each, values within the limits of their types, and
differences of values that an `int` can count. -/
structure Valid (q : Nat) (skip : Bool) (ins : List In) (n : Nat) : Prop where
  step : 0 < q
  inputs : ins ≠ []
  elems : 0 < n
  sizes : ∀ i ∈ ins, i.vals.length = n
  limits : ∀ i ∈ ins, ∀ v ∈ i.vals, i.lo ≤ v ∧ v ≤ i.hi
  small : ∀ i ∈ ins, i.isInt = false → i.hi - i.lo < 2 ^ 31 - 2
  spread : ∀ i ∈ ins, ∀ u ∈ i.vals, ∀ v ∈ i.vals, u - v < 2 ^ 31 - 2

/-- Level of element `k` of an input. -/
def levelOf (q : Nat) (skip : Bool) (i : In) (k : Nat) : Int := level q (origin skip i) (i.vals.getD k 0)

private theorem Valid.ok {q : Nat} {skip : Bool} {ins : List In} {n : Nat} (h : Valid q skip ins n) : Ok q skip ins n :=
  ⟨h.step, h.inputs, h.elems, h.sizes, h.limits, fun i hi => by
    unfold Fits
    split
    · rename_i hs; exact h.small i hi hs.2
    · exact h.spread i hi⟩

private theorem skipEq (skip : Bool) (i : In) : ((skip && !i.isInt) = true) = (skip = true ∧ i.isInt = false) := by
  simp

private theorem origin_eq (skip : Bool) (i : In) : (range skip i).1 = origin skip i := by
  unfold range origin
  simp only [skipEq]
  split
  · rfl
  · cases i.vals with
    | nil => rfl
    | cons a l => rw [List.min?_cons']; simp [-List.min?_cons]

private theorem top_eq (skip : Bool) (i : In) : (range skip i).2 = top skip i := by
  unfold range top
  simp only [skipEq]
  split
  · rfl
  · cases i.vals with
    | nil => rfl
    | cons a l => rw [List.max?_cons']; simp [-List.max?_cons]

private theorem lev_eq (q : Nat) (skip : Bool) (i : In) : lev q skip i = levelOf q skip i := by
  funext k
  unfold lev levelOf
  rw [origin_eq]

/-! ## C94 -/

/-- **C94 (frequencies).** For every admissible input, with sparse or dense matrices, with or without the fast mode and the skipped scan, and
whatever the output object held before: every marginal probability is the part of the elements at that level, and every joint probability
the part of the elements at that combination of levels. -/
theorem hist_frequencies (q : Nat) (kind : Kind) (fast skip : Bool) (ins : List In) (n : Nat) (old : Data) (h : Valid q skip ins n) :
    ∃ d, calcJointProbHist q kind fast skip ins old = some d ∧ d.margHists.length = ins.length ∧
      (∀ (j : Nat) (i : In), ins[j]? = some i → ∃ m, d.margHists[j]? = some m ∧
        ∀ v, m.val v = freq n fun k => levelOf q skip i k = v) ∧
      ∀ p : List Int, d.jointHist.val p = freq n fun k => (ins.map fun (i : In) => levelOf q skip i k) = p := by
  obtain ⟨d, hd, r⟩ := calc_ok q kind fast skip ins n old h.ok
  refine ⟨d, hd, r.len, fun j i hj => ?_, fun p => ?_⟩
  · obtain ⟨m, hm, g⟩ := r.marg j i hj
    refine ⟨m, hm, fun v => ?_⟩
    rw [g.val, lev_eq]
  · rw [r.joint.val]
    simp only [lev_eq]

/-- Two images of three pixels, values of `uchar`, step 100. -/
def imgA : In := ⟨0, 255, false, [10, 20, 210]⟩
def imgB : In := ⟨0, 255, false, [7, 7, 8]⟩

theorem valid_ab : Valid 100 false [imgA, imgB] 3 := by
  refine ⟨by decide, by decide, by decide, ?_, ?_, ?_, ?_⟩ <;> simp [imgA, imgB]

example : Valid 100 true [imgA, imgB] 3 := by
  refine ⟨by decide, by decide, by decide, ?_, ?_, ?_, ?_⟩ <;> simp [imgA, imgB]

example : freq 3 (fun k => levelOf 100 false imgA k = 0) = 2 / 3 ∧ freq 3 (fun k => levelOf 100 false imgA k = 2) = 1 / 3 := by
  decide +kernel

/-- **C94 (states).** The elements that exist: with sparse matrices exactly the levels and combinations that occur; with dense matrices all the
levels from zero to that of the largest value, and all their combinations. The reported numbers of states are the numbers of elements. -/
theorem hist_states (q : Nat) (kind : Kind) (fast skip : Bool) (ins : List In) (n : Nat) (old : Data) (h : Valid q skip ins n) :
    ∃ d, calcJointProbHist q kind fast skip ins old = some d ∧ d.jointStates = d.jointHist.keys.length ∧ d.jointHist.keys.Nodup ∧
      (∀ p : List Int, p ∈ d.jointHist.keys ↔
        match kind with
        | .sparse => ∃ k < n, (ins.map fun (i : In) => levelOf q skip i k) = p
        | .dense => List.Forall₂ (fun (v : Int) (i : In) => 0 ≤ v ∧ v ≤ level q (origin skip i) (top skip i)) p ins) ∧
      ∀ (j : Nat) (i : In), ins[j]? = some i → ∃ m, d.margHists[j]? = some m ∧ d.states[j]? = some m.keys.length ∧ m.keys.Nodup ∧
        ∀ v, v ∈ m.keys ↔
          match kind with
          | .sparse => ∃ k < n, levelOf q skip i k = v
          | .dense => 0 ≤ v ∧ v ≤ level q (origin skip i) (top skip i) := by
  obtain ⟨d, hd, r⟩ := calc_ok q kind fast skip ins n old h.ok
  have hlev : ∀ i ∈ ins, ((nlev q skip i : Nat) : Int) = level q (origin skip i) (top skip i) + 1 := by
    intro i hi
    have hle : (range skip i).1 ≤ (range skip i).2 := by
      have hl := h.sizes i hi
      have hm : i.vals.headD 0 ∈ i.vals := by
        cases hv : i.vals with
        | nil => rw [hv] at hl; have := h.elems; simp at hl; omega
        | cons a l => simp
      have := range_spec skip i (h.limits i hi) _ hm
      omega
    unfold nlev level
    rw [← origin_eq, ← top_eq]
    push_cast
    rw [Int.toNat_of_nonneg (by omega)]
  have hpos : ∀ ns : List Nat, (positions ns).length = ns.prod := by
    intro ns
    induction ns with
    | nil => rfl
    | cons a ns ih => simp [positions, List.length_flatMap, ih]
  refine ⟨d, hd, ?_, r.joint.nodup, fun p => ?_, fun j i hj => ?_⟩
  · rw [r.jstates]
    cases kind with
    | sparse => rfl
    | dense => rw [r.joint.dense rfl, hpos]
  · cases kind with
    | sparse => rw [r.joint.sparse rfl]; simp only [lev_eq]
    | dense =>
      rw [r.joint.dense rfl, mem_positions]
      dsimp only
      rw [List.forall₂_map_right_iff]
      clear hd r h
      induction ins generalizing p with
      | nil => simp
      | cons i ins ih =>
        cases p with
        | nil => simp
        | cons v p =>
          rw [List.forall₂_cons, List.forall₂_cons, ih (fun i hi => hlev i (by simp [hi]))]
          have := hlev i (by simp)
          constructor
          · rintro ⟨h1, h2⟩; exact ⟨by omega, h2⟩
          · rintro ⟨h1, h2⟩; exact ⟨by omega, h2⟩
  · obtain ⟨m, hm, g⟩ := r.marg j i hj
    refine ⟨m, hm, ?_, g.nodup, fun v => ?_⟩
    · rw [r.states]
      cases kind with
      | sparse => simp [hm]
      | dense => rw [g.dense rfl]; simp [hj]
    · cases kind with
      | sparse => rw [g.sparse rfl]; simp only [lev_eq]
      | dense =>
        rw [g.dense rfl, List.mem_map]
        dsimp only
        have := hlev i (List.mem_of_getElem? hj)
        constructor
        · rintro ⟨a, ha, rfl⟩
          rw [List.mem_range] at ha
          omega
        · intro hv
          exact ⟨v.toNat, List.mem_range.2 (by omega), by omega⟩

private theorem sum_keys_rat {κ : Type} [DecidableEq κ] {kind : Kind} {n : Nat} {f : Nat → κ} {all : List κ} {h : Hist κ ℚ} (g : Is kind n f all h)
    (hall : kind = .dense → ∀ e < n, f e ∈ all) (P : κ → Prop) [DecidablePred P] :
    ((h.keys.filter fun k => decide (P k)).map h.val).sum = freq n fun e => P (f e) := by
  rw [← List.sum_toFinset _ (g.nodup.filter _)]
  have e1 : (h.keys.filter fun k => decide (P k)).toFinset = h.keys.toFinset.filter P := by
    ext k; simp
  rw [e1, Finset.sum_filter]
  have e2 : ∀ k, (if P k then h.val k else 0) = (((Finset.range n).filter fun e => f e = k ∧ P (f e)).card : ℚ) / n := by
    intro k
    by_cases hP : P k
    · rw [if_pos hP, g.val]
      unfold freq
      congr 3
      apply Finset.filter_congr
      intro e _
      constructor
      · rintro rfl; exact ⟨rfl, hP⟩
      · exact fun h => h.1
    · rw [if_neg hP]
      have : ((Finset.range n).filter fun e => f e = k ∧ P (f e)) = ∅ := by
        rw [Finset.filter_eq_empty_iff]
        rintro e _ ⟨rfl, h2⟩
        exact hP h2
      rw [this]; simp
  rw [Finset.sum_congr rfl fun k _ => e2 k, ← Finset.sum_div]
  unfold freq
  congr 1
  have e3 := Finset.card_eq_sum_card_fiberwise (f := f) (s := (Finset.range n).filter fun e => P (f e)) (t := h.keys.toFinset) (by
    intro e he
    simp at he
    exact_mod_cast List.mem_toFinset.2 (g.mem hall he.1))
  rw [e3]
  push_cast
  apply Finset.sum_congr rfl
  intro k _
  rw [Finset.filter_filter]
  congr 2
  apply Finset.filter_congr
  intro e _
  exact and_comm

/-- **C94 (probabilities).** All histograms sum to one over the elements an iterator meets, and each marginal probability is the sum of the
joint probabilities with that level. -/
theorem hist_marginals (q : Nat) (kind : Kind) (fast skip : Bool) (ins : List In) (n : Nat) (old : Data) (h : Valid q skip ins n) :
    ∃ d, calcJointProbHist q kind fast skip ins old = some d ∧ (d.jointHist.keys.map d.jointHist.val).sum = 1 ∧
      ∀ (j : Nat) (m : Hist Int ℚ), d.margHists[j]? = some m → (m.keys.map m.val).sum = 1 ∧
        ∀ v, m.val v = ((d.jointHist.keys.filter fun p => decide (p.getD j 0 = v)).map d.jointHist.val).sum := by
  obtain ⟨d, hd, r⟩ := calc_ok q kind fast skip ins n old h.ok
  have hone : freq n (fun _ => True) = 1 := by
    unfold freq
    have := h.elems
    rw [Finset.filter_true, Finset.card_range, div_self]
    positivity
  refine ⟨d, hd, ?_, fun j m hm => ?_⟩
  · have := sum_keys_rat r.joint (fun _ => h.ok.inPos) fun _ => True
    rw [hone] at this
    simpa using this
  · have hj : j < ins.length := by rw [← r.len]; exact (List.getElem?_eq_some_iff.1 hm).1
    obtain ⟨m', hm', g⟩ := r.marg j ins[j] (List.getElem?_eq_getElem hj)
    rw [hm] at hm'
    cases hm'
    refine ⟨?_, fun v => ?_⟩
    · have := sum_keys_rat g (fun _ => h.ok.inMarg ins[j] (List.getElem_mem hj)) fun _ => True
      rw [hone] at this
      simpa using this
    · rw [sum_keys_rat r.joint (fun _ => h.ok.inPos) fun p => p.getD j 0 = v, g.val]
      simp [List.getD_eq_getElem?_getD, List.getElem?_map, List.getElem?_eq_getElem hj]

example : ∃ d, calcJointProbHist 100 .dense true false [imgA, imgB] ⟨[], [], [], ⟨[], fun _ => 0⟩, ⟨[], fun _ => 0⟩, 0⟩ = some d ∧ (d.jointHist.keys.map d.jointHist.val).sum = 1 :=
  let ⟨d, h, h', _⟩ := hist_marginals 100 .dense true false [imgA, imgB] 3 _ valid_ab
  ⟨d, h, h'⟩

/-- **C94 (no stale data).** Without the fast mode the result does not depend on what the output object held; in the fast mode only the counts
do, which that mode leaves alone. No admissibility needed. -/
theorem hist_fresh (q : Nat) (kind : Kind) (skip : Bool) (ins : List In) (old old' : Data) :
    calcJointProbHist q kind false skip ins old = calcJointProbHist q kind false skip ins old' ∧
    (calcJointProbHist q kind true skip ins old).map (fun d => { d with margCounts := old'.margCounts, jointCount := old'.jointCount }) =
      calcJointProbHist q kind true skip ins old' := by
  constructor
  · unfold calcJointProbHist
    rfl
  · unfold calcJointProbHist
    cases ins with
    | nil => rfl
    | cons i0 rest =>
      dsimp only
      split
      · split
        · rfl
        · rw [if_pos rfl, if_pos rfl]
          split <;> rfl
      · rfl

/-- **C94 (refused or undefined).** Inputs of different sizes are refused; and for `int` inputs, which have no limit on their spread, the
difference of the extreme values is undefined behaviour when it does not fit. -/
theorem hist_spread_refuted (kind : Kind) (fast skip : Bool) (old : Data) :
    calcJointProbHist 1 kind fast skip [⟨-2 ^ 31, 2 ^ 31 - 1, true, [-2 ^ 31, 2 ^ 31 - 1]⟩, ⟨0, 255, false, [0, 1]⟩] old = none := by
  have : range skip ⟨-2147483648, 2147483647, true, [-2147483648, 2147483647]⟩ = (-2147483648, 2147483647) := by
    cases skip <;> decide
  simp [calcJointProbHist, maxStates, this]

theorem hist_sizes_refused (q : Nat) (kind : Kind) (fast skip : Bool) (ins : List In) (old : Data)
    (h : ∃ i ∈ ins, ∃ i' ∈ ins, i.vals.length ≠ i'.vals.length ∨ i.vals = []) : calcJointProbHist q kind fast skip ins old = none := by
  unfold calcJointProbHist
  cases ins with
  | nil => rfl
  | cons i0 rest =>
    dsimp only
    rw [if_neg]
    intro ha
    rw [List.all_eq_true] at ha
    obtain ⟨i, hi, i', hi', hc⟩ := h
    have h1 := ha i hi
    have h2 := ha i' hi'
    simp only [decide_eq_true_eq] at h1 h2
    rcases hc with hc | hc
    · exact hc (h1.2.trans h2.2.symm)
    · rw [hc] at h1; simp at h1

/-! ## C95 -/

/-- The score the documentation promises: mutual information of the levels, divided by the geometric mean of the entropies if asked for (when
neither is zero). -/
noncomputable def score (q : Nat) (normalize skip : Bool) (a b : In) (n : Nat) : ℝ :=
  if normalize = true ∧ 0 < Spec.entropy n (levelOf q skip a) ∧ 0 < Spec.entropy n (levelOf q skip b) then
    Spec.mutualInfo n (levelOf q skip a) (levelOf q skip b) / Real.sqrt (Spec.entropy n (levelOf q skip a) * Spec.entropy n (levelOf q skip b))
  else Spec.mutualInfo n (levelOf q skip a) (levelOf q skip b)

/-- **C95 (formula).** Without the fast mode, for every pair of admissible inputs, the result is the textbook mutual information of their levels,
with sparse and with dense matrices and whatever the reused object held. -/
theorem mi_formula (q : Nat) (kind : Kind) (normalize skip : Bool) (a b : In) (n : Nat) (old : Data) (h : Valid q skip [a, b] n) :
    calcMutualInfo q kind normalize false skip a b old = some (score q normalize skip a b n) := by
  rw [mutual_ok q kind normalize skip a b n old h.ok, lev_eq, lev_eq]
  rfl

/-- **C95 (bounds).** The score is never negative, at most each entropy, and in the normalized form at most one. -/
theorem mi_bounds (q : Nat) (kind : Kind) (skip : Bool) (a b : In) (n : Nat) (old : Data) (h : Valid q skip [a, b] n) :
    (∃ s, calcMutualInfo q kind false false skip a b old = some s ∧ 0 ≤ s ∧ s ≤ Spec.entropy n (levelOf q skip a) ∧ s ≤ Spec.entropy n (levelOf q skip b)) ∧
    ∃ s, calcMutualInfo q kind true false skip a b old = some s ∧ 0 ≤ s ∧ s ≤ 1 := by
  have h0 := Spec.mutualInfo_nonneg n (levelOf q skip a) (levelOf q skip b)
  have h1 := Spec.mutualInfo_le n (levelOf q skip a) (levelOf q skip b)
  have h2 := Spec.mutualInfo_le n (levelOf q skip b) (levelOf q skip a)
  rw [Spec.mutualInfo_symm] at h2
  refine ⟨⟨_, mi_formula q kind false skip a b n old h, ?_⟩, _, mi_formula q kind true skip a b n old h, ?_⟩
  · simp only [score, Bool.false_eq_true, false_and, if_false]
    exact ⟨h0, h1, h2⟩
  · unfold score
    split
    · rename_i hc
      have hs : 0 < Real.sqrt (Spec.entropy n (levelOf q skip a) * Spec.entropy n (levelOf q skip b)) := Real.sqrt_pos.2 (mul_pos hc.2.1 hc.2.2)
      refine ⟨div_nonneg h0 hs.le, ?_⟩
      rw [div_le_one hs]
      apply Real.le_sqrt_of_sq_le
      rw [sq]
      exact mul_le_mul h1 h2 h0 hc.2.1.le
    · rename_i hc
      refine ⟨h0, ?_⟩
      have : ¬ (0 < Spec.entropy n (levelOf q skip a) ∧ 0 < Spec.entropy n (levelOf q skip b)) := fun e => hc ⟨rfl, e⟩
      rw [not_and_or] at this
      rcases this with e | e <;> linarith

/-- **C95 (symmetry).** -/
theorem mi_symm (q : Nat) (kind : Kind) (normalize skip : Bool) (a b : In) (n : Nat) (old old' : Data) (h : Valid q skip [a, b] n) :
    calcMutualInfo q kind normalize false skip a b old = calcMutualInfo q kind normalize false skip b a old' := by
  have h' : Valid q skip [b, a] n := by
    have hm : ∀ i, i ∈ [b, a] → i ∈ [a, b] := by
      intro i hi; simp at hi ⊢; tauto
    exact ⟨h.step, by simp, h.elems, fun i hi => h.sizes i (hm i hi), fun i hi => h.limits i (hm i hi), fun i hi => h.small i (hm i hi),
      fun i hi => h.spread i (hm i hi)⟩
  rw [mi_formula q kind normalize skip a b n old h, mi_formula q kind normalize skip b a n old' h']
  unfold score
  rw [Spec.mutualInfo_symm, mul_comm]
  by_cases h1 : 0 < Spec.entropy n (levelOf q skip a) <;> by_cases h2 : 0 < Spec.entropy n (levelOf q skip b) <;> simp [h1, h2]

/-- **C95 (self information).** The score of an image with itself is its entropy; normalized, one, unless the image has a single level. -/
theorem mi_self (q : Nat) (kind : Kind) (skip : Bool) (a : In) (n : Nat) (old : Data) (h : Valid q skip [a, a] n) :
    calcMutualInfo q kind false false skip a a old = some (Spec.entropy n (levelOf q skip a)) ∧
    (0 < Spec.entropy n (levelOf q skip a) → calcMutualInfo q kind true false skip a a old = some 1) ∧
    (0 < Spec.entropy n (levelOf q skip a) ↔ ∃ k < n, ∃ k' < n, levelOf q skip a k ≠ levelOf q skip a k') := by
  refine ⟨?_, ?_, ?_⟩
  · rw [mi_formula q kind false skip a a n old h]
    simp [score, Spec.mutualInfo_self]
  · intro he
    rw [mi_formula q kind true skip a a n old h]
    unfold score
    rw [if_pos ⟨rfl, he, he⟩, Spec.mutualInfo_self, Real.sqrt_mul_self he.le, div_self he.ne']
  · constructor
    · intro he
      by_contra hc
      push Not at hc
      have hn := h.elems
      have : Spec.entropy n (levelOf q skip a) = 0 := by
        rw [Spec.entropy_pixels]
        apply mul_eq_zero_of_right
        apply Finset.sum_eq_zero
        intro k hk
        have : Spec.cx n (levelOf q skip a) k = n := by
          unfold Spec.cx Spec.cnt
          rw [Finset.filter_true_of_mem, Finset.card_range]
          intro e he
          exact hc e (Finset.mem_range.1 he) k (Finset.mem_range.1 hk)
        rw [this, div_self (by positivity), Real.logb_one]
      linarith
    · rintro ⟨k, hk, k', hk', hne⟩
      have hn : (0 : ℝ) < n := by exact_mod_cast h.elems
      rw [Spec.entropy_pixels]
      apply mul_pos (by positivity)
      apply Finset.sum_pos'
      · intro e he
        have h1 := Spec.cx_pos (levelOf q skip a) (Finset.mem_range.1 he)
        have h2 := Spec.cx_le n (levelOf q skip a) e
        apply Real.logb_nonneg (by norm_num)
        rw [le_div_iff₀ (by exact_mod_cast h1), one_mul]
        exact_mod_cast h2
      · refine ⟨k, Finset.mem_range.2 hk, ?_⟩
        have h1 := Spec.cx_pos (levelOf q skip a) hk
        have h2 : Spec.cx n (levelOf q skip a) k < n := by
          unfold Spec.cx Spec.cnt
          have := Finset.card_lt_card (s := (Finset.range n).filter fun e => levelOf q skip a e = levelOf q skip a k) (t := Finset.range n)
            (Finset.filter_ssubset.2 ⟨k', Finset.mem_range.2 hk', fun e => hne e.symm⟩)
          rwa [Finset.card_range] at this
        apply Real.logb_pos (by norm_num)
        rw [lt_div_iff₀ (by exact_mod_cast h1), one_mul]
        exact_mod_cast h2

example : Valid 100 false [imgA, imgA] 3 ∧ ∃ k < 3, ∃ k' < 3, levelOf 100 false imgA k ≠ levelOf 100 false imgA k' := by
  refine ⟨?_, 0, by decide, 2, by decide, by decide⟩
  refine ⟨by decide, by decide, by decide, ?_, ?_, ?_, ?_⟩ <;> simp [imgA]

/-- **C95 (independence).** The score is zero exactly when the levels of the two images are independent: every joint probability is the product
of the marginal ones. -/
theorem mi_zero_iff (q : Nat) (kind : Kind) (skip : Bool) (a b : In) (n : Nat) (old : Data) (h : Valid q skip [a, b] n) :
    calcMutualInfo q kind false false skip a b old = some 0 ↔
      ∀ k < n, freq n (fun e => levelOf q skip a e = levelOf q skip a k ∧ levelOf q skip b e = levelOf q skip b k) =
        freq n (fun e => levelOf q skip a e = levelOf q skip a k) * freq n (fun e => levelOf q skip b e = levelOf q skip b k) := by
  have hn : (0 : ℚ) < n := by exact_mod_cast h.elems
  have key : ∀ k, (freq n (fun e => levelOf q skip a e = levelOf q skip a k ∧ levelOf q skip b e = levelOf q skip b k) =
        freq n (fun e => levelOf q skip a e = levelOf q skip a k) * freq n (fun e => levelOf q skip b e = levelOf q skip b k)) ↔
      Spec.cxy n (levelOf q skip a) (levelOf q skip b) k * n = Spec.cx n (levelOf q skip a) k * Spec.cx n (levelOf q skip b) k := by
    intro k
    unfold freq
    rw [div_mul_div_comm, div_eq_div_iff hn.ne' (by positivity)]
    unfold Spec.cxy Spec.cx Spec.cnt
    constructor
    · intro e
      have : ((((Finset.range n).filter fun e => levelOf q skip a e = levelOf q skip a k ∧ levelOf q skip b e = levelOf q skip b k).card : ℚ) * n) * n =
          ((((Finset.range n).filter fun e => levelOf q skip a e = levelOf q skip a k).card : ℚ) *
            ((Finset.range n).filter fun e => levelOf q skip b e = levelOf q skip b k).card) * n := by
        rw [← e]; ring
      exact_mod_cast mul_right_cancel₀ hn.ne' this
    · intro e
      have e' : ((((Finset.range n).filter fun e => levelOf q skip a e = levelOf q skip a k ∧ levelOf q skip b e = levelOf q skip b k).card : ℚ) * n) =
          ((((Finset.range n).filter fun e => levelOf q skip a e = levelOf q skip a k).card : ℚ) *
            ((Finset.range n).filter fun e => levelOf q skip b e = levelOf q skip b k).card) := by exact_mod_cast e
      rw [← e']; ring
  rw [mi_formula q kind false skip a b n old h]
  simp only [score, Bool.false_eq_true, false_and, if_false, Option.some.injEq, key]
  constructor
  · exact fun e k hk => Spec.mutualInfo_zero n _ _ e k hk
  · intro hk
    rw [Spec.mutualInfo_pixels]
    apply mul_eq_zero_of_right
    apply Finset.sum_eq_zero
    intro k hk'
    have hk'' := Finset.mem_range.1 hk'
    have e := hk k hk''
    have h1 := Spec.cx_pos (levelOf q skip a) hk''
    have h2 := Spec.cx_pos (levelOf q skip b) hk''
    have e' : (Spec.cxy n (levelOf q skip a) (levelOf q skip b) k * n : ℝ) = Spec.cx n (levelOf q skip a) k * Spec.cx n (levelOf q skip b) k := by
      exact_mod_cast e
    rw [e', div_self (by positivity), Real.logb_one]

/-- **C95 (only the grouping of pixels matters).** If two pairs of inputs put the same elements at equal levels, the scores are the same: renaming
grey levels, inverting or brightening an image (without quantization) changes nothing. -/
theorem mi_relabel (q q' : Nat) (kind kind' : Kind) (normalize skip skip' : Bool) (a b a' b' : In) (n : Nat) (old old' : Data)
    (h : Valid q skip [a, b] n) (h' : Valid q' skip' [a', b'] n)
    (ha : ∀ k < n, ∀ e < n, (levelOf q skip a k = levelOf q skip a e ↔ levelOf q' skip' a' k = levelOf q' skip' a' e))
    (hb : ∀ k < n, ∀ e < n, (levelOf q skip b k = levelOf q skip b e ↔ levelOf q' skip' b' k = levelOf q' skip' b' e)) :
    calcMutualInfo q kind normalize false skip a b old = calcMutualInfo q' kind' normalize false skip' a' b' old' := by
  rw [mi_formula q kind normalize skip a b n old h, mi_formula q' kind' normalize skip' a' b' n old' h']
  unfold score
  rw [Spec.mutualInfo_relabel ha hb, Spec.entropy_relabel ha, Spec.entropy_relabel hb]

/-- Inverting an image without quantization meets the hypothesis, for any image. -/
example (i i' : In) (n : Nat) (hl : i.vals.length = n) (hi' : i' = { i with vals := i.vals.map fun v => 255 - v }) :
    ∀ k < n, ∀ e < n, (levelOf 1 false i k = levelOf 1 false i e ↔ levelOf 1 false i' k = levelOf 1 false i' e) := by
  intro k hk e he
  subst hi'
  unfold levelOf level
  simp [List.getD_eq_getElem?_getD, List.getElem?_map, List.getElem?_eq_getElem (show k < i.vals.length by omega),
    List.getElem?_eq_getElem (show e < i.vals.length by omega)]

/-- **C95 (order of pixels).** Moving the elements of both inputs in the same way changes nothing. -/
theorem mi_perm (q : Nat) (kind : Kind) (normalize skip : Bool) (a b a' b' : In) (n : Nat) (old old' : Data) (σ : Nat → Nat)
    (h : Valid q skip [a, b] n) (h' : Valid q skip [a', b'] n) (hσ : Set.BijOn σ {k | k < n} {k | k < n})
    (ha : ∀ k < n, a'.vals.getD k 0 = a.vals.getD (σ k) 0) (hb : ∀ k < n, b'.vals.getD k 0 = b.vals.getD (σ k) 0)
    (hta : a'.lo = a.lo ∧ a'.isInt = a.isInt) (htb : b'.lo = b.lo ∧ b'.isInt = b.isInt) :
    calcMutualInfo q kind normalize false skip a' b' old = calcMutualInfo q kind normalize false skip a b old' := by
  have aux : ∀ c c' : In, c.vals.length = n → c'.vals.length = n → (∀ k < n, c'.vals.getD k 0 = c.vals.getD (σ k) 0) →
      (c'.lo = c.lo ∧ c'.isInt = c.isInt) → ∀ k < n, levelOf q skip c' k = levelOf q skip c (σ k) := by
    intro c c' hc hc' hv ht k hk
    have hmem : ∀ v, v ∈ c'.vals ↔ v ∈ c.vals := by
      intro v
      rw [List.mem_iff_getElem?, List.mem_iff_getElem?]
      constructor
      · rintro ⟨e, he⟩
        have hen : e < n := by rw [← hc']; exact (List.getElem?_eq_some_iff.1 he).1
        have h1 := hv e hen
        rw [List.getD_eq_getElem?_getD, he, List.getD_eq_getElem?_getD] at h1
        have h2 : σ e < c.vals.length := by rw [hc]; exact hσ.mapsTo hen
        rw [List.getElem?_eq_getElem h2] at h1
        exact ⟨σ e, by rw [List.getElem?_eq_getElem h2]; simpa using h1.symm⟩
      · rintro ⟨e, he⟩
        have hen : e < n := by rw [← hc]; exact (List.getElem?_eq_some_iff.1 he).1
        obtain ⟨e', he', rfl⟩ := hσ.surjOn hen
        have h1 := hv e' he'
        rw [List.getD_eq_getElem?_getD, List.getD_eq_getElem?_getD, he] at h1
        have h2 : e' < c'.vals.length := by rw [hc']; exact he'
        rw [List.getElem?_eq_getElem h2] at h1
        exact ⟨e', by rw [List.getElem?_eq_getElem h2]; simpa using h1⟩
    have ho : origin skip c' = origin skip c := by
      unfold origin
      rw [ht.1, ht.2]
      have hmin : c'.vals.min? = c.vals.min? := by
        have hne : c.vals ≠ [] := by
          intro e; rw [e] at hc; simp at hc; omega
        obtain ⟨m, hm⟩ := Option.isSome_iff_exists.1 (List.isSome_min?_of_ne_nil hne)
        rw [hm, List.min?_eq_some_iff]
        rw [List.min?_eq_some_iff] at hm
        exact ⟨(hmem m).2 hm.1, fun b hb => hm.2 b ((hmem b).1 hb)⟩
      rw [hmin]
    unfold levelOf
    rw [ho, hv k hk]
  have la := aux a a' (h.sizes a (by simp)) (h'.sizes a' (by simp)) ha hta
  have lb := aux b b' (h.sizes b (by simp)) (h'.sizes b' (by simp)) hb htb
  rw [mi_formula q kind normalize skip a' b' n old h', mi_formula q kind normalize skip a b n old' h]
  have r1 : Spec.mutualInfo n (levelOf q skip a') (levelOf q skip b') = Spec.mutualInfo n (levelOf q skip a) (levelOf q skip b) := by
    rw [← Spec.mutualInfo_perm hσ (levelOf q skip a)]
    apply Spec.mutualInfo_relabel
    · intro e he k hk; rw [la e he, la k hk]
    · intro e he k hk; rw [lb e he, lb k hk]
  have r2 : ∀ c c' : In, (∀ k < n, levelOf q skip c' k = levelOf q skip c (σ k)) → Spec.entropy n (levelOf q skip c') = Spec.entropy n (levelOf q skip c) := by
    intro c c' hl
    rw [← Spec.entropy_perm hσ (levelOf q skip c)]
    apply Spec.entropy_relabel
    intro e he k hk; rw [hl e he, hl k hk]
  unfold score
  rw [r1, r2 a a' la, r2 b b' lb]

/-- **C95 (fast mode, refuted).** The fast mode fills no counts, and the score is summed over the positions of the counts: with a fresh object
the result is zero for every pair of images. -/
theorem mi_fast_refuted (q : Nat) (kind : Kind) (normalize skip : Bool) (a b : In) (n : Nat) (old : Data) (h : Valid q skip [a, b] n)
    (hfresh : old.jointCount.keys = []) : calcMutualInfo q kind normalize true skip a b old = some 0 := by
  obtain ⟨d, hd, r⟩ := calc_ok q kind true skip [a, b] n old h.ok
  have hk : d.jointCount.keys = [] := by rw [r.fast rfl, hfresh]
  have hl := r.len
  unfold calcMutualInfo
  rw [hd]
  dsimp only
  match hmm : d.margHists with
  | [] => rw [hmm] at hl; simp at hl
  | [_] => rw [hmm] at hl; simp at hl
  | _ :: _ :: _ :: _ => rw [hmm] at hl; simp at hl
  | [u, v] =>
    dsimp only
    rw [hk]
    simp

/-- … although the two images may share one bit of information. -/
theorem mi_fast_wrong : ∃ a b : In, ∃ old : Data, old.jointCount.keys = [] ∧ Valid 1 false [a, b] 2 ∧
    calcMutualInfo 1 .sparse false false false a b old = some 1 ∧ calcMutualInfo 1 .sparse false true false a b old = some 0 := by
  have hv : Valid 1 false [(⟨0, 255, false, [3, 9]⟩ : In), ⟨0, 255, false, [3, 9]⟩] 2 := by
    refine ⟨by decide, by decide, by decide, ?_, ?_, ?_, ?_⟩ <;> simp
  refine ⟨⟨0, 255, false, [3, 9]⟩, ⟨0, 255, false, [3, 9]⟩, ⟨[], [], [], ⟨[], fun _ => 0⟩, ⟨[], fun _ => 0⟩, 0⟩, rfl, hv, ?_,
    mi_fast_refuted _ _ _ _ _ _ 2 _ hv rfl⟩
  rw [(mi_self 1 .sparse false _ 2 _ hv).1, Spec.entropy_pixels]
  have h0 : Spec.cx 2 (levelOf 1 false ⟨0, 255, false, [3, 9]⟩) 0 = 1 := by decide
  have h1 : Spec.cx 2 (levelOf 1 false ⟨0, 255, false, [3, 9]⟩) 1 = 1 := by decide
  rw [Finset.sum_range_succ, Finset.sum_range_one, h0, h1]
  norm_num

/-- **C95 (fast mode with a reused object, refuted).** The positions left by an earlier call are used; the result can even be negative. -/
theorem mi_stale_refuted : ∃ a b : In, ∃ old : Data, calcJointProbHist 1 .sparse false false [⟨0, 255, false, [5]⟩, ⟨0, 255, false, [5]⟩]
      ⟨[], [], [], ⟨[], fun _ => 0⟩, ⟨[], fun _ => 0⟩, 0⟩ = some old ∧
    Valid 1 false [a, b] 4 ∧ ∃ s, calcMutualInfo 1 .sparse false true false a b old = some s ∧ s < 0 := by
  have hv0 : Valid 1 false [(⟨0, 255, false, [5]⟩ : In), ⟨0, 255, false, [5]⟩] 1 := by
    refine ⟨by decide, by decide, by decide, ?_, ?_, ?_, ?_⟩ <;> simp
  have hv : Valid 1 false [(⟨0, 255, false, [0, 0, 0, 1]⟩ : In), ⟨0, 255, false, [1, 1, 0, 0]⟩] 4 := by
    refine ⟨by decide, by decide, by decide, ?_, ?_, ?_, ?_⟩ <;> simp
  have hold : ∃ old, calcJointProbHist 1 .sparse false false [⟨0, 255, false, [5]⟩, ⟨0, 255, false, [5]⟩]
      ⟨[], [], [], ⟨[], fun _ => 0⟩, ⟨[], fun _ => 0⟩, 0⟩ = some old ∧ old.jointCount.keys = [[0, 0]] := ⟨_, rfl, rfl⟩
  obtain ⟨old, hold, hkeys⟩ := hold
  refine ⟨_, _, old, hold, hv, ?_⟩
  obtain ⟨d, hd, r⟩ := calc_ok 1 .sparse true false _ 4 old hv.ok
  obtain ⟨m1, hm1, g1⟩ := r.marg 0 _ rfl
  obtain ⟨m2, hm2, g2⟩ := r.marg 1 _ rfl
  have hl := r.len
  have hm : d.margHists = [m1, m2] := by
    match hmm : d.margHists with
    | [] => rw [hmm] at hl; simp at hl
    | [_] => rw [hmm] at hl; simp at hl
    | [u, v] => rw [hmm] at hm1 hm2; simp at hm1 hm2; simp [hm1, hm2]
    | _ :: _ :: _ :: _ => rw [hmm] at hl; simp at hl
  have k1 : (0 : Int) ∈ m1.keys := (g1.sparse rfl 0).2 ⟨0, by decide, by decide⟩
  have k2 : (0 : Int) ∈ m2.keys := (g2.sparse rfl 0).2 ⟨2, by decide, by decide⟩
  have kj : ([0, 0] : List Int) ∈ d.jointHist.keys := (r.joint.sparse rfl _).2 ⟨2, by decide, by decide⟩
  have v1 : m1.val 0 = 3 / 4 := by rw [g1.val]; decide +kernel
  have v2 : m2.val 0 = 1 / 2 := by rw [g2.val]; decide +kernel
  have vj : d.jointHist.val [0, 0] = 1 / 4 := by rw [r.joint.val]; decide +kernel
  have ht : miTerm .sparse d m1 m2 0 [0, 0] = some (((1 / 4 : ℚ) : ℝ) * Real.logb 2 (((1 / 4 : ℚ) : ℝ) / ((3 / 4 : ℚ) : ℝ) / ((1 / 2 : ℚ) : ℝ))) := by
    unfold miTerm Hist.get
    rw [if_pos kj, vj]
    dsimp only
    rw [if_pos (by norm_num)]
    simp only [List.getD_cons_zero, List.getD_cons_succ]
    rw [if_pos k1, if_pos k2, v1, v2]
    dsimp only
    rw [if_pos (by norm_num), zero_add]
  refine ⟨((1 / 4 : ℚ) : ℝ) * Real.logb 2 (((1 / 4 : ℚ) : ℝ) / ((3 / 4 : ℚ) : ℝ) / ((1 / 2 : ℚ) : ℝ)), ?_, ?_⟩
  · unfold calcMutualInfo
    rw [hd]
    dsimp only
    rw [hm]
    dsimp only
    rw [r.fast rfl, hkeys, List.foldlM_cons, ht]
    rfl
  · push_cast
    have : Real.logb 2 ((1 / 4 : ℝ) / (3 / 4) / (1 / 2)) < 0 := by
      apply Real.logb_neg (by norm_num) <;> norm_num
    linarith

end Litiv.MI
