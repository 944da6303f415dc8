import Verif.Lemmas.Metrics
import Mathlib.Data.List.Perm.Basic
import Mathlib.Algebra.Order.BigOperators.Group.List
import Mathlib.Tactic.NormNum

/-!
# Properties C34, C35, C36, C61, C62 and C63: evaluation counters and metrics
-/

set_option linter.unusedSimpArgs false

namespace Litiv.Metrics

/-! ## C34: the counters partition the pixels -/

/-- C34: comparing a classification with a ground truth adds to each counter exactly the number of pixels in that class.
-/
theorem accImage_counts (s : BinClassif) {c g r : Mat8} (h : Admissible c g r) (hg : ¬ Absent g) :
    ∃ s', s.accImage c g r = some s' ∧
      s'.tp = s.tp + UInt64.ofNat (numPx c.area fun k => Evaluated g r k ∧ px c k = 255 ∧ px g k = 255) ∧
      s'.tn = s.tn + UInt64.ofNat (numPx c.area fun k => Evaluated g r k ∧ px c k ≠ 255 ∧ px g k ≠ 255) ∧
      s'.fp = s.fp + UInt64.ofNat (numPx c.area fun k => Evaluated g r k ∧ px c k = 255 ∧ px g k ≠ 255) ∧
      s'.fn = s.fn + UInt64.ofNat (numPx c.area fun k => Evaluated g r k ∧ px c k ≠ 255 ∧ px g k = 255) ∧
      s'.se = s.se + UInt64.ofNat (numPx c.area fun k => Evaluated g r k ∧ px c k = 255 ∧ px g k = 50) ∧
      s'.dc = s.dc + UInt64.ofNat (numPx c.area fun k => ¬ Evaluated g r k) :=
  ⟨_, accImage_foldl s h hg, by rw [fold_counts]; exact ⟨rfl, rfl, rfl, rfl, rfl, rfl⟩⟩

/-- C34, without ground truth: every pixel is a "don't care". -/
theorem accImage_no_gt (s : BinClassif) {c g r : Mat8} (h : Admissible c g r) (hg : Absent g) :
    s.accImage c g r = some { s with dc := s.dc + UInt64.ofNat c.area } := by
  unfold BinClassif.accImage
  rw [checkArgs_of h, (empty_iff g).2 hg]
  rfl

/-- C34: the total, "don't care" included, grows by the number of pixels of the image. -/
theorem accImage_total (s : BinClassif) {c g r : Mat8} (h : Admissible c g r) :
    ∃ s', s.accImage c g r = some s' ∧ s'.total true = s.total true + UInt64.ofNat c.area := by
  by_cases hg : Absent g
  · refine ⟨_, accImage_no_gt s h hg, ?_⟩
    simp [BinClassif.total, UInt64.add_assoc]
  · obtain ⟨s', hs, h1, h2, h3, h4, -, h6⟩ := accImage_counts s h hg
    refine ⟨s', hs, ?_⟩
    have hp := congrArg UInt64.ofNat (numPx_partition c g r c.area)
    rw [← hp]
    simp only [BinClassif.total, if_true, h1, h2, h3, h4, h6, UInt64.ofNat_add]
    ac_rfl

/-- C34, for a whole evaluation: starting from zero counters and as long as fewer than 2^64 pixels are compared, the
five classes partition the pixels (no counter wraps) and shadow errors never exceed false positives. -/
theorem session_partition (imgs : List (Mat8 × Mat8 × Mat8)) (h : ∀ t ∈ imgs, Admissible t.1 t.2.1 t.2.2)
    (hsz : (imgs.map fun t => t.1.area).sum < 2^64) :
    ∃ s, imgs.foldlM (fun (s : BinClassif) t => s.accImage t.1 t.2.1 t.2.2) {} = some s ∧
      s.tp.toNat + s.tn.toNat + s.fp.toNat + s.fn.toNat + s.dc.toNat = (imgs.map fun t => t.1.area).sum ∧
      (s.total true).toNat = (imgs.map fun t => t.1.area).sum ∧ s.se ≤ s.fp := by
  suffices H : ∃ s, imgs.foldlM (fun (s : BinClassif) t => s.accImage t.1 t.2.1 t.2.2) {} = some s ∧
      s.tp.toNat + s.tn.toNat + s.fp.toNat + s.fn.toNat + s.dc.toNat = (imgs.map fun t => t.1.area).sum ∧
      s.se.toNat ≤ s.fp.toNat by
    obtain ⟨s, h1, h2, h3⟩ := H
    refine ⟨s, h1, h2, ?_, UInt64.le_iff_toNat_le.2 h3⟩
    simp only [BinClassif.total, if_true]
    have k1 := toNat_add_of_lt s.tp s.tn (by omega)
    have k2 := toNat_add_of_lt (s.tp + s.tn) s.fp (by omega)
    have k3 := toNat_add_of_lt (s.tp + s.tn + s.fp) s.fn (by omega)
    rw [toNat_add_of_lt _ _ (by omega), k3, k2, k1, h2]
  induction imgs using List.reverseRecOn with
  | nil => exact ⟨{}, rfl, rfl, le_refl _⟩
  | append_singleton l t ih =>
    have hsum : ((l ++ [t]).map fun t => t.1.area).sum = (l.map fun t => t.1.area).sum + t.1.area := by simp
    rw [hsum] at hsz
    obtain ⟨s, h1, h2, h3⟩ := ih (fun u hu => h u (by simp [hu])) (by omega)
    have ht := h t (by simp)
    by_cases hg : Absent t.2.1
    · refine ⟨{ s with dc := s.dc + UInt64.ofNat t.1.area }, by
        rw [List.foldlM_append, h1]; simp [accImage_no_gt s ht hg], ?_, h3⟩
      rw [hsum, ← h2]
      have k := toNat_add_ofNat s.dc t.1.area (by omega)
      show s.tp.toNat + s.tn.toNat + s.fp.toNat + s.fn.toNat + (s.dc + UInt64.ofNat t.1.area).toNat = _
      omega
    · obtain ⟨s', hs, e1, e2, e3, e4, e5, e6⟩ := accImage_counts s ht hg
      refine ⟨s', by rw [List.foldlM_append, h1]; simp [hs], ?_, ?_⟩
      · have hp := numPx_partition t.1 t.2.1 t.2.2 t.1.area
        rw [hsum, ← h2, e1, e2, e3, e4, e6, toNat_add_ofNat _ _ (by omega), toNat_add_ofNat _ _ (by omega),
          toNat_add_ofNat _ _ (by omega), toNat_add_ofNat _ _ (by omega), toNat_add_ofNat _ _ (by omega)]
        omega
      · have hp := numPx_partition t.1 t.2.1 t.2.2 t.1.area
        have hle := numPx_mono t.1.area
          (fun k => Evaluated t.2.1 t.2.2 k ∧ px t.1 k = 255 ∧ px t.2.1 k = 50)
          (fun k => Evaluated t.2.1 t.2.2 k ∧ px t.1 k = 255 ∧ px t.2.1 k ≠ 255)
          (fun k hk => ⟨hk.1, hk.2.1, by rw [hk.2.2]; decide⟩)
        rw [e3, e5, toNat_add_ofNat _ _ (by omega), toNat_add_ofNat _ _ (by omega)]
        omega

/-- Arguments violating the size requirements are rejected. -/
theorem accImage_rejects (s : BinClassif) (c g r : Mat8)
    (h : Absent c ∨ (¬ Absent g ∧ ¬ SameSize c g) ∨ (¬ Absent r ∧ ¬ SameSize c r)) : s.accImage c g r = none := by
  have hs : ∀ m, ¬ Absent m ∧ ¬ SameSize c m → (m.empty || c.sameSize m) = false := by
    rintro m ⟨h1, h2⟩
    rw [Bool.or_eq_false_iff]
    refine ⟨by rw [← Bool.not_eq_true, empty_iff]; exact h1, ?_⟩
    rw [← Bool.not_eq_true]
    simpa [Mat8.sameSize, SameSize] using h2
  have : checkArgs c g r = false := by
    unfold checkArgs
    rcases h with h | h | h
    · simp [(empty_iff c).2 h]
    · simp [hs g h]
    · simp [hs r h]
  simp [BinClassif.accImage, this]

/-- Non-vacuity: a 2x3 image with all five classes and a shadow error. -/
example : BinClassif.accImage {} ⟨2, 3, [255, 255, 0, 0, 255, 255]⟩ ⟨2, 3, [255, 50, 255, 0, 170, 255]⟩
    ⟨2, 3, [1, 255, 1, 1, 1, 0]⟩ = some { tp := 1, tn := 1, fp := 1, fn := 1, se := 1, dc := 2 } := by decide

example : Admissible ⟨2, 3, [255, 255, 0, 0, 255, 255]⟩ ⟨2, 3, [255, 50, 255, 0, 170, 255]⟩ ⟨0, 0, []⟩ :=
  ⟨rfl, rfl, rfl, by simp [Absent], .inr ⟨rfl, rfl⟩, .inl rfl⟩

/-! ## C36: accumulation does not depend on order or grouping -/

/-- The totals of a list of counters, as accumulated batch by batch. -/
def totals (l : List BinClassif) : BinClassif := l.foldl BinClassif.acc {}

/-- C36: each counter of the total is the sum (modulo 2^64) of that counter over the batches. -/
theorem totals_sum (l : List BinClassif) :
    (totals l).tp.toNat = (l.map (·.tp.toNat)).sum % 2^64 ∧ (totals l).tn.toNat = (l.map (·.tn.toNat)).sum % 2^64 ∧
    (totals l).fp.toNat = (l.map (·.fp.toNat)).sum % 2^64 ∧ (totals l).fn.toNat = (l.map (·.fn.toNat)).sum % 2^64 ∧
    (totals l).se.toNat = (l.map (·.se.toNat)).sum % 2^64 ∧ (totals l).dc.toNat = (l.map (·.dc.toNat)).sum % 2^64 := by
  induction l using List.reverseRecOn with
  | nil => exact ⟨rfl, rfl, rfl, rfl, rfl, rfl⟩
  | append_singleton l a ih =>
    have : totals (l ++ [a]) = (totals l).acc a := by simp [totals]
    rw [this]
    simp only [BinClassif.acc, UInt64.toNat_add, ih, List.map_append, List.map_cons, List.map_nil, List.sum_append,
      List.sum_cons, List.sum_nil]
    omega

/-- C36: the order of the batches is irrelevant. -/
theorem totals_perm (l l' : List BinClassif) (h : l.Perm l') : totals l = totals l' := by
  unfold totals
  have : RightCommutative BinClassif.acc := ⟨fun a b c => by rw [acc_assoc, acc_comm b c, ← acc_assoc]⟩
  exact h.foldl_eq _

/-- C36: the grouping of the batches is irrelevant: totals of group totals are the totals of all batches. -/
theorem totals_grouping (groups : List (List BinClassif)) : totals (groups.map totals) = totals groups.flatten := by
  induction groups with
  | nil => rfl
  | cons g gs ih =>
    simp only [totals, List.map_cons, List.foldl_cons, List.flatten_cons, List.foldl_append] at *
    rw [foldl_acc_init, foldl_acc_init gs.flatten, ih, zero_acc]

/-- C36: comparing an image after other images gives the same counters as merging separately obtained counters. -/
theorem accImage_eq_acc (s : BinClassif) {c g r : Mat8} (h : Admissible c g r) :
    s.accImage c g r = (BinClassif.accImage {} c g r).map s.acc := by
  by_cases hg : Absent g
  · rw [accImage_no_gt s h hg, accImage_no_gt {} h hg]
    simp [BinClassif.acc]
  · rw [accImage_foldl s h hg, accImage_foldl {} h hg, fold_counts, fold_counts]
    simp [BinClassif.acc]

/-- C36: `isEqual` holds exactly for equal counters. -/
theorem isEqual_iff (a b : BinClassif) : a.isEqual b = true ↔ a = b := by
  cases a; cases b
  simp [BinClassif.isEqual, and_assoc]

example : totals [{ tp := 3, fp := 1 }, { tn := 2 }, { tp := 4, dc := 9 }] = { tp := 7, tn := 2, fp := 1, dc := 9 } := by
  decide

/-- C36 for arrays of streams, general step. -/
theorem arr_acc_ok (n : Nat) (hn : 0 < n) (a b : ArrAcc) (ha : a.counters.length = n) (ha' : a.names.length = n)
    (hb : b.counters.length = n) (hb' : b.names.length = n) :
    ∃ r, a.acc b = some r ∧ r.counters = List.zipWith BinClassif.acc a.counters b.counters ∧
      r.counters.length = n ∧ r.names.length = n := by
  have h1 : a.counters.isEmpty = false := by
    rw [List.isEmpty_eq_false_iff]; intro h; simp [h] at ha; omega
  have h2 : a.names.isEmpty = false := by
    rw [List.isEmpty_eq_false_iff]; intro h; simp [h] at ha'; omega
  refine ⟨⟨List.zipWith BinClassif.acc a.counters b.counters,
    List.zipWith (fun n m => if n = "" then m else n) a.names b.names⟩, ?_, rfl, by simp [ha, hb], by simp [ha', hb']⟩
  simp [ArrAcc.acc, h1, h2, ha, ha', hb, hb']

theorem arr_acc_first (n : Nat) (b : ArrAcc) (hb : b.counters.length = n) (hb' : b.names.length = n) :
    ∃ r, (ArrAcc.create 0).acc b = some r ∧ r.counters = b.counters ∧ r.names.length = n := by
  refine ⟨⟨List.zipWith BinClassif.acc (List.replicate b.counters.length {}) b.counters,
    List.zipWith (fun n m => if n = "" then m else n) b.names b.names⟩, ?_, ?_, by simp [hb']⟩
  · simp [ArrAcc.acc, ArrAcc.create, hb, hb']
  · dsimp only
    apply List.ext_getElem
    · simp
    · intro i h1 h2
      simp [zero_acc]

/-- C36 for arrays of `n ≥ 1` streams: accumulating any non-empty list of batches, all with `n` streams, succeeds and
the counters of stream `i` are the totals of stream `i` over the batches (hence independent of order and grouping by
`totals_perm` and `totals_grouping`).  The hypothesis on the sizes cannot be dropped, see `arr_order_matters`. -/
theorem arr_totals_partial (n : Nat) (hn : 0 < n) (l : List ArrAcc) (hl : l ≠ [])
    (h : ∀ a ∈ l, a.counters.length = n ∧ a.names.length = n) :
    ∃ r, l.foldlM ArrAcc.acc (ArrAcc.create 0) = some r ∧ r.counters.length = n ∧ r.names.length = n ∧
      ∀ i < n, r.counters.getD i {} = totals (l.map fun a => a.counters.getD i {}) := by
  induction l using List.reverseRecOn with
  | nil => exact absurd rfl hl
  | append_singleton l a ih =>
    have ha := h a (by simp)
    by_cases hnil : l = []
    · subst hnil
      obtain ⟨r, h1, h2, h3⟩ := arr_acc_first n a ha.1 ha.2
      refine ⟨r, by simp [h1], by rw [h2, ha.1], h3, fun i hi => ?_⟩
      rw [h2]
      simp [totals, zero_acc]
    · obtain ⟨r, h1, h2, h3, h4⟩ := ih hnil (fun b hb => h b (by simp [hb]))
      obtain ⟨r', g1, g2, g3, g4⟩ := arr_acc_ok n hn r a h2 h3 ha.1 ha.2
      refine ⟨r', by rw [List.foldlM_append, h1]; simp [g1], g3, g4, fun i hi => ?_⟩
      have e : totals ((l ++ [a]).map fun a => a.counters.getD i {}) =
          (totals (l.map fun a => a.counters.getD i {})).acc (a.counters.getD i {}) := by simp [totals]
      rw [e, ← h4 i hi, g2, List.getD_eq_getElem _ _ (by simp [h2, ha.1]; exact hi),
        List.getD_eq_getElem _ _ (by omega), List.getD_eq_getElem _ _ (by omega)]
      simp

/-- Finding: with an empty accumulator (the value a group without batches contributes) the outcome depends on the order:
the empty one first is fine, the empty one last violates an assertion. -/
theorem arr_order_matters :
    ∃ a b : ArrAcc, (∃ r, [a, b].foldlM ArrAcc.acc (ArrAcc.create 0) = some r) ∧
      [b, a].foldlM ArrAcc.acc (ArrAcc.create 0) = none :=
  ⟨ArrAcc.create 0, ArrAcc.create 2, by simp [ArrAcc.acc, ArrAcc.create, BinClassif.acc], by
    simp [ArrAcc.acc, ArrAcc.create]⟩

/-- C36: reducing an array of streams gives the totals of its streams. -/
theorem arr_reduce (a : ArrAcc) : a.reduce = totals a.counters := rfl

/-! ## C35: ranges of the metrics -/

/-- The number of evaluated pixels fits in 64 bits. -/
def Fits (m : BinClassif) : Prop := m.tp.toNat + m.tn.toNat + m.fp.toNat + m.fn.toNat < 2^64

/-- C35, exact values of the simple ratios (`0/0` is `0`). -/
theorem ratio_values (m : BinClassif) (h : Fits m) :
    calcRecall m = some (toR m.tp / (toR m.tp + toR m.fn)) ∧
    calcPrecision m = some (toR m.tp / (toR m.tp + toR m.fp)) ∧
    calcSpecificity m = some (toR m.tn / (toR m.tn + toR m.fp)) ∧
    calcFPR m = some (toR m.fp / (toR m.fp + toR m.tn)) ∧
    calcFNR m = some (toR m.fn / (toR m.fn + toR m.tp)) ∧
    calcPBC m = some (100 * ((toR m.fn + toR m.fp) / (toR m.tp + toR m.tn + toR m.fp + toR m.fn))) := by
  unfold Fits at h
  refine ⟨ratio_spec _ _ (by omega), ratio_spec _ _ (by omega), ratio_spec _ _ (by omega), ratio_spec _ _ (by omega),
    ?_, ?_⟩
  · have := ratio_spec m.fn m.tp (by omega)
    rw [UInt64.add_comm m.fn m.tp] at this
    exact this
  · have e1 : toR (m.fn + m.fp) = toR m.fn + toR m.fp := toR_add _ _ (by omega)
    have s1 : (m.tp + m.tn).toNat = m.tp.toNat + m.tn.toNat := by rw [UInt64.toNat_add]; omega
    have s2 : (m.tp + m.tn + m.fp).toNat = m.tp.toNat + m.tn.toNat + m.fp.toNat := by rw [UInt64.toNat_add, s1]; omega
    have e2 : toR (m.total false) = toR m.tp + toR m.tn + toR m.fp + toR m.fn := by
      simp only [BinClassif.total, Bool.false_eq_true, if_false, UInt64.add_zero]
      rw [toR_add _ _ (by omega), toR_add _ _ (by omega), toR_add _ _ (by omega)]
    unfold calcPBC
    by_cases hp : m.total false > 0
    · have hne : toR (m.total false) ≠ 0 := by
        unfold toR; exact Nat.cast_ne_zero.2 ((pos_iff _).1 hp)
      rw [if_pos hp, divc_of_ne _ _ hne, e1, e2, mul_div_assoc]
    · rw [if_neg hp]
      have h0 : (m.total false).toNat = 0 := by by_contra hc; exact hp ((pos_iff _).2 hc)
      have : toR (m.total false) = 0 := by simp [toR, h0]
      rw [← e2, this]; simp

/-- C35, F-measure: it is the harmonic mean of recall and precision, `2TP/(2TP+FP+FN)`. -/
theorem fmeasure_value (m : BinClassif) (h : Fits m) :
    calcFMeasure m = some (2 * toR m.tp / (2 * toR m.tp + toR m.fp + toR m.fn)) := by
  obtain ⟨h1, h2, -⟩ := ratio_values m h
  have ht := toR_nonneg m.tp
  have hf := toR_nonneg m.fp
  have hn := toR_nonneg m.fn
  simp only [calcFMeasure, h1, h2, Option.bind_eq_bind, Option.bind_some]
  unfold calcFMeasureRP
  by_cases h0 : toR m.tp = 0
  · simp [h0]
  · have htp : 0 < toR m.tp := lt_of_le_of_ne ht (Ne.symm h0)
    have hr : 0 < toR m.tp / (toR m.tp + toR m.fn) := by positivity
    have hp : 0 < toR m.tp / (toR m.tp + toR m.fp) := by positivity
    rw [if_pos (by linarith), divc_of_ne _ _ (by linarith)]
    congr 1
    have a1 : toR m.tp + toR m.fn ≠ 0 := by positivity
    have a2 : toR m.tp + toR m.fp ≠ 0 := by positivity
    have a3 : 2 * toR m.tp + toR m.fp + toR m.fn ≠ 0 := by positivity
    field_simp
    ring

theorem mcc_guarded (m : BinClassif) (h : Fits m) :
    calcMCC m = some ((toR m.tp * toR m.tn - toR (m.fp * m.fn)) /
      Real.sqrt ((toR m.tp + toR m.fp) * (toR m.tp + toR m.fn) * (toR m.tn + toR m.fp) * (toR m.tn + toR m.fn))) ∨
    calcMCC m = some 0 ∧
      (toR m.tp + toR m.fp) * (toR m.tp + toR m.fn) * (toR m.tn + toR m.fp) * (toR m.tn + toR m.fn) = 0 := by
  unfold Fits at h
  have e1 : toR (m.tp + m.fn) = toR m.tp + toR m.fn := toR_add _ _ (by omega)
  have e2 : toR (m.tn + m.fp) = toR m.tn + toR m.fp := toR_add _ _ (by omega)
  have e3 : toR (m.tn + m.fn) = toR m.tn + toR m.fn := toR_add _ _ (by omega)
  have e4 : toR (m.tp + m.fp) = toR m.tp + toR m.fp := toR_add _ _ (by omega)
  have hpos : ∀ n : UInt64, n > 0 → 0 < toR n := fun n hn => by
    unfold toR; exact Nat.cast_pos.2 (Nat.pos_of_ne_zero ((pos_iff _).1 hn))
  have hzero : ∀ n : UInt64, ¬ n > 0 → toR n = 0 := fun n hn => by
    have : n.toNat = 0 := by by_contra hc; exact hn ((pos_iff _).2 hc)
    simp [toR, this]
  unfold calcMCC
  split_ifs with hc
  · left
    obtain ⟨c1, c2, c3, c4⟩ := hc
    have p1 := hpos _ c1; have p2 := hpos _ c2; have p3 := hpos _ c3; have p4 := hpos _ c4
    rw [e4] at p1; rw [e1] at p2; rw [e2] at p3; rw [e3] at p4
    rw [e1, e2, e3, divc_of_ne]
    exact Real.sqrt_ne_zero'.2 (by positivity)
  · right
    refine ⟨rfl, ?_⟩
    rw [← e1, ← e2, ← e3, ← e4]
    by_cases c1 : m.tp + m.fp > 0
    · by_cases c2 : m.tp + m.fn > 0
      · by_cases c3 : m.tn + m.fp > 0
        · have c4 : ¬ m.tn + m.fn > 0 := fun c4 => hc ⟨c1, c2, c3, c4⟩
          simp [hzero _ c4]
        · simp [hzero _ c3]
      · simp [hzero _ c2]
    · simp [hzero _ c1]

theorem mcc_range_aux (a b c d w : ℝ) (ha : 0 ≤ a) (hb : 0 ≤ b) (hc : 0 ≤ c) (hd : 0 ≤ d) (hw : 0 ≤ w)
    (hw' : w ≤ c * d) :
    -1 ≤ (a * b - w) / Real.sqrt ((a + c) * (a + d) * (b + c) * (b + d)) ∧
    (a * b - w) / Real.sqrt ((a + c) * (a + d) * (b + c) * (b + d)) ≤ 1 := by
  have h1 : (a * b)^2 ≤ (a + c) * (a + d) * (b + c) * (b + d) := by
    have : (a * b)^2 = a * a * b * b := by ring
    rw [this]
    gcongr <;> linarith
  have h2 : (c * d)^2 ≤ (a + c) * (a + d) * (b + c) * (b + d) := by
    have : (c * d)^2 = c * d * c * d := by ring
    rw [this]
    gcongr <;> linarith
  have g1 := Real.le_sqrt_of_sq_le h1
  have g2 := Real.le_sqrt_of_sq_le h2
  have hab : 0 ≤ a * b := by positivity
  rcases eq_or_lt_of_le (Real.sqrt_nonneg ((a + c) * (a + d) * (b + c) * (b + d))) with h0 | h0
  · rw [← h0]; simp
  · rw [le_div_iff₀ h0, div_le_one h0]
    constructor <;> linarith

/-- C35: as long as the number of evaluated pixels fits in 64 bits, all metrics are defined (no division by zero) and
within their documented ranges, the false positive rate is the complement of the specificity, and the false negative
rate that of the recall. -/
theorem metrics_in_range (m : BinClassif) (h : Fits m) :
    ∃ v, calcMetrics m = some v ∧
      (0 ≤ v.recall ∧ v.recall ≤ 1) ∧ (0 ≤ v.specificity ∧ v.specificity ≤ 1) ∧ (0 ≤ v.fpr ∧ v.fpr ≤ 1) ∧
      (0 ≤ v.fnr ∧ v.fnr ≤ 1) ∧ (0 ≤ v.pbc ∧ v.pbc ≤ 100) ∧ (0 ≤ v.precision ∧ v.precision ≤ 1) ∧
      (0 ≤ v.fmeasure ∧ v.fmeasure ≤ 1) ∧ (-1 ≤ v.mcc ∧ v.mcc ≤ 1) ∧
      (m.fp.toNat + m.tn.toNat ≠ 0 → v.fpr = 1 - v.specificity) ∧
      (m.tp.toNat + m.fn.toNat ≠ 0 → v.fnr = 1 - v.recall) := by
  obtain ⟨h1, h2, h3, h4, h5, h6⟩ := ratio_values m h
  have h7 := fmeasure_value m h
  have ht := toR_nonneg m.tp
  have htn := toR_nonneg m.tn
  have hf := toR_nonneg m.fp
  have hn := toR_nonneg m.fn
  obtain ⟨mcc, h8, hmcc⟩ : ∃ x, calcMCC m = some x ∧ (-1 ≤ x ∧ x ≤ 1) := by
    rcases mcc_guarded m h with e | ⟨e, -⟩
    · refine ⟨_, e, mcc_range_aux _ _ _ _ _ ht htn hf hn (toR_nonneg _) ?_⟩
      unfold toR
      rw [← Nat.cast_mul, Nat.cast_le, UInt64.toNat_mul]
      exact Nat.mod_le _ _
    · exact ⟨0, e, by norm_num⟩
  refine ⟨_, by simp only [calcMetrics, h1, h2, h3, h4, h5, h6, h7, h8, Option.bind_eq_bind, Option.bind_some]; rfl,
    ratio_range _ _ ht hn, ratio_range _ _ htn hf, ratio_range _ _ hf htn, ratio_range _ _ hn ht, ?_,
    ratio_range _ _ ht hf, ?_, hmcc, ?_, ?_⟩
  · have := ratio_range (toR m.fn + toR m.fp) (toR m.tp + toR m.tn) (by linarith) (by linarith)
    rw [show toR m.tp + toR m.tn + toR m.fp + toR m.fn = (toR m.fn + toR m.fp) + (toR m.tp + toR m.tn) by ring]
    constructor <;> linarith [this.1, this.2]
  · have := ratio_range (2 * toR m.tp) (toR m.fp + toR m.fn) (by linarith) (by linarith)
    rw [show 2 * toR m.tp + toR m.fp + toR m.fn = 2 * toR m.tp + (toR m.fp + toR m.fn) by ring]
    exact this
  · intro hne
    have : toR m.fp + toR m.tn ≠ 0 := by
      unfold toR; rw [← Nat.cast_add]; exact Nat.cast_ne_zero.2 hne
    have h' : toR m.tn + toR m.fp ≠ 0 := by rw [add_comm]; exact this
    dsimp only
    rw [eq_sub_iff_add_eq, add_comm (toR m.tn), ← add_div, div_self this]
  · intro hne
    have : toR m.tp + toR m.fn ≠ 0 := by
      unfold toR; rw [← Nat.cast_add]; exact Nat.cast_ne_zero.2 hne
    dsimp only
    rw [eq_sub_iff_add_eq, add_comm (toR m.fn) (toR m.tp), ← add_div, add_comm (toR m.fn), div_self this]

/-- Finding: when the sums wrap around, the ranges are lost (recall above 1). -/
theorem recall_wraps : ∃ m : BinClassif, ∃ v, calcRecall m = some v ∧ 1 < v := by
  have h : ((4 : UInt64) + 18446744073709551615 : UInt64) = 3 := by decide
  refine ⟨{ tp := 4, fn := 18446744073709551615 }, 4 / 3, ?_, by norm_num⟩
  unfold calcRecall
  simp only [h]
  rw [if_pos (by decide), divc_of_ne]
  · simp only [toR]; congr 1
  · simp [toR]

example : Fits { tp := 10, tn := 80, fp := 3, fn := 7, se := 1, dc := 4 } := by unfold Fits; decide

/-! ## C61: value of Matthews' correlation coefficient -/

/-- C61 (partial: requires the product of the error counts to fit in 64 bits): the computed coefficient is
`(TP·TN − FP·FN) / √((TP+FP)(TP+FN)(TN+FP)(TN+FN))`, and `0` when a class is empty. -/
theorem mcc_value_partial (m : BinClassif) (h : Fits m) (hm : m.fp.toNat * m.fn.toNat < 2^64) :
    calcMCC m = some ((toR m.tp * toR m.tn - toR m.fp * toR m.fn) /
      Real.sqrt ((toR m.tp + toR m.fp) * (toR m.tp + toR m.fn) * (toR m.tn + toR m.fp) * (toR m.tn + toR m.fn))) := by
  have hp : toR (m.fp * m.fn) = toR m.fp * toR m.fn := by
    unfold toR; rw [UInt64.toNat_mul, Nat.mod_eq_of_lt hm, Nat.cast_mul]
  rcases mcc_guarded m h with e | ⟨e, h0⟩
  · rw [e, hp]
  · rw [e, h0]; simp

/-- Finding: the product of the error counts is a 64-bit product; for 2^32 false positives and 2^32 false negatives
it wraps to 0 and the coefficient of an almost totally wrong classifier is reported as positive. -/
theorem mcc_wrong_sign : ∃ m : BinClassif, Fits m ∧ (toR m.tp * toR m.tn - toR m.fp * toR m.fn < 0) ∧
    ∃ v, calcMCC m = some v ∧ 0 < v := by
  have hf : Fits { tp := 1, tn := 1, fp := 4294967296, fn := 4294967296 } := by unfold Fits; decide
  refine ⟨{ tp := 1, tn := 1, fp := 4294967296, fn := 4294967296 }, hf, ?_, ?_⟩
  · simp only [toR]
    have e1 : (1 : UInt64).toNat = 1 := by decide
    have e2 : (4294967296 : UInt64).toNat = 4294967296 := by decide
    rw [e1, e2]; norm_num
  · have e1 : toR 1 = 1 := by simp [toR]
    have e2 : 0 ≤ toR 4294967296 := toR_nonneg _
    have e3 : toR ((4294967296 : UInt64) * 4294967296) = 0 := by
      have : ((4294967296 : UInt64) * 4294967296) = 0 := by decide
      rw [this]; simp [toR]
    rcases mcc_guarded _ hf with e | ⟨-, e⟩
    · refine ⟨_, e, ?_⟩
      simp only [e1, e3]
      have : 0 < (1 + toR 4294967296) * (1 + toR 4294967296) * (1 + toR 4294967296) * (1 + toR 4294967296) := by
        positivity
      have := Real.sqrt_pos.2 this
      positivity
    · simp only [e1] at e
      have : 0 < (1 + toR 4294967296) * (1 + toR 4294967296) * (1 + toR 4294967296) * (1 + toR 4294967296) := by
        positivity
      exact absurd e (ne_of_gt this)

/-! ## C63: the coloured mask shows the counters -/

theorem mapM_range_some {β : Type} (f : Nat → Option β) (g : Nat → β) (n : Nat) (h : ∀ k < n, f k = some (g k)) :
    (List.range n).mapM f = some ((List.range n).map g) := by
  induction n with
  | zero => rfl
  | succ n ih =>
    rw [List.range_succ, List.mapM_append, ih (fun k hk => h k (by omega))]
    simp [h n (by omega)]

theorem flatten_range_mul {β : Type} (g : Nat → β) (r c : Nat) :
    ((List.range r).map fun i => (List.range c).map fun j => g (c * i + j)).flatten = (List.range (r * c)).map g := by
  induction r with
  | zero => simp
  | succ r ih =>
    rw [List.range_succ, List.map_append, List.flatten_append, ih, Nat.succ_mul, List.range_add, List.map_append]
    simp [Nat.mul_comm c r]

open Classical in
/-- C63: with a ground truth, the mask has one colour per pixel: pure green exactly at true positives, (127,0,255)
exactly at false negatives, (0,127,255) exactly at shadow errors and (0,0,255) exactly at positives where the ground
truth is 0. -/
theorem colored_mask_classes {c g r : Mat8} (h : Admissible c g r) (hg : ¬ Absent g) :
    ∃ out, coloredMask c g r = some out ∧ out.length = c.area ∧ ∀ k < c.area, ∃ col, out[k]? = some col ∧
      (col = (0, 255, 0) ↔ Evaluated g r k ∧ px c k = 255 ∧ px g k = 255) ∧
      (col = (127, 0, 255) ↔ Evaluated g r k ∧ px c k ≠ 255 ∧ px g k = 255) ∧
      (col = (0, 127, 255) ↔ Evaluated g r k ∧ px c k = 255 ∧ px g k = 50) ∧
      (col = (0, 0, 255) ↔ Evaluated g r k ∧ px c k = 255 ∧ px g k = 0) := by
  have hge : g.empty = false := by rw [← Bool.not_eq_true, empty_iff]; exact hg
  refine ⟨(List.range c.area).map fun k => colorPixel (px c k) (px g k) (roiVal r k), ?_, by simp, ?_⟩
  · unfold coloredMask
    rw [checkArgs_of h, hge]
    simp only [Bool.not_true, Bool.false_eq_true, if_false]
    rw [mapM_range_some _ (fun i => (List.range c.cols).map fun j =>
      colorPixel (px c (c.cols * i + j)) (px g (c.cols * i + j)) (roiVal r (c.cols * i + j)))]
    · simp only [Option.map_some]
      rw [flatten_range_mul (fun k => colorPixel (px c k) (px g k) (roiVal r k))]
      rfl
    · intro i hi
      apply mapM_range_some
      intro j hj
      have hk : c.cols * i + j < c.rows * c.cols := by
        calc c.cols * i + j < c.cols * i + c.cols := by omega
          _ = (i + 1) * c.cols := by ring
          _ ≤ c.rows * c.cols := Nat.mul_le_mul_right _ hi
      obtain ⟨h1, h2, h3⟩ := reads h hg _ hk
      simp [h1, h2, h3]
  · intro k hk
    refine ⟨colorPixel (px c k) (px g k) (roiVal r k), by simp [hk], ?_⟩
    unfold colorPixel
    simp only [evaluated_iff]
    generalize px c k = x
    generalize px g k = y
    by_cases he : Evaluated g r k
    · by_cases hx : x = 255
      · subst hx
        by_cases h1 : y = 255
        · subst h1; simp [he]
        · by_cases h2 : y = 0
          · subst h2; simp [he]
          · by_cases h3 : y = 50
            · subst h3; simp [he]
            · simp [he, h1, h2, h3]
      · by_cases h1 : y = 255
        · subst h1; simp [he, hx]
        · simp [he, hx, h1]
    · by_cases hr : roiVal r k = some 0
      · simp [he, hr]
      · simp only [he, hr, if_false, false_and, iff_false, Prod.mk.injEq, not_and]
        refine ⟨?_, ?_, ?_, ?_⟩ <;> intro a b <;> rw [a] at b <;> first | (exact absurd b (by decide)) | (intro c; rw [a] at c; revert c; decide)

example : coloredMask ⟨1, 3, [255, 0, 255]⟩ ⟨1, 3, [255, 255, 50]⟩ ⟨0, 0, []⟩ =
    some [(0, 255, 0), (127, 0, 255), (0, 127, 255)] := by decide

/-! ## C62: stereo disparity errors -/

/-- Pixel (estimate, ground truth, region of interest) is evaluated: the ground truth is not the type's maximum, not
negative for signed types, and the region of interest, if any, is non-zero. -/
def DispEvaluated (t : DispType) (p : ℝ × ℝ × Option UInt8) : Prop :=
  p.2.1 ≠ t.max ∧ ((t = .u8 ∨ t = .u16) ∨ 0 ≤ p.2.1) ∧ p.2.2 ≠ some 0

open Classical in
/-- C62: comparing a disparity map appends exactly the absolute errors of the evaluated pixels, in order, and counts all
others as "don't care". -/
theorem stereo_accImage (s : StereoErrs) (t : DispType) (pxs : List (ℝ × ℝ × Option UInt8)) :
    (s.accImage t pxs).errors = s.errors ++ ((pxs.filter fun p => DispEvaluated t p).map fun p => |p.1 - p.2.1|) ∧
    (s.accImage t pxs).dc = s.dc + UInt64.ofNat (pxs.countP fun p => ¬ DispEvaluated t p) := by
  have hiff : ∀ p : ℝ × ℝ × Option UInt8,
      (dispValid t p.2.1 ∧ (p.2.2 = none ∨ p.2.2 ≠ some 0)) ↔ DispEvaluated t p := by
    intro p
    have : (p.2.2 = none ∨ p.2.2 ≠ some 0) ↔ p.2.2 ≠ some 0 := by
      constructor
      · rintro (h | h)
        · rw [h]; simp
        · exact h
      · exact Or.inr
    rw [this]
    unfold dispValid DispEvaluated
    cases t <;> simp [and_assoc]
  unfold StereoErrs.accImage
  simp only [hiff]
  induction pxs generalizing s with
  | nil => simp
  | cons p l ih =>
    rw [List.foldl_cons]
    by_cases hp : DispEvaluated t p
    · rw [if_pos hp]
      obtain ⟨h1, h2⟩ := ih { s with errors := s.errors ++ [|p.1 - p.2.1|] }
      rw [h1, h2]
      simp [hp]
    · rw [if_neg hp]
      obtain ⟨h1, h2⟩ := ih { s with dc := s.dc + 1 }
      rw [h1, h2]
      constructor
      · simp [hp]
      · rw [List.countP_cons]
        simp [hp, UInt64.add_assoc, UInt64.ofNat_add, UInt64.add_comm]

theorem foldl_add (v : List ℝ) (a : ℝ) : v.foldl (· + ·) a = a + v.sum := by
  induction v generalizing a with
  | nil => simp
  | cons x v ih => rw [List.foldl_cons, ih, List.sum_cons]; ring

theorem foldl_sq (v : List ℝ) (a : ℝ) : v.foldl (fun s e => s + e * e) a = a + (v.map fun e => e^2).sum := by
  induction v generalizing a with
  | nil => simp
  | cons x v ih => rw [List.foldl_cons, ih, List.map_cons, List.sum_cons]; ring

open Classical in
theorem foldl_count (v : List ℝ) (m : ℝ) (a : Nat) :
    v.foldl (fun n e => if e > m then n + 1 else n) a = a + v.countP fun e => m < e := by
  induction v generalizing a with
  | nil => simp
  | cons x v ih =>
    rw [List.foldl_cons, ih, List.countP_cons]
    by_cases h : x > m
    · simp [h]; omega
    · simp [h]

theorem len_pos {v : List ℝ} (h : v ≠ []) : (0 : ℝ) < v.length := Nat.cast_pos.2 (List.length_pos_iff.2 h)

open Classical in
/-- C62: for a non-empty error list, the bad-pixel percentage is the exact proportion of errors above the margin, the
average is the mean, and the RMS the root of the mean square. -/
theorem stereo_values (v : List ℝ) (m : ℝ) (h : v ≠ []) :
    percentBad v m = some (100 * (((v.countP fun e => m < e : Nat) : ℝ) / (v.length : ℝ))) ∧ average v = some (v.sum / v.length) ∧
      rms v = some (Real.sqrt ((v.map fun e => e^2).sum / v.length)) := by
  have hv : v.isEmpty = false := by simpa using h
  have hl : (v.length : ℝ) ≠ 0 := ne_of_gt (len_pos h)
  refine ⟨?_, ?_, ?_⟩
  · simp only [percentBad, hv, Bool.false_eq_true, if_false, foldl_count, Nat.zero_add]
    rw [divc_of_ne _ _ hl, Option.map_some, mul_comm]
  · simp only [average, hv, Bool.false_eq_true, if_false, foldl_add, zero_add]
    rw [divc_of_ne _ _ hl]
  · simp only [rms, hv, Bool.false_eq_true, if_false, foldl_sq, zero_add]
    rw [divc_of_ne _ _ hl, Option.map_some]

/-- C62: percentages lie in [0,100] and do not increase with the margin. -/
theorem percentBad_range (v : List ℝ) (m m' : ℝ) (hm : m ≤ m') :
    ∃ x y, percentBad v m = some x ∧ percentBad v m' = some y ∧ 0 ≤ y ∧ y ≤ x ∧ x ≤ 100 := by
  classical
  by_cases h : v = []
  · subst h; exact ⟨0, 0, by simp [percentBad], by simp [percentBad], le_refl _, le_refl _, by norm_num⟩
  · have hl := len_pos h
    refine ⟨_, _, (stereo_values v m h).1, (stereo_values v m' h).1, by positivity, ?_, ?_⟩
    · have : (v.countP fun e => m' < e) ≤ v.countP fun e => m < e :=
        List.countP_mono_left (fun e _ he => by simp at *; linarith)
      have : ((v.countP fun e => m' < e : Nat) : ℝ) ≤ (v.countP fun e => m < e : Nat) := Nat.cast_le.2 this
      gcongr
    · have : ((v.countP fun e => m < e : Nat) : ℝ) / v.length ≤ 1 := by
        rw [div_le_one hl]; exact Nat.cast_le.2 List.countP_le_length
      linarith

theorem sum_sq_cauchy (v : List ℝ) : v.sum ^ 2 ≤ v.length * (v.map fun e => e^2).sum := by
  have key : ∀ (v : List ℝ) (a : ℝ), 0 ≤ (v.map fun e => e^2).sum - 2 * a * v.sum + v.length * a^2 := by
    intro v a
    induction v with
    | nil => simp
    | cons x v ih =>
      simp only [List.map_cons, List.sum_cons, List.length_cons, Nat.cast_add, Nat.cast_one]
      nlinarith [sq_nonneg (x - a)]
  by_cases h : v = []
  · subst h; simp
  · have hl := len_pos h
    have := key v (v.sum / v.length)
    have h2 : (v.map fun e => e^2).sum - 2 * (v.sum / v.length) * v.sum + v.length * (v.sum / v.length)^2 =
        (v.map fun e => e^2).sum - v.sum^2 / v.length := by
      field_simp; ring
    rw [h2, sub_nonneg, div_le_iff₀ hl] at this
    linarith

/-- C62: all stereo metrics are defined; for errors as produced by the comparison (non-negative), the average is
non-negative and never exceeds the RMS. -/
theorem stereo_metrics_ok (e : StereoErrs) (hnn : ∀ x ∈ e.errors, 0 ≤ x) :
    ∃ v, calcStereo e = some v ∧ v.bad4 ≤ v.bad2 ∧ v.bad2 ≤ v.bad1 ∧ v.bad1 ≤ v.bad05 ∧ v.bad05 ≤ 100 ∧ 0 ≤ v.bad4 ∧
      0 ≤ v.avg ∧ v.avg ≤ v.rms := by
  obtain ⟨b05, b1, h05, h1, -, h1le, h05le⟩ := percentBad_range e.errors (1/2) 1 (by norm_num)
  obtain ⟨b1', b2, h1', h2, -, h2le, -⟩ := percentBad_range e.errors 1 2 (by norm_num)
  obtain ⟨b2', b4, h2', h4, h4nn, h4le, -⟩ := percentBad_range e.errors 2 4 (by norm_num)
  rw [h1] at h1'; rw [h2] at h2'
  injection h1' with h1'; injection h2' with h2'
  subst h1'; subst h2'
  obtain ⟨a, r, ha, hr, h0, hle⟩ : ∃ a r, average e.errors = some a ∧ rms e.errors = some r ∧ 0 ≤ a ∧ a ≤ r := by
    by_cases h : e.errors = []
    · exact ⟨0, 0, by simp [average, h], by simp [rms, h], le_refl _, le_refl _⟩
    · have hl := len_pos h
      obtain ⟨-, ha, hr⟩ := stereo_values e.errors 0 h
      refine ⟨_, _, ha, hr, div_nonneg (List.sum_nonneg hnn) hl.le, Real.le_sqrt_of_sq_le ?_⟩
      rw [div_pow, div_le_div_iff₀ (by positivity) hl]
      have := sum_sq_cauchy e.errors
      nlinarith
  exact ⟨⟨b05, b1, b2, b4, a, r⟩, by
    simp only [calcStereo, h05, h1, h2, h4, ha, hr, Option.bind_eq_bind, Option.bind_some]; rfl, h4le, h2le, h1le, h05le, h4nn, h0, hle⟩

/-- C62: the metrics of accumulated error lists do not depend on the order of accumulation. -/
theorem stereo_order (a b : StereoErrs) : calcStereo (a.acc b) = calcStereo (b.acc a) ∧ (a.acc b).dc = (b.acc a).dc := by
  classical
  have hp : (a.errors ++ b.errors).Perm (b.errors ++ a.errors) := List.perm_append_comm
  have key : ∀ (v w : List ℝ), v.Perm w → ∀ m, percentBad v m = percentBad w m ∧ average v = average w ∧ rms v = rms w := by
    intro v w h m
    by_cases hv : v = []
    · subst hv; have := h.nil_eq; subst this; exact ⟨rfl, rfl, rfl⟩
    · have hw : w ≠ [] := fun hw => hv (by subst hw; exact h.eq_nil)
      obtain ⟨a1, a2, a3⟩ := stereo_values v m hv
      obtain ⟨b1, b2, b3⟩ := stereo_values w m hw
      rw [a1, a2, a3, b1, b2, b3, h.length_eq, h.countP_eq, h.sum_eq, (h.map _).sum_eq]
      exact ⟨rfl, rfl, rfl⟩
  constructor
  · unfold calcStereo StereoErrs.acc
    dsimp only
    rw [(key _ _ hp (1/2)).1, (key _ _ hp 1).1, (key _ _ hp 2).1, (key _ _ hp 4).1, (key _ _ hp 0).2.1,
      (key _ _ hp 0).2.2]
  · simp [StereoErrs.acc, UInt64.add_comm]

example : (StereoErrs.accImage {} .u8 [(3, 5, none), (7, 255, none), (9, 4, some 0), (2, 1, some 1)]).errors = [|3 - 5|, |2 - 1|] := by
  rw [(stereo_accImage _ _ _).1]
  have h1 : DispEvaluated .u8 (3, 5, none) := ⟨by norm_num [DispType.max], .inl (.inl rfl), by simp⟩
  have h2 : ¬ DispEvaluated .u8 (7, 255, none) := fun h => h.1 rfl
  have h3 : ¬ DispEvaluated .u8 (9, 4, some 0) := fun h => h.2.2 rfl
  have h4 : DispEvaluated .u8 (2, 1, some 1) := ⟨by norm_num [DispType.max], .inl (.inl rfl), by simp⟩
  simp [h1, h2, h3, h4]

end Litiv.Metrics
