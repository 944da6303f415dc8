import Verif.Model.SubSense
import Verif.Lemmas.Lobster
import Verif.Lemmas.IEEE
import Verif.Props.Bits

namespace Litiv.SubSense
open Consensus Consensus.Spec BgUtils IEEE

/-! ## Rounding -/

section
variable {rd : ℚ → ℚ} (H : Rounds rd)
include H

theorem rd0 : rd 0 = 0 := by simpa using H.nat 0 (by norm_num)
theorem rd1 : rd 1 = 1 := by simpa using H.nat 1 (by norm_num)
theorem rd_nonneg {x : ℚ} (h : 0 ≤ x) : 0 ≤ rd x := by have := H.mono 0 x h; rwa [rd0 H] at this
theorem rd_le_one {x : ℚ} (h : x ≤ 1) : rd x ≤ 1 := by have := H.mono x 1 h; rwa [rd1 H] at this
theorem one_le_rd {x : ℚ} (h : 1 ≤ x) : 1 ≤ rd x := by have := H.mono 1 x h; rwa [rd1 H] at this
theorem rd_le_nat {x : ℚ} (n : Nat) (hn : n ≤ 2 ^ 24) (h : x ≤ n) : rd x ≤ n := by
  have := H.mono x n h; rwa [H.nat n hn] at this

theorem vDecr_pos : 0 < (consts rd).vDecr := by
  have := H.mono (1 / 64) (1 / 10) (by norm_num)
  rw [H.dyad] at this
  show 0 < rd (1 / 10)
  linarith

theorem rVar_nonneg : 0 ≤ (consts rd).rVar := rd_nonneg H (by norm_num)

theorem rVar_le : (consts rd).rVar ≤ 1 / 64 := by
  have := H.mono (1 / 100) (1 / 64) (by norm_num)
  rw [H.dyad] at this
  exact this

/-- A value between 0 and 1. -/
def Unit (x : ℚ) : Prop := 0 ≤ x ∧ x ≤ 1

/-- A moving-average factor. -/
structure Factor (rd : ℚ → ℚ) (f : ℚ) : Prop where
  unit : Unit f
  rep : rd f = f

theorem factor_spec (n : Nat) (hn : 0 < n) : ∃ f, factor rd n = .ok f ∧ Factor rd f := by
  refine ⟨rd (1 / n), if_neg (by omega), ⟨?_, ?_⟩, H.idem _⟩
  · exact rd_nonneg H (by positivity)
  · refine rd_le_one H ?_
    have : (1 : ℚ) ≤ n := by exact_mod_cast hn
    rw [div_le_one (by linarith)]
    exact this

theorem compl_unit {f : ℚ} (hf : Factor rd f) : Unit (rd (1 - f)) :=
  ⟨rd_nonneg H (by linarith [hf.unit.2]), rd_le_one H (by linarith [hf.unit.1])⟩

theorem mul_rd_le {f m : ℚ} (hf : Factor rd f) (hm : Unit m) : 0 ≤ rd (m * rd (1 - f)) ∧ rd (m * rd (1 - f)) ≤ rd (1 - f) := by
  have hc := compl_unit H hf
  refine ⟨rd_nonneg H (mul_nonneg hm.1 hc.1), ?_⟩
  rw [← H.idem (1 - f)]
  rw [H.idem (1 - f)]
  refine H.mono _ _ ?_ |>.trans (H.idem (1 - f)).le
  nlinarith [hm.1, hm.2, hc.1]

theorem mean_unit {f m d : ℚ} (hf : Factor rd f) (hm : Unit m) (hd : Unit d) : Unit (mean rd f m d) := by
  obtain ⟨h1, h2⟩ := mul_rd_le H hf hm
  have h3 : 0 ≤ rd (d * f) := rd_nonneg H (mul_nonneg hd.1 hf.unit.1)
  have h4 : rd (d * f) ≤ f := by
    have := H.mono (d * f) f (by nlinarith [hd.2, hf.unit.1])
    rwa [hf.rep] at this
  unfold mean
  exact ⟨rd_nonneg H (by linarith), (H.mono _ _ (by linarith)).trans (H.compl f hf.unit.1 hf.unit.2)⟩

theorem meanRaw_unit {f m : ℚ} (hf : Factor rd f) (hm : Unit m) (fg : Bool) : Unit (meanRaw rd f m fg) := by
  obtain ⟨h1, h2⟩ := mul_rd_le H hf hm
  unfold meanRaw
  cases fg with
  | true =>
    simp only [if_true]
    exact ⟨rd_nonneg H (by linarith [hf.unit.1]), (H.mono _ _ (by linarith)).trans (H.compl f hf.unit.1 hf.unit.2)⟩
  | false =>
    exact ⟨h1, h2.trans (compl_unit H hf).2⟩

theorem finalMean_unit {f m : ℚ} (hf : Factor rd f) (hm : Unit m) (g : BitVec 8) : Unit (finalMean rd f m g) := by
  have hc := compl_unit H hf
  have hg0 : (0 : ℚ) ≤ (g.toNat / 255 : ℚ) := by positivity
  have hg1 : (g.toNat / 255 : ℚ) ≤ 1 := by
    have : g.toNat ≤ 255 := by have := g.isLt; omega
    have : (g.toNat : ℚ) ≤ 255 := by exact_mod_cast this
    rw [div_le_one (by norm_num)]
    exact this
  have a1 : 0 ≤ m * rd (1 - f) := mul_nonneg hm.1 hc.1
  have a2 : m * rd (1 - f) ≤ rd (1 - f) := by nlinarith [hm.2, hc.1]
  have a3 : 0 ≤ (g.toNat / 255 : ℚ) * f := mul_nonneg hg0 hf.unit.1
  have a4 : (g.toNat / 255 : ℚ) * f ≤ f := by nlinarith [hf.unit.1]
  exact ⟨rd_nonneg H (by linarith), (H.mono _ _ (by linarith)).trans (H.compl f hf.unit.1 hf.unit.2)⟩

theorem norm2_unit {a b maxA maxB : Nat} (ha : a ≤ maxA) (hb : b ≤ maxB) : Unit (norm2 rd a maxA b maxB) := by
  have key : ∀ a m : Nat, a ≤ m → Unit (rd ((a : ℚ) / m)) := by
    intro a m h
    refine ⟨rd_nonneg H (by positivity), rd_le_one H ?_⟩
    have : (a : ℚ) ≤ m := by exact_mod_cast h
    exact div_le_one_of_le₀ this (by positivity)
  obtain ⟨h1, h2⟩ := key a maxA ha
  obtain ⟨h3, h4⟩ := key b maxB hb
  have h5 : 0 ≤ rd (rd (a / maxA) + rd (b / maxB)) := rd_nonneg H (by linarith)
  have h6 : rd ((rd (a / maxA) + rd (b / maxB))) ≤ (2 : Nat) := rd_le_nat H 2 (by norm_num) (by push_cast; linarith)
  push_cast at h6
  unfold norm2
  exact ⟨rd_nonneg H (by linarith), rd_le_one H (by linarith)⟩

theorem minDist_unit {req cnt md ms maxDesc maxSum : Nat} (h1 : md ≤ maxDesc) (h2 : ms ≤ maxSum) :
    Unit (minDist rd req cnt md ms maxDesc maxSum) := by
  have h := norm2_unit H h2 h1
  unfold minDist
  split
  · refine ⟨le_min (by norm_num) (rd_nonneg H ?_), min_le_left _ _⟩
    have : 0 ≤ rd ((req - cnt : Nat) / req : ℚ) := rd_nonneg H (by positivity)
    linarith [h.1]
  · exact h

/-! ## The feedback -/

/-- Range of the adaptive values. -/
structure FbOk (rd : ℚ → ℚ) (b : Fb) : Prop where
  rate : 1 ≤ b.T ∧ b.T ≤ 512
  dist : 1 ≤ b.R
  var : (consts rd).vDecr ≤ b.v
  dLast : Unit b.dLast
  dLT : Unit b.dLT
  dST : Unit b.dST
  rawLT : Unit b.rawLT
  rawST : Unit b.rawST
  finLT : Unit b.finLT
  finST : Unit b.finST

/-- Growth of the variation and distance factors over `t` frames. -/
structure FbBound (t : Nat) (b : Fb) : Prop where
  var : b.v ≤ (10 + t : Nat)
  dist : b.R ≤ (10 + (10 + t) / 64 : Nat)

omit H in
theorem FbBound.mono {t t' : Nat} (h : t ≤ t') {b : Fb} (hb : FbBound t b) : FbBound t' b := by
  refine ⟨hb.var.trans ?_, hb.dist.trans ?_⟩
  · exact_mod_cast (by omega : 10 + t ≤ 10 + t')
  · have : (10 + t) / 64 ≤ (10 + t') / 64 := Nat.div_le_div_right (by omega)
    exact_mod_cast (by omega : 10 + (10 + t) / 64 ≤ 10 + (10 + t') / 64)

omit H in
theorem clampRate_mem (lower upper : ℚ) (h : lower ≤ upper) (e : Ext) : lower ≤ clampRate lower upper e ∧ clampRate lower upper e ≤ upper := by
  cases e with
  | ninf => exact ⟨le_rfl, h⟩
  | pinf => exact ⟨h, le_rfl⟩
  | fin t =>
    simp only [clampRate]
    split
    · exact ⟨le_rfl, h⟩
    · split
      · exact ⟨h, le_rfl⟩
      · constructor <;> linarith

/-- The decrement of the variation factor. -/
theorem dec_nonneg (a b : Bool) : 0 ≤ (if a then rd ((consts rd).vDecr / 4) else if b then rd ((consts rd).vDecr / 2) else (consts rd).vDecr) := by
  have := vDecr_pos H
  split
  · exact rd_nonneg H (by linarith)
  · split
    · exact rd_nonneg H (by linarith)
    · linarith

theorem stepVar_ge {mx v : ℚ} (hv : (consts rd).vDecr ≤ v) (bl lf un : Bool) : (consts rd).vDecr ≤ stepVar rd mx v bl lf un := by
  unfold stepVar
  split
  · have h := H.mono (consts rd).vDecr (v + 1) (by linarith)
    have e : rd (consts rd).vDecr = (consts rd).vDecr := H.idem _
    rwa [e] at h
  · split
    · generalize hd : (if lf then rd ((consts rd).vDecr / 4) else if un then rd ((consts rd).vDecr / 2) else (consts rd).vDecr) = d
      split
      · exact le_rfl
      · rename_i h; exact not_lt.1 h
    · exact hv

theorem stepVar_le {mx v : ℚ} {t : Nat} (ht : t ≤ 2 ^ 20) (hv : v ≤ (10 + t : Nat)) (hv0 : (consts rd).vDecr ≤ v) (bl lf un : Bool) :
    stepVar rd mx v bl lf un ≤ (10 + (t + 1) : Nat) := by
  have hle : ((10 + t : Nat) : ℚ) ≤ (10 + (t + 1) : Nat) := by exact_mod_cast (by omega : 10 + t ≤ 10 + (t + 1))
  unfold stepVar
  split
  · refine rd_le_nat H _ (by omega) ?_
    push_cast at hv ⊢
    linarith
  · split
    · have hd0 := dec_nonneg H lf un
      generalize (if lf then rd ((consts rd).vDecr / 4) else if un then rd ((consts rd).vDecr / 2) else (consts rd).vDecr) = d at hd0 ⊢
      split
      · exact hv0.trans (hv.trans hle)
      · exact (rd_le_nat H (10 + t) (by omega) (by linarith)).trans hle
    · exact hv.trans hle

theorem stepDist_ge {mn v R : ℚ} (hR : 1 ≤ R) (hv : (consts rd).vDecr ≤ v) : 1 ≤ stepDist rd mn v R := by
  unfold stepDist
  split
  · refine one_le_rd H ?_
    have : 0 ≤ rd ((consts rd).rVar * rd (v - (consts rd).vDecr)) :=
      rd_nonneg H (mul_nonneg (rVar_nonneg H) (rd_nonneg H (by linarith)))
    linarith
  · split
    · exact le_rfl
    · rename_i h; exact not_lt.1 h

theorem stepDist_le {mn v R : ℚ} {t : Nat} (ht : t ≤ 2 ^ 20) (hmn : Unit mn) (hR : R ≤ (10 + (10 + t) / 64 : Nat)) (hR1 : 1 ≤ R)
    (hv0 : (consts rd).vDecr ≤ v) (hv : v ≤ (10 + (t + 1) : Nat)) : stepDist rd mn v R ≤ (10 + (10 + (t + 1)) / 64 : Nat) := by
  have hpos := vDecr_pos H
  have hle : ((10 + (10 + t) / 64 : Nat) : ℚ) ≤ (10 + (10 + (t + 1)) / 64 : Nat) := by
    have : (10 + t) / 64 ≤ (10 + (t + 1)) / 64 := Nat.div_le_div_right (by omega)
    exact_mod_cast (by omega : 10 + (10 + t) / 64 ≤ 10 + (10 + (t + 1)) / 64)
  unfold stepDist
  split
  · rename_i hlt
    have h2 : rd (mn * 2) ≤ (2 : Nat) := rd_le_nat H 2 (by norm_num) (by push_cast; linarith [hmn.2])
    have h2' : 0 ≤ rd (mn * 2) := rd_nonneg H (by linarith [hmn.1])
    push_cast at h2
    have h3 : rd (1 + rd (mn * 2)) ≤ (3 : Nat) := rd_le_nat H 3 (by norm_num) (by push_cast; linarith)
    have h3' : 0 ≤ rd (1 + rd (mn * 2)) := rd_nonneg H (by linarith)
    push_cast at h3
    have h4 : (rd (1 + rd (mn * 2))) ^ 2 ≤ 9 := by nlinarith
    have h5 : rd (v - (consts rd).vDecr) ≤ (10 + (t + 1) : Nat) := rd_le_nat H _ (by omega) (by linarith)
    have h5' : 0 ≤ rd (v - (consts rd).vDecr) := rd_nonneg H (by linarith)
    have h6 : (consts rd).rVar * rd (v - (consts rd).vDecr) ≤ ((10 + (t + 1)) / 64 + 1 : Nat) := by
      have a : (consts rd).rVar * rd (v - (consts rd).vDecr) ≤ 1 / 64 * (10 + (t + 1) : Nat) :=
        mul_le_mul (rVar_le H) h5 h5' (by norm_num)
      have b : (10 + (t + 1) : Nat) ≤ 64 * ((10 + (t + 1)) / 64 + 1) := by
        have := Nat.div_add_mod (10 + (t + 1)) 64
        have := Nat.mod_lt (10 + (t + 1)) (show 0 < 64 by norm_num)
        omega
      have b' : ((10 + (t + 1) : Nat) : ℚ) ≤ 64 * ((10 + (t + 1)) / 64 + 1 : Nat) := by exact_mod_cast b
      linarith
    have h7 : rd ((consts rd).rVar * rd (v - (consts rd).vDecr)) ≤ ((10 + (t + 1)) / 64 + 1 : Nat) := by
      refine rd_le_nat H _ ?_ h6
      have : (10 + (t + 1)) / 64 ≤ 10 + (t + 1) := Nat.div_le_self _ _
      omega
    refine rd_le_nat H _ ?_ ?_
    · have : (10 + (t + 1)) / 64 ≤ 10 + (t + 1) := Nat.div_le_self _ _
      omega
    · push_cast at h7 ⊢
      linarith
  · have h0 : 0 ≤ rd ((consts rd).rVar / v) := rd_nonneg H (div_nonneg (rVar_nonneg H) (by linarith))
    split
    · linarith
    · refine (rd_le_nat H (10 + (10 + t) / 64) ?_ (by linarith)).trans hle
      have : (10 + t) / 64 ≤ 10 + t := Nat.div_le_self _ _
      omega

/-- The feedback of one frame keeps every value in its range. -/
theorem feedback_ok {lower upper : ℚ} (hl : 1 ≤ lower) (hlu : lower ≤ upper) (hu : upper ≤ 512) (a f bl : Bool) {b : Fb} (hb : FbOk rd b) :
    FbOk rd (feedback rd lower upper a f bl b) ∧ lower ≤ (feedback rd lower upper a f bl b).T ∧ (feedback rd lower upper a f bl b).T ≤ upper := by
  have hT := clampRate_mem lower upper hlu (stepRate rd lower upper (a || (decide (min b.dLT b.dST < (consts rd).ratioMin) && f)) (max b.dLT b.dST) b.v b.T)
  refine ⟨⟨⟨hl.trans hT.1, hT.2.trans hu⟩, ?_, ?_, hb.dLast, hb.dLT, hb.dST, hb.rawLT, hb.rawST, hb.finLT, hb.finST⟩, hT⟩
  · exact stepDist_ge H hb.dist (stepVar_ge H hb.var _ _ _)
  · exact stepVar_ge H hb.var _ _ _

theorem feedback_bound {lower upper : ℚ} {t : Nat} (ht : t ≤ 2 ^ 20) (a f bl : Bool) {b : Fb} (hb : FbOk rd b) (hB : FbBound t b) :
    FbBound (t + 1) (feedback rd lower upper a f bl b) := by
  have hv := stepVar_le H ht hB.var hb.var bl a b.unstable (mx := max b.dLT b.dST)
  refine ⟨hv, ?_⟩
  refine stepDist_le H ht ⟨le_min hb.dLT.1 hb.dST.1, (min_le_left _ _).trans hb.dLT.2⟩ hB.dist hb.dist (stepVar_ge H hb.var _ _ _) hv

theorem averages_ok {fLT fST dl d : ℚ} (hL : Factor rd fLT) (hS : Factor rd fST) (hdl : Unit dl) (hd : Unit d) (fg : Bool) {b : Fb}
    (hb : FbOk rd b) : FbOk rd (averages rd fLT fST dl d fg b) :=
  ⟨hb.rate, hb.dist, hb.var, mean_unit H hS hb.dLast hdl, mean_unit H hL hb.dLT hd, mean_unit H hS hb.dST hd,
    meanRaw_unit H hL hb.rawLT fg, meanRaw_unit H hS hb.rawST fg, hb.finLT, hb.finST⟩

/-! ## Thresholds -/

theorem colThr_spec (minCol : Nat) {b : Fb} (hb : FbOk rd b) : ∃ c, colThr rd minCol b = .ok c := by
  have h1 : rd minCol ≤ rd (b.R * rd minCol) := by
    have h0 : 0 ≤ rd (minCol : ℚ) := rd_nonneg H (by positivity)
    have := H.mono (rd minCol) (b.R * rd minCol) (by nlinarith [hb.dist])
    rwa [H.idem] at this
  have h2 : rd (if b.unstable then 0 else (minCol / 5 : Nat)) ≤ rd (minCol : ℚ) := by
    refine H.mono _ _ ?_
    split
    · positivity
    · exact_mod_cast Nat.div_le_self minCol 5
  have h3 : 0 ≤ rd (rd (b.R * rd minCol) - rd (if b.unstable then 0 else (minCol / 5 : Nat))) := rd_nonneg H (by linarith)
  unfold colThr
  rw [if_neg (by linarith)]
  exact ⟨_, rfl⟩

theorem descThr_spec (descOff : Nat) {b : Fb} (hb : FbOk rd b) {t : Nat} (hB : FbBound t b) :
    (∃ d, descThr rd descOff b = .ok d) ∨ (descThr rd descOff b = .error .distShift ∧ 3000 < t) := by
  unfold descThr
  split
  · rename_i h
    right
    refine ⟨rfl, ?_⟩
    by_contra hn
    have h1 : rd (b.R + 1 / 2) ≤ (58 : Nat) := by
      refine rd_le_nat H 58 (by norm_num) ?_
      have : (10 + (10 + t) / 64 : Nat) ≤ 57 := by omega
      have : ((10 + (10 + t) / 64 : Nat) : ℚ) ≤ 57 := by exact_mod_cast this
      have := hB.dist
      push_cast at *
      linarith
    have h2 : (64 : ℚ) ≤ rd (b.R + 1 / 2) := by
      have := Int.le_floor.1 h
      exact_mod_cast this
    push_cast at h1
    linarith
  · exact Or.inl ⟨_, rfl⟩

end

/-! ## Matching -/

theorem matchLoop_lt (t : Nat → Option (Nat × Nat)) (req : Nat) : ∀ rem idx cnt md ms : Nat,
    (matchLoop t req rem idx cnt md ms).1 < req ↔ cnt + ((List.range rem).filter fun i => (t (idx + i)).isSome).length < req := by
  intro rem
  induction rem with
  | zero => intro idx cnt md ms; simp [matchLoop]
  | succ rem ih =>
    intro idx cnt md ms
    have hr : ((List.range (rem + 1)).filter fun i => (t (idx + i)).isSome).length =
        (if (t idx).isSome then 1 else 0) + ((List.range rem).filter fun i => (t (idx + 1 + i)).isSome).length := by
      rw [List.range_succ_eq_map, List.filter_cons]
      have hm : (List.filter (fun i => (t (idx + i)).isSome) (List.map Nat.succ (List.range rem))).length =
          ((List.range rem).filter fun i => (t (idx + 1 + i)).isSome).length := by
        rw [List.filter_map, List.length_map]
        congr 2
        funext i
        simp only [Function.comp, Nat.succ_eq_add_one]
        rw [show idx + (i + 1) = idx + 1 + i by omega]
      by_cases h : (t idx).isSome = true
      · simp [h, hm]; omega
      · simp [h, hm]
    rw [hr]
    by_cases hc : cnt < req
    · cases ht : t idx with
      | none => rw [matchLoop, if_pos hc, ht]; dsimp only; rw [ih]; simp
      | some d => rw [matchLoop, if_pos hc, ht]; dsimp only; rw [ih]; simp; omega
    · rw [matchLoop, if_neg hc]
      dsimp only
      constructor
      · intro h; exact absurd h hc
      · intro h; omega

theorem matchLoop_le (t : Nat → Option (Nat × Nat)) (req : Nat) : ∀ rem idx cnt md ms : Nat,
    (matchLoop t req rem idx cnt md ms).2.1 ≤ md ∧ (matchLoop t req rem idx cnt md ms).2.2 ≤ ms := by
  intro rem
  induction rem with
  | zero => intro idx cnt md ms; exact ⟨le_rfl, le_rfl⟩
  | succ rem ih =>
    intro idx cnt md ms
    rw [matchLoop]
    split
    · split
      · exact ih _ _ _ _
      · rename_i d _
        obtain ⟨h1, h2⟩ := ih (idx + 1) (cnt + 1) (if md > d.1 then d.1 else md) (if ms > d.2 then d.2 else ms)
        refine ⟨h1.trans ?_, h2.trans ?_⟩ <;> split <;> omega
    · exact ⟨le_rfl, le_rfl⟩

theorem matching_lt {I V : Type} (K : Kind I V) (P : Par) (lut : BitVec 8 → BitVec 8) (img : I) (m : Model V) (y x col desc : Nat) :
    (matching K P lut img m y x col desc).1 < P.c.req ↔
      count P.c.n (fun s => (K.test lut img y x col desc (m s y x)).isSome) < P.c.req := by
  unfold matching count
  rw [matchLoop_lt]
  simp

/-- Distances to what was last seen are at most the data ranges. -/
structure KindOk {I V : Type} (K : Kind I V) : Prop where
  last : ∀ a b, (K.lastDist a b).1 ≤ K.maxSum ∧ (K.lastDist a b).2 ≤ K.maxDesc

theorem kind1_ok (impl : LBSP.Impl) : KindOk (kind1 impl) := by
  refine ⟨fun a b => ⟨?_, ?_⟩⟩
  · have := (Bits.l1distU a.1 b.1).isLt
    simp only [kind1]
    omega
  · exact (Bits.hdist_metric (n := 2) (by norm_num) a.2 b.2 b.2).2.2.2

theorem kind3_ok (impl : LBSP.Impl) : KindOk (kind3 impl) := by
  refine ⟨fun a b => ⟨?_, ?_⟩⟩
  · have := (Bits.l1distArr 8 [(a 0).1, (a 1).1, (a 2).1] [(b 0).1, (b 1).1, (b 2).1]).isLt
    simp only [kind3]
    omega
  · have h : ∀ u v : BitVec 16, Bits.Spec.differing (w := 16) u v ≤ 16 := fun u v => by
      have h1 := (Bits.hdist_metric (n := 2) (by norm_num) u v v).2.2.2
      rw [Bits.hdist_spec 8 (n := 2) u v (by norm_num)] at h1
      exact h1
    have e := Bits.hdistArr_exact 8 (n := 2) [(a 0).2, (a 1).2, (a 2).2] [(b 0).2, (b 1).2, (b 2).2] (by norm_num)
    simp only [kind3]
    rw [e]
    have h0 := h (a 0).2 (b 0).2
    have h1 := h (a 1).2 (b 1).2
    have h2 := h (a 2).2 (b 2).2
    simp only [List.zip_cons_cons, List.map_cons, List.sum_cons, List.zip_nil_right, List.map_nil, List.sum_nil]
    omega

end Litiv.SubSense
