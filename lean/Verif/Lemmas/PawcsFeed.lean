import Verif.Spec.PawcsFeed
import Verif.Lemmas.SubSense

namespace Litiv.PawcsFeed
open IEEE Spec
open SubSense (consts mean meanRaw finalMean stepDist Unit Factor rd0 rd1 rd_nonneg rd_le_one one_le_rd rd_le_nat vDecr_pos mean_unit meanRaw_unit finalMean_unit
  stepDist_ge stepDist_le compl_unit)

/-- Ranges, and the values are representable. -/
structure FbOk (rd : ℚ → ℚ) (b : Fb) : Prop where
  rate : 1 ≤ b.T ∧ b.T ≤ 256
  rateR : rd b.T = b.T
  dist : 1 ≤ b.R
  distR : rd b.R = b.R
  var : (consts rd).vDecr ≤ b.v
  varR : rd b.v = b.v
  dLT : Unit b.dLT
  dST : Unit b.dST
  rawLT : Unit b.rawLT
  rawST : Unit b.rawST
  finLT : Unit b.finLT
  finST : Unit b.finST

/-- Growth over `t` frames. -/
structure FbBound (t : Nat) (b : Fb) : Prop where
  var : b.v ≤ (10 + (t + min t 500) : Nat)
  dist : b.R ≤ (10 + (10 + (t + min t 500)) / 64 : Nat)

section
variable {rd : ℚ → ℚ} (H : Rounds rd)
include H

theorem rd_256 : rd 256 = 256 := by simpa using H.nat 256 (by norm_num)
theorem rd_2 : rd 2 = 2 := by simpa using H.nat 2 (by norm_num)
theorem rd_10 : rd 10 = 10 := by simpa using H.nat 10 (by norm_num)

theorem rd_min {x y : ℚ} (hx : rd x = x) (hy : rd y = y) : rd (min x y) = min x y := by
  rcases min_choice x y with h | h <;> rw [h] <;> assumption

theorem rd_max {x y : ℚ} (hx : rd x = x) (hy : rd y = y) : rd (max x y) = max x y := by
  rcases max_choice x y with h | h <;> rw [h] <;> assumption

theorem init_ok : FbOk rd Fb.init := by
  have hd : (consts rd).vDecr ≤ 1 := rd_le_one H (by norm_num)
  have u0 : Unit (0 : ℚ) := ⟨le_rfl, by norm_num⟩
  refine ⟨⟨by norm_num [Fb.init], by norm_num [Fb.init]⟩, rd1 H, by norm_num [Fb.init], rd_2 H, ?_, rd_10 H, u0, u0, u0, u0, u0, u0⟩
  show (consts rd).vDecr ≤ 10
  linarith

omit H in
theorem init_bound : FbBound 0 Fb.init := ⟨by norm_num [Fb.init], by norm_num [Fb.init]⟩

theorem factor_spec (n : Nat) (hn : 0 < n) : ∃ f, factor rd n = some f ∧ Factor rd f := by
  refine ⟨rd (1 / n), if_neg (by omega), ⟨?_, ?_⟩, H.idem _⟩
  · exact rd_nonneg H (by positivity)
  · refine rd_le_one H ?_
    have : (1 : ℚ) ≤ n := by exact_mod_cast hn
    rw [div_le_one (by linarith)]
    exact this

theorem normDist_unit {P : Par} {o : Obs} (h : Sane rd P o) : Unit (normDist rd P o) := by
  have key : ∀ a m : Nat, a ≤ m → Unit (rd ((a : ℚ) / m)) := by
    intro a m h
    refine ⟨rd_nonneg H (by positivity), rd_le_one H ?_⟩
    have : (a : ℚ) ≤ m := by exact_mod_cast h
    exact div_le_one_of_le₀ this (by positivity)
  obtain ⟨h1, h2⟩ := key _ _ h.col
  obtain ⟨h3, h4⟩ := key _ _ h.desc
  unfold normDist
  split
  · exact ⟨le_max_of_le_left h1, max_le h2 h4⟩
  · rename_i hb
    have hlt : o.sum < o.thr := by
      by_contra hc
      apply hb
      unfold isBG
      rw [decide_eq_true (not_lt.1 hc)]
      rfl
    refine ⟨le_max_of_le_left (le_max_of_le_left h1), max_le (max_le h2 h4) (rd_le_one H ?_)⟩
    have ht : 0 < o.thr := lt_of_le_of_lt h.sum hlt
    rw [div_le_one ht]
    have := H.mono (o.thr - o.sum) o.thr (by linarith [h.sum])
    rwa [h.thr] at this

theorem averages_ok {P : Par} {o : Obs} (h : Sane rd P o) {fLT fST : ℚ} (h1 : Factor rd fLT) (h2 : Factor rd fST) {b : Fb} (hb : FbOk rd b) :
    FbOk rd (averages rd P fLT fST o b) :=
  ⟨hb.rate, hb.rateR, hb.dist, hb.distR, hb.var, hb.varR, mean_unit H h1 hb.dLT (normDist_unit H h), mean_unit H h2 hb.dST (normDist_unit H h),
    meanRaw_unit H h1 hb.rawLT _, meanRaw_unit H h2 hb.rawST _, hb.finLT, hb.finST⟩

theorem max_unit {b : Fb} (hb : FbOk rd b) : Unit (max b.dLT b.dST) := ⟨le_max_of_le_left hb.dLT.1, max_le hb.dLT.2 hb.dST.2⟩
theorem min_unit {b : Fb} (hb : FbOk rd b) : Unit (min b.dLT b.dST) := ⟨le_min hb.dLT.1 hb.dST.1, min_le_of_left_le hb.dLT.2⟩

/-- The update rate: up or down, and in its range. -/
theorem stepRate_spec (o : Obs) {b : Fb} (hb : FbOk rd b) :
    (1 ≤ stepRate rd o b ∧ stepRate rd o b ≤ 256) ∧ rd (stepRate rd o b) = stepRate rd o b ∧
      (o.lastFG = true ∨ (min b.dLT b.dST < (consts rd).ratioMin ∧ label o = true) → b.T ≤ stepRate rd o b) ∧
      (¬ (o.lastFG = true ∨ (min b.dLT b.dST < (consts rd).ratioMin ∧ label o = true)) → stepRate rd o b ≤ b.T) := by
  have hv0 : 0 < b.v := lt_of_lt_of_le (vDecr_pos H) hb.var
  have hm := max_unit H hb
  have hcond : (o.lastFG || (decide (min b.dLT b.dST < (consts rd).ratioMin) && label o)) = true ↔
      (o.lastFG = true ∨ (min b.dLT b.dST < (consts rd).ratioMin ∧ label o = true)) := by simp
  unfold stepRate
  by_cases hc : (o.lastFG || (decide (min b.dLT b.dST < (consts rd).ratioMin) && label o)) = true
  · rw [if_pos hc]
    have hc' := hcond.1 hc
    by_cases hz : rd (max b.dLT b.dST * b.v) = 0
    · rw [if_pos hz]
      exact ⟨by norm_num, rd_256 H, fun _ => hb.rate.2, fun h => absurd hc' h⟩
    · rw [if_neg hz]
      have h0 : 0 ≤ rd (1 / 2 / rd (max b.dLT b.dST * b.v)) :=
        rd_nonneg H (div_nonneg (by norm_num) (rd_nonneg H (mul_nonneg hm.1 hv0.le)))
      have h1 : b.T ≤ rd (b.T + rd (1 / 2 / rd (max b.dLT b.dST * b.v))) := by
        have := H.mono b.T (b.T + rd (1 / 2 / rd (max b.dLT b.dST * b.v))) (by linarith)
        rwa [hb.rateR] at this
      exact ⟨⟨le_min (hb.rate.1.trans h1) (by norm_num), min_le_right _ _⟩, rd_min H (H.idem _) (rd_256 H),
        fun _ => le_min h1 hb.rate.2, fun h => absurd hc' h⟩
  · rw [if_neg hc]
    have hc' : ¬ _ := fun h => hc (hcond.2 h)
    by_cases hz : max b.dLT b.dST = 0
    · rw [if_pos hz]
      exact ⟨by norm_num, rd1 H, fun h => absurd h hc', fun _ => hb.rate.1⟩
    · rw [if_neg hz]
      have h0 : 0 ≤ rd (rd (1 / 4 * b.v) / max b.dLT b.dST) :=
        rd_nonneg H (div_nonneg (rd_nonneg H (by linarith)) hm.1)
      have h1 : rd (b.T - rd (rd (1 / 4 * b.v) / max b.dLT b.dST)) ≤ b.T := by
        have := H.mono (b.T - rd (rd (1 / 4 * b.v) / max b.dLT b.dST)) b.T (by linarith)
        rwa [hb.rateR] at this
      exact ⟨⟨le_max_right _ _, max_le (h1.trans hb.rate.2) (by norm_num)⟩, rd_max H (H.idem _) (rd1 H),
        fun h => absurd h hc', fun _ => max_le h1 hb.rate.1⟩

theorem dec_nonneg (boot : Bool) (o : Obs) : 0 ≤ rd ((consts rd).vDecr * (if boot || o.flat then 2 else if o.lastFG then 1 / 2 else 1)) := by
  refine rd_nonneg H (mul_nonneg (vDecr_pos H).le ?_)
  split_ifs <;> norm_num

/-- The variation factor. -/
theorem stepVar_spec (boot : Bool) (o : Obs) {b : Fb} (hb : FbOk rd b) :
    (consts rd).vDecr ≤ stepVar rd boot o b ∧ rd (stepVar rd boot o b) = stepVar rd boot o b ∧
      ((consts rd).ratioMin < max b.dLT b.dST ∧ o.blink = true → b.v ≤ stepVar rd boot o b) ∧
      (¬ ((consts rd).ratioMin < max b.dLT b.dST ∧ o.blink = true) → stepVar rd boot o b ≤ b.v) := by
  have hd : rd (consts rd).vDecr = (consts rd).vDecr := H.idem _
  unfold stepVar
  split
  · rename_i hc
    have h1 : b.v ≤ rd (b.v + (if boot then 2 else 1)) := by
      have := H.mono b.v (b.v + (if boot then 2 else 1)) (by split_ifs <;> linarith)
      rwa [hb.varR] at this
    exact ⟨hb.var.trans h1, H.idem _, fun _ => h1, fun h => absurd hc h⟩
  · rename_i hc
    have h0 := dec_nonneg H boot o
    refine ⟨le_max_right _ _, rd_max H (H.idem _) hd, fun h => absurd h hc, fun _ => max_le ?_ hb.var⟩
    have := H.mono (b.v - rd ((consts rd).vDecr * (if boot || o.flat then 2 else if o.lastFG then 1 / 2 else 1))) b.v (by linarith)
    rwa [hb.varR] at this

theorem stepVar_le {t : Nat} (ht : t ≤ 2 ^ 20) (o : Obs) {b : Fb} (hb : FbOk rd b) (hv : b.v ≤ (10 + (t + min t 500) : Nat)) :
    stepVar rd (decide (t + 1 ≤ 500)) o b ≤ (10 + (t + 1 + min (t + 1) 500) : Nat) := by
  have hle : ((10 + (t + min t 500) : Nat) : ℚ) ≤ (10 + (t + 1 + min (t + 1) 500) : Nat) := by
    exact_mod_cast (by omega : 10 + (t + min t 500) ≤ 10 + (t + 1 + min (t + 1) 500))
  by_cases hc : (consts rd).ratioMin < max b.dLT b.dST ∧ o.blink = true
  · unfold stepVar
    rw [if_pos hc]
    refine rd_le_nat H _ (by omega) ?_
    by_cases hb' : t + 1 ≤ 500
    · rw [decide_eq_true hb', if_pos rfl]
      have : 10 + (t + 1 + min (t + 1) 500) = 10 + (t + min t 500) + 2 := by omega
      rw [this]; push_cast at hv ⊢; linarith
    · rw [decide_eq_false hb', if_neg (by simp)]
      have : 10 + (t + 1 + min (t + 1) 500) = 10 + (t + min t 500) + 1 := by omega
      rw [this]; push_cast at hv ⊢; linarith
  · exact ((stepVar_spec H _ o hb).2.2.2 hc).trans (hv.trans hle)

theorem stepDist_rep {mn v R : ℚ} : rd (stepDist rd mn v R) = stepDist rd mn v R := by
  unfold stepDist
  split
  · exact H.idem _
  · split
    · exact rd1 H
    · exact H.idem _

/-- The distance factor: up or down. -/
theorem stepDist_dir {mn v R : ℚ} (hR : rd R = R) (h1 : 1 ≤ R) (hv : (consts rd).vDecr ≤ v) :
    (R < (rd (1 + rd (mn * 2))) ^ 2 → R ≤ stepDist rd mn v R) ∧ (¬ R < (rd (1 + rd (mn * 2))) ^ 2 → stepDist rd mn v R ≤ R) := by
  have hv0 : 0 < v := lt_of_lt_of_le (vDecr_pos H) hv
  unfold stepDist
  split
  · rename_i hc
    refine ⟨fun _ => ?_, fun h => absurd hc h⟩
    have h0 : 0 ≤ rd ((consts rd).rVar * rd (v - (consts rd).vDecr)) :=
      rd_nonneg H (mul_nonneg (SubSense.rVar_nonneg H) (rd_nonneg H (by linarith)))
    have := H.mono R (R + rd ((consts rd).rVar * rd (v - (consts rd).vDecr))) (by linarith)
    rwa [hR] at this
  · rename_i hc
    refine ⟨fun h => absurd h hc, fun _ => ?_⟩
    have h0 : 0 ≤ rd ((consts rd).rVar / v) := rd_nonneg H (div_nonneg (SubSense.rVar_nonneg H) hv0.le)
    split
    · exact h1
    · have := H.mono (R - rd ((consts rd).rVar / v)) R (by linarith)
      rwa [hR] at this

theorem feedback_ok (boot : Bool) (o : Obs) {b : Fb} (hb : FbOk rd b) : FbOk rd (feedback rd boot o b) := by
  obtain ⟨t1, t2, -⟩ := stepRate_spec H o hb
  obtain ⟨v1, v2, -⟩ := stepVar_spec H boot o hb
  exact ⟨t1, t2, stepDist_ge H hb.dist v1, stepDist_rep H, v1, v2, hb.dLT, hb.dST, hb.rawLT, hb.rawST, hb.finLT, hb.finST⟩

theorem feedback_bound {t : Nat} (ht : t ≤ 2 ^ 19) (o : Obs) {b : Fb} (hb : FbOk rd b) (hB : FbBound t b) :
    FbBound (t + 1) (feedback rd (decide (t + 1 ≤ 500)) o b) := by
  have hv := stepVar_le H (by omega) o hb hB.var
  obtain ⟨v1, -⟩ := stepVar_spec H (decide (t + 1 ≤ 500)) o hb
  refine ⟨hv, ?_⟩
  show stepDist rd (min b.dLT b.dST) (stepVar rd (decide (t + 1 ≤ 500)) o b) b.R ≤ _
  obtain ⟨s, hs1, hs2⟩ : ∃ s, t + 1 + min (t + 1) 500 = s + 1 ∧ t + min t 500 ≤ s := ⟨t + min (t + 1) 500, by omega, by omega⟩
  rw [hs1] at hv ⊢
  refine stepDist_le H (by omega) (min_unit H hb) (hB.dist.trans ?_) hb.dist v1 hv
  have : (10 + (t + min t 500)) / 64 ≤ (10 + s) / 64 := Nat.div_le_div_right (by omega)
  exact_mod_cast (by omega : 10 + (10 + (t + min t 500)) / 64 ≤ 10 + (10 + s) / 64)

/-- The descriptor threshold is defined while the distance factor is small. -/
theorem descThr_some (d : Nat) {b : Fb} (h : b.R ≤ 62) : ∃ n, descThr rd d b = some n := by
  unfold descThr
  by_cases hc : 64 ≤ ⌊rd (b.R + 1 / 2)⌋
  · exfalso
    have h1 : (64 : ℚ) ≤ rd (b.R + 1 / 2) := by exact_mod_cast Int.le_floor.1 hc
    have h2 : rd (b.R + 1 / 2) ≤ (63 : Nat) := rd_le_nat H 63 (by norm_num) (by push_cast; linarith)
    push_cast at h2
    linarith
  · exact ⟨_, if_neg hc⟩

omit H in
theorem samplesLT_pos {N : Nat} (h : 8 ≤ N) (t : Nat) : 4 ≤ samplesLT N t := by
  unfold samplesLT
  split_ifs <;> omega

/-- A frame: the ranges are kept, the growth is bounded, and the only failure is the shift. -/
theorem step_spec {P : Par} (hN : 8 ≤ P.N) {t : Nat} {b : Fb} (hb : FbOk rd b) {o : Obs} (ho : Sane rd P o) :
    (step rd P (t + 1) b o = none ∧ descThr rd 0 b = none) ∨
    ∃ b', step rd P (t + 1) b o = some b' ∧ FbOk rd b' ∧ (t ≤ 2 ^ 19 → FbBound t b → FbBound (t + 1) b') := by
  have hp := samplesLT_pos hN (t + 1)
  obtain ⟨fLT, e1, h1⟩ := factor_spec H (min (t + 1) (samplesLT P.N (t + 1))) (by omega)
  obtain ⟨fST, e2, h2⟩ := factor_spec H (min (t + 1) (samplesLT P.N (t + 1) / 4)) (by omega)
  unfold step
  rw [e1, e2]
  cases hd : descThr rd 0 b with
  | none => exact Or.inl ⟨rfl, rfl⟩
  | some n =>
    refine Or.inr ⟨_, rfl, ?_, ?_⟩
    · have hf := feedback_ok H (decide (t + 1 ≤ 500)) o (averages_ok H ho h1 h2 hb)
      refine ⟨?_, ?_, hf.dist, hf.distR, hf.var, hf.varR, hf.dLT, hf.dST, hf.rawLT, hf.rawST, finalMean_unit H h1 hf.finLT _, finalMean_unit H h2 hf.finST _⟩
      · dsimp only
        split
        · norm_num
        · exact hf.rate
      · dsimp only
        split
        · exact rd1 H
        · exact hf.rateR
    · intro ht hB
      have := feedback_bound H ht o (averages_ok H ho h1 h2 hb) ⟨hB.var, hB.dist⟩
      exact ⟨this.var, this.dist⟩

theorem feedFrom_spec {P : Par} (hN : 8 ≤ P.N) : ∀ (os : List Obs), (∀ o ∈ os, Sane rd P o) → ∀ (t : Nat) (b : Fb), FbOk rd b → FbBound t b ∨ 2881 < t →
    (feedFrom rd P (t + 1) b os = none ∧ 2881 < t + os.length) ∨
    ∃ b', feedFrom rd P (t + 1) b os = some b' ∧ FbOk rd b' ∧ (FbBound (t + os.length) b' ∨ 2881 < t + os.length) := by
  intro os
  induction os with
  | nil => intro _ t b hb hB; exact Or.inr ⟨b, rfl, hb, hB⟩
  | cons o os ih =>
    intro hos t b hb hB
    unfold feedFrom
    rcases step_spec H hN (t := t) hb (hos o (by simp)) with ⟨e, hd⟩ | ⟨b', e, h1, h2⟩
    · rw [e]
      refine Or.inl ⟨rfl, ?_⟩
      rw [List.length_cons]
      by_contra hc
      rcases hB with hB | hB
      · have h62 : b.R ≤ 62 := by
          refine hB.dist.trans ?_
          have : 10 + (10 + (t + min t 500)) / 64 ≤ 62 := by omega
          exact_mod_cast this
        obtain ⟨n, hn⟩ := descThr_some H 0 h62
        rw [hn] at hd
        exact absurd hd (by simp)
      · omega
    · rw [e]
      have hB' : FbBound (t + 1) b' ∨ 2881 < t + 1 := by
        rcases hB with hB | hB
        · by_cases ht : t ≤ 2 ^ 19
          · exact Or.inl (h2 ht hB)
          · right; norm_num at ht; omega
        · right; omega
      have hl : t + (o :: os).length = t + 1 + os.length := by rw [List.length_cons]; omega
      rw [hl]
      exact ih (fun o' h => hos o' (by simp [h])) (t + 1) b' h1 hB'

theorem feed_spec {P : Par} (hN : 8 ≤ P.N) (os : List Obs) (hos : ∀ o ∈ os, Sane rd P o) :
    (feed rd P os = none ∧ 2881 < os.length) ∨ ∃ b, feed rd P os = some b ∧ FbOk rd b := by
  rcases feedFrom_spec H hN os hos 0 Fb.init (init_ok H) (Or.inl init_bound) with ⟨h1, h2⟩ | ⟨b, h1, h2, -⟩
  · exact Or.inl ⟨h1, by omega⟩
  · exact Or.inr ⟨b, h1, h2⟩

end

theorem feedFrom_append (rd : ℚ → ℚ) (P : Par) (os os' : List Obs) : ∀ (t : Nat) (b : Fb),
    feedFrom rd P t b (os ++ os') = (feedFrom rd P t b os).bind fun b => feedFrom rd P (t + os.length) b os' := by
  induction os with
  | nil => intro t b; rfl
  | cons o os ih =>
    intro t b
    have hl : t + (o :: os).length = t + 1 + os.length := by rw [List.length_cons]; omega
    rw [hl, List.cons_append]
    show (match step rd P t b o with | none => none | some b => feedFrom rd P (t + 1) b (os ++ os')) =
      (match step rd P t b o with | none => none | some b => feedFrom rd P (t + 1) b os).bind _
    cases step rd P t b o with
    | none => rfl
    | some b' => exact ih (t + 1) b'

theorem feed_snoc (rd : ℚ → ℚ) (P : Par) (os : List Obs) (o : Obs) :
    feed rd P (os ++ [o]) = (feed rd P os).bind fun b => step rd P (os.length + 1) b o := by
  unfold feed
  rw [feedFrom_append, Nat.add_comm 1]
  congr 1
  funext b
  unfold feedFrom feedFrom
  cases step rd P (os.length + 1) b o <;> rfl

/-! ## Frame level -/

/-- What a history keeps: the number of frames, the weight offset, the time of the switch. -/
structure ModeOk (k : Nat) (m : Mode) : Prop where
  count : m.t = k
  off : m.off = if m.moving then 5 else 1000
  late : m.moving = true → 500 ≤ m.t

theorem switchMode_spec (r : Ratios) (m : Mode) :
    (switchMode r m).1.t = m.t ∧ (switchMode r m).1.auto = m.auto ∧ (switchMode r m).1.since = m.since ∧ (switchMode r m).1.cool = m.cool ∧
    (∀ c ∈ (switchMode r m).2, c.reset = false ∧ c = ⟨1, 1, false⟩) ∧
    ((switchMode r m).1.moving = m.moving ∧ (switchMode r m).1.off = m.off ∧ (switchMode r m).2 = [] ∨
      (m.moving = true ∧ (switchMode r m).1.moving = false ∧ (switchMode r m).1.off = 1000 ∧ m.t % 500 = 0 ∧ r.model < 11 ∧ r.colour < 1) ∨
      (m.moving = false ∧ (switchMode r m).1.moving = true ∧ (switchMode r m).1.off = 5 ∧ m.t % 500 = 0 ∧ m.t ≤ 500 ∧ (45 ≤ r.model ∨ 4 ≤ r.colour))) := by
  unfold switchMode
  by_cases h1 : m.t % 500 = 0
  · rw [if_pos h1]
    by_cases h2 : m.moving = true ∧ r.model < 11 ∧ r.colour < 1
    · rw [if_pos h2]
      exact ⟨rfl, rfl, rfl, rfl, by simp, Or.inr (Or.inl ⟨h2.1, rfl, rfl, h1, h2.2⟩)⟩
    · rw [if_neg h2]
      by_cases h3 : m.t ≤ 500 ∧ m.moving = false ∧ (45 ≤ r.model ∨ 4 ≤ r.colour)
      · rw [if_pos h3]
        exact ⟨rfl, rfl, rfl, rfl, by simp, Or.inr (Or.inr ⟨h3.2.1, rfl, rfl, h1, h3.1, h3.2.2⟩)⟩
      · rw [if_neg h3]
        exact ⟨rfl, rfl, rfl, rfl, by simp, Or.inl ⟨rfl, rfl, rfl⟩⟩
  · rw [if_neg h1]
    exact ⟨rfl, rfl, rfl, rfl, by simp, Or.inl ⟨rfl, rfl, rfl⟩⟩

theorem resetStep_spec (N : Nat) (r : Ratios) (m : Mode) :
    (resetStep N r m).1.t = m.t ∧ (resetStep N r m).1.moving = m.moving ∧ (resetStep N r m).1.off = m.off ∧
    ((1000 < m.since ∧ (resetStep N r m) = ({ m with auto := false }, [])) ∨
     (m.since ≤ 1000 ∧ 45 ≤ r.change ∧ m.cool = 0 ∧ resetStep N r m = ({ m with since := 0, cool := samplesLT N m.t / 4 }, [⟨m.off / 8, 0, true⟩])) ∨
     (m.since ≤ 1000 ∧ ¬ (45 ≤ r.change ∧ m.cool = 0) ∧ resetStep N r m = ({ m with since := if 500 < m.t then m.since + 1 else m.since }, []))) := by
  unfold resetStep
  by_cases h1 : 1000 < m.since
  · rw [if_pos h1]; exact ⟨rfl, rfl, rfl, Or.inl ⟨h1, rfl⟩⟩
  · rw [if_neg h1]
    by_cases h2 : 45 ≤ r.change ∧ m.cool = 0
    · rw [if_pos h2]; exact ⟨rfl, rfl, rfl, Or.inr (Or.inl ⟨by omega, h2.1, h2.2, rfl⟩)⟩
    · rw [if_neg h2]
      by_cases h3 : 500 < m.t
      · rw [if_pos h3, if_pos h3]; exact ⟨rfl, rfl, rfl, Or.inr (Or.inr ⟨by omega, h2, rfl⟩)⟩
      · rw [if_neg h3, if_neg h3]; exact ⟨rfl, rfl, rfl, Or.inr (Or.inr ⟨by omega, h2, rfl⟩)⟩

/-- What a frame does at the frame level. -/
structure FrameLevel (N : Nat) (r : Ratios) (m m' : Mode) (cs : List Call) : Prop where
  t : m'.t = m.t + 1
  mode : (m'.moving = m.moving ∧ m'.off = m.off) ∨
    (m.moving = true ∧ m'.moving = false ∧ m'.off = 1000 ∧ (m.t + 1) % 500 = 0 ∧ r.model < 11 ∧ r.colour < 1) ∨
    (m.moving = false ∧ m'.moving = true ∧ m'.off = 5 ∧ m.t + 1 = 500 ∧ (45 ≤ r.model ∨ 4 ≤ r.colour))
  calls : ∀ c ∈ cs, c = ⟨1, 1, false⟩ ∧ m'.moving ≠ m.moving ∨ c = ⟨m'.off / 8, 0, true⟩
  reset : (∃ c ∈ cs, c.reset = true) → 45 ≤ r.change ∧ m.since ≤ 1000 ∧ m.cool = 0
  once : (cs.filter Call.reset).length ≤ 1
  cool : m'.cool = (if ∃ c ∈ cs, c.reset = true then samplesLT N (m.t + 1) / 4 else m.cool) - 1
  since : 1000 < m.since → m'.since = m.since
  grow : m.since ≤ 1000 → m.auto = true → 500 < m.t + 1 → (∀ c ∈ cs, c.reset = false) → m'.since = m.since + 1
  auto : m.auto = true → m.since ≤ 1000 → m'.auto = true
  bound : m.since ≤ 1001 → m'.since ≤ 1001

theorem frameLevel_spec (N : Nat) (r : Ratios) (m : Mode) : FrameLevel N r m (frameLevel N r m).1 (frameLevel N r m).2 := by
  unfold frameLevel
  dsimp only
  generalize hm1 : (if m.auto = false ∧ 90 ≤ r.change then ({ m with t := m.t + 1, auto := true } : Mode) else { m with t := m.t + 1 }) = m1
  have e1 : m1.t = m.t + 1 ∧ m1.moving = m.moving ∧ m1.off = m.off ∧ m1.since = m.since ∧ m1.cool = m.cool ∧ (m.auto = true → m1.auto = true) := by
    rw [← hm1]
    split
    · exact ⟨rfl, rfl, rfl, rfl, rfl, fun _ => rfl⟩
    · exact ⟨rfl, rfl, rfl, rfl, rfl, fun h => h⟩
  obtain ⟨a1, a2, a3, a4, a5, a6⟩ := e1
  by_cases hc : m1.auto = true ∨ m1.moving = true
  · rw [if_pos hc]
    dsimp only
    obtain ⟨s1, s2, s3, s4, s5, s6⟩ := switchMode_spec r m1
    obtain ⟨t1, t2, t3, t4⟩ := resetStep_spec N r (switchMode r m1).1
    have hmode : ((resetStep N r (switchMode r m1).1).1.moving = m.moving ∧ (resetStep N r (switchMode r m1).1).1.off = m.off ∧ (switchMode r m1).2 = []) ∨
        (m.moving = true ∧ (resetStep N r (switchMode r m1).1).1.moving = false ∧ (resetStep N r (switchMode r m1).1).1.off = 1000 ∧ (m.t + 1) % 500 = 0 ∧ r.model < 11 ∧ r.colour < 1) ∨
        (m.moving = false ∧ (resetStep N r (switchMode r m1).1).1.moving = true ∧ (resetStep N r (switchMode r m1).1).1.off = 5 ∧ m.t + 1 = 500 ∧ (45 ≤ r.model ∨ 4 ≤ r.colour)) := by
      rw [t2, t3, ← a1, ← a2, ← a3]
      rcases s6 with h | ⟨h1, h2, h3, h4, h5, h6⟩ | ⟨h1, h2, h3, h4, h5, h6⟩
      · exact Or.inl h
      · exact Or.inr (Or.inl ⟨h1, h2, h3, h4, h5, h6⟩)
      · exact Or.inr (Or.inr ⟨h1, h2, h3, by omega, h6⟩)
    refine ⟨by show (resetStep N r (switchMode r m1).1).1.t = _; rw [t1, s1, a1], ?_, ?_, ?_, ?_, ?_, ?_, ?_, ?_, ?_⟩
    · rcases hmode with h | h | h
      · exact Or.inl ⟨h.1, h.2.1⟩
      · exact Or.inr (Or.inl h)
      · exact Or.inr (Or.inr h)
    · intro c hcm
      rcases List.mem_append.1 hcm with h | h
      · left
        refine ⟨(s5 c h).2, ?_⟩
        rcases hmode with h' | h' | h'
        · rw [h'.2.2] at h; exact absurd h (by simp)
        · show (resetStep N r (switchMode r m1).1).1.moving ≠ _; rw [h'.1, h'.2.1]; simp
        · show (resetStep N r (switchMode r m1).1).1.moving ≠ _; rw [h'.1, h'.2.1]; simp
      · right
        rcases t4 with ⟨-, e⟩ | ⟨-, -, -, e⟩ | ⟨-, -, e⟩
        · rw [e] at h; exact absurd h (by simp)
        · rw [e] at h ⊢
          exact List.mem_singleton.1 h
        · rw [e] at h; exact absurd h (by simp)
    · rintro ⟨c, hcm, hr⟩
      rcases List.mem_append.1 hcm with h | h
      · rw [(s5 c h).1] at hr; exact absurd hr (by simp)
      · rcases t4 with ⟨-, e⟩ | ⟨h1, h2, h3, e⟩ | ⟨-, -, e⟩
        · rw [e] at h; exact absurd h (by simp)
        · rw [s3, a4] at h1; rw [s4, a5] at h3; exact ⟨h2, h1, h3⟩
        · rw [e] at h; exact absurd h (by simp)
    · rw [List.filter_append]
      have h0 : (switchMode r m1).2.filter Call.reset = [] := by
        rw [List.filter_eq_nil_iff]
        intro c h
        rw [(s5 c h).1]; simp
      rw [h0, List.nil_append]
      refine (List.length_filter_le _ _).trans ?_
      rcases t4 with ⟨-, e⟩ | ⟨-, -, -, e⟩ | ⟨-, -, e⟩
      · rw [e]; simp
      · rw [e]; simp
      · rw [e]; simp
    · rcases t4 with ⟨-, e⟩ | ⟨h1, h2, h3, e⟩ | ⟨-, -, e⟩
      · have hn : ¬ ∃ c ∈ (switchMode r m1).2 ++ ([] : List Call), c.reset = true := by
          rintro ⟨c, h, hr⟩; rw [List.append_nil] at h; rw [(s5 c h).1] at hr; exact absurd hr (by simp)
        rw [e]
        dsimp only
        rw [if_neg hn]
        show (switchMode r m1).1.cool - 1 = _
        rw [s4, a5]
      · rw [e, if_pos ⟨_, List.mem_append_right _ (List.mem_singleton_self _), rfl⟩]
        show samplesLT N (switchMode r m1).1.t / 4 - 1 = _
        rw [s1, a1]
      · have hn : ¬ ∃ c ∈ (switchMode r m1).2 ++ ([] : List Call), c.reset = true := by
          rintro ⟨c, h, hr⟩; rw [List.append_nil] at h; rw [(s5 c h).1] at hr; exact absurd hr (by simp)
        rw [e]
        dsimp only
        rw [if_neg hn]
        show (switchMode r m1).1.cool - 1 = _
        rw [s4, a5]
    · intro h
      show (resetStep N r (switchMode r m1).1).1.since = _
      rw [← a4, ← s3] at h ⊢
      rcases t4 with ⟨-, e⟩ | ⟨h1, -⟩ | ⟨h1, -⟩
      · rw [e]
      · omega
      · omega
    · intro h ha ht hr
      show (resetStep N r (switchMode r m1).1).1.since = _
      rw [← a4, ← s3] at h ⊢
      rcases t4 with ⟨h1, -⟩ | ⟨-, -, -, e⟩ | ⟨-, -, e⟩
      · omega
      · have := hr _ (List.mem_append_right _ (by rw [e]; exact List.mem_singleton_self _))
        exact absurd this (by simp)
      · rw [e]
        show (if 500 < (switchMode r m1).1.t then _ else _) = _
        rw [s1, a1, if_pos ht]
    · intro ha h
      show (resetStep N r (switchMode r m1).1).1.auto = _
      rw [← a4, ← s3] at h
      rcases t4 with ⟨h1, -⟩ | ⟨-, -, -, e⟩ | ⟨-, -, e⟩
      · omega
      · rw [e]; exact s2.trans (a6 ha)
      · rw [e]; exact s2.trans (a6 ha)
    · intro h
      show (resetStep N r (switchMode r m1).1).1.since ≤ _
      rw [← a4, ← s3] at h
      rcases t4 with ⟨h1, e⟩ | ⟨-, -, -, e⟩ | ⟨h1, -, e⟩
      · rw [e]; exact h
      · rw [e]; exact Nat.zero_le _
      · rw [e]; dsimp only; split <;> omega
  · rw [if_neg hc]
    refine ⟨a1, Or.inl ⟨a2, a3⟩, by simp, by rintro ⟨c, h, -⟩; exact absurd h (by simp), by simp, ?_, fun _ => a4, ?_, fun h _ => a6 h, fun h => by show m1.since ≤ _; omega⟩
    · rw [if_neg (by rintro ⟨c, h, -⟩; exact absurd h (by simp))]
      show m1.cool - 1 = _
      rw [a5]
    · intro _ ha
      exact absurd (Or.inl (a6 ha)) hc

theorem modes_snoc (N : Nat) (auto : Bool) (evs : List Ev) (e : Ev) : modes N auto (evs ++ [e]) = evStep N (modes N auto evs) e := by
  unfold modes
  rw [List.foldl_append]; rfl

theorem frameCount_snoc (evs : List Ev) (e : Ev) :
    frameCount (evs ++ [e]) = frameCount evs + (match e with | .frame _ => 1 | .setAuto _ => 0) := by
  unfold frameCount
  rw [List.countP_append]
  cases e <;> rfl

theorem modes_ok (N : Nat) (auto : Bool) (evs : List Ev) : ModeOk (frameCount evs) (modes N auto evs).1 := by
  induction evs using List.reverseRecOn with
  | nil => exact ⟨rfl, rfl, fun h => absurd h (by simp [modes, Mode.init])⟩
  | append_singleton evs e ih =>
    rw [modes_snoc, frameCount_snoc]
    cases e with
    | setAuto b => exact ⟨ih.count, ih.off, ih.late⟩
    | frame r =>
      have h := frameLevel_spec N r (modes N auto evs).1
      show ModeOk _ (frameLevel N r (modes N auto evs).1).1
      refine ⟨by rw [h.t, ih.count], ?_, ?_⟩
      · rcases h.mode with ⟨h1, h2⟩ | ⟨-, h1, h2, -⟩ | ⟨-, h1, h2, -⟩
        · rw [h1, h2]; exact ih.off
        · rw [h1, h2]; rfl
        · rw [h1, h2]; rfl
      · intro hm
        rw [h.t]
        rcases h.mode with ⟨h1, h2⟩ | ⟨-, h1, -⟩ | ⟨-, -, -, h1, -⟩
        · rw [h1] at hm; have := ih.late hm; omega
        · rw [h1] at hm; exact absurd hm (by simp)
        · omega

theorem resets_append (l l' : List (Nat × Call)) : resets (l ++ l') = resets l ++ resets l' := by
  unfold resets
  rw [List.filter_append, List.map_append]

theorem resets_map (k : Nat) (cs : List Call) : resets (cs.map fun c => (k, c)) = List.replicate (cs.filter Call.reset).length k := by
  unfold resets
  rw [List.filter_map, List.map_map]
  have : (Prod.fst ∘ fun c : Call => (k, c)) = fun _ => k := rfl
  rw [this, List.map_const']
  rfl

theorem filter_reset_ne (cs : List Call) : (cs.filter Call.reset).length = 0 ↔ ∀ c ∈ cs, c.reset = false := by
  rw [List.length_eq_zero_iff, List.filter_eq_nil_iff]
  constructor
  · intro h c hc; simpa using h c hc
  · intro h c hc; rw [h c hc]; simp

/-- The resets in a frame: none, or one. -/
theorem frame_resets (N : Nat) (r : Ratios) (m : Mode) :
    ((∀ c ∈ (frameLevel N r m).2, c.reset = false) ∧ resets ((frameLevel N r m).2.map fun c => (m.t + 1, c)) = []) ∨
    ((∃ c ∈ (frameLevel N r m).2, c.reset = true) ∧ resets ((frameLevel N r m).2.map fun c => (m.t + 1, c)) = [m.t + 1]) := by
  rw [resets_map]
  have h := (frameLevel_spec N r m).once
  rcases Nat.lt_or_ge 0 ((frameLevel N r m).2.filter Call.reset).length with h1 | h1
  · right
    obtain ⟨c, hc⟩ := List.exists_mem_of_length_pos h1
    rw [List.mem_filter] at hc
    refine ⟨⟨c, hc⟩, ?_⟩
    rw [show ((frameLevel N r m).2.filter Call.reset).length = 1 by omega]
    rfl
  · left
    have h0 : ((frameLevel N r m).2.filter Call.reset).length = 0 := by omega
    exact ⟨(filter_reset_ne _).1 h0, by rw [h0]; rfl⟩

theorem since_le (N : Nat) (r : Ratios) (m : Mode) :
    (frameLevel N r m).1.since ≤ m.since + 1 ∧ ((frameLevel N r m).1.t ≤ 500 → (frameLevel N r m).1.since ≤ m.since) := by
  have ht := (frameLevel_spec N r m).t
  rw [ht]
  unfold frameLevel
  dsimp only
  generalize hm1 : (if m.auto = false ∧ 90 ≤ r.change then ({ m with t := m.t + 1, auto := true } : Mode) else { m with t := m.t + 1 }) = m1
  have e1 : m1.t = m.t + 1 ∧ m1.since = m.since := by
    rw [← hm1]
    split <;> exact ⟨rfl, rfl⟩
  by_cases hc : m1.auto = true ∨ m1.moving = true
  · rw [if_pos hc]
    dsimp only
    obtain ⟨s1, s2, s3, s4, s5, s6⟩ := switchMode_spec r m1
    obtain ⟨t1, t2, t3, t4⟩ := resetStep_spec N r (switchMode r m1).1
    rcases t4 with ⟨-, e⟩ | ⟨-, -, -, e⟩ | ⟨-, -, e⟩
    · rw [e]; dsimp only; omega
    · rw [e]; dsimp only; omega
    · rw [e]; dsimp only; split <;> omega
  · rw [if_neg hc]
    dsimp only
    omega

theorem since_zero (N : Nat) (r : Ratios) (m : Mode) (h : ∃ c ∈ (frameLevel N r m).2, c.reset = true) : (frameLevel N r m).1.since = 0 := by
  obtain ⟨c, h1, h2⟩ := h
  unfold frameLevel at h1 ⊢
  dsimp only at h1 ⊢
  generalize (if m.auto = false ∧ 90 ≤ r.change then ({ m with t := m.t + 1, auto := true } : Mode) else { m with t := m.t + 1 }) = m1 at h1 ⊢
  by_cases hc : m1.auto = true ∨ m1.moving = true
  · rw [if_pos hc] at h1 ⊢
    dsimp only at h1 ⊢
    obtain ⟨s1, s2, s3, s4, s5, s6⟩ := switchMode_spec r m1
    obtain ⟨t1, t2, t3, t4⟩ := resetStep_spec N r (switchMode r m1).1
    rcases t4 with ⟨-, e⟩ | ⟨-, -, -, e⟩ | ⟨-, -, e⟩
    · rw [e, List.append_nil] at h1; rw [(s5 c h1).1] at h2; exact absurd h2 (by simp)
    · rw [e]
    · rw [e, List.append_nil] at h1; rw [(s5 c h1).1] at h2; exact absurd h2 (by simp)
  · rw [if_neg hc] at h1
    exact absurd h1 (by simp)

theorem resets_prefix (N : Nat) (auto : Bool) (evs more : List Ev) : ∃ z, resets (modes N auto (evs ++ more)).2 = resets (modes N auto evs).2 ++ z := by
  induction more using List.reverseRecOn with
  | nil => exact ⟨[], by rw [List.append_nil, List.append_nil]⟩
  | append_singleton more e ih =>
    obtain ⟨z, hz⟩ := ih
    rw [← List.append_assoc, modes_snoc]
    cases e with
    | setAuto b => exact ⟨z, hz⟩
    | frame r =>
      refine ⟨z ++ resets ((frameLevel N r (modes N auto (evs ++ more)).1).2.map fun c => ((modes N auto (evs ++ more)).1.t + 1, c)), ?_⟩
      show resets ((modes N auto (evs ++ more)).2 ++ _) = _
      rw [resets_append, hz, List.append_assoc]

/-- The log of resets, the cooldown and the counter. -/
structure LogOk (N : Nat) (m : Mode) (rs : List Nat) : Prop where
  apart : rs.Pairwise fun i j => i + max 1 (samplesLT N i / 4) ≤ j
  past : ∀ i ∈ rs, i ≤ m.t ∧ i + samplesLT N i / 4 ≤ m.t + m.cool + 1
  cool : m.cool = 0 ∨ ∃ i ∈ rs, m.t + 1 + m.cool ≤ i + samplesLT N i / 4
  since : m.since ≤ m.t - 500 ∧ ∀ i ∈ rs, m.since ≤ m.t - i

theorem modes_log (N : Nat) (auto : Bool) (evs : List Ev) : LogOk N (modes N auto evs).1 (resets (modes N auto evs).2) := by
  induction evs using List.reverseRecOn with
  | nil => exact ⟨List.Pairwise.nil, fun i hi => absurd hi (by simp [modes, resets]), Or.inl rfl, Nat.zero_le _, fun i hi => absurd hi (by simp [modes, resets])⟩
  | append_singleton evs e ih =>
    rw [modes_snoc]
    cases e with
    | setAuto b => exact ⟨ih.apart, ih.past, ih.cool, ih.since⟩
    | frame r =>
      have h := frameLevel_spec N r (modes N auto evs).1
      show LogOk N (frameLevel N r (modes N auto evs).1).1 (resets ((modes N auto evs).2 ++ (frameLevel N r (modes N auto evs).1).2.map fun c => ((modes N auto evs).1.t + 1, c)))
      rw [resets_append]
      have hsi : (frameLevel N r (modes N auto evs).1).1.since ≤ (modes N auto evs).1.since + 1 ∧
          ((frameLevel N r (modes N auto evs).1).1.t ≤ 500 → (frameLevel N r (modes N auto evs).1).1.since ≤ (modes N auto evs).1.since) := since_le N r _
      have hsz : (∃ c ∈ (frameLevel N r (modes N auto evs).1).2, c.reset = true) → (frameLevel N r (modes N auto evs).1).1.since = 0 := since_zero N r _
      generalize modes N auto evs = st at ih h hsi hsz ⊢
      have hr := frame_resets N r st.1
      generalize frameLevel N r st.1 = fl at h hr hsi hsz ⊢
      have ht := h.t
      have hc := h.cool
      rcases hr with ⟨h1, h2⟩ | ⟨h1, h2⟩
      · rw [h2, List.append_nil]
        rw [if_neg (by rintro ⟨c, hc, h⟩; rw [h1 c hc] at h; exact absurd h (by simp))] at hc
        refine ⟨ih.apart, ?_, ?_, ?_, ?_⟩
        · intro i hi
          have := ih.past i hi
          omega
        · rcases ih.cool with h0 | ⟨i, hi, h0⟩
          · left; omega
          · by_cases hz : fl.1.cool = 0
            · exact Or.inl hz
            · exact Or.inr ⟨i, hi, by omega⟩
        · have := ih.since.1; omega
        · intro i hi
          have h3 := ih.since.2 i hi
          have h4 := ih.past i hi
          omega
      · rw [h2]
        rw [if_pos h1] at hc
        obtain ⟨-, -, h0⟩ := h.reset h1
        have hz := hsz h1
        refine ⟨?_, ?_, ?_, ?_, ?_⟩
        · rw [List.pairwise_append]
          refine ⟨ih.apart, List.pairwise_singleton _ _, ?_⟩
          intro i hi j hj
          rw [List.mem_singleton.1 hj]
          have := ih.past i hi
          omega
        · intro i hi
          rcases List.mem_append.1 hi with hi | hi
          · have := ih.past i hi
            omega
          · rw [List.mem_singleton.1 hi]
            omega
        · by_cases hz : fl.1.cool = 0
          · exact Or.inl hz
          · exact Or.inr ⟨st.1.t + 1, by simp, by omega⟩
        · omega
        · intro i _; omega

/-- Automatic resets stay on while the counter has not passed its limit. -/
theorem modes_auto (N : Nat) (evs : List Ev) (h : NeverOff evs) : (modes N true evs).1.since ≤ 1000 → (modes N true evs).1.auto = true := by
  induction evs using List.reverseRecOn with
  | nil => intro _; rfl
  | append_singleton evs e ih =>
    have h' : NeverOff evs := fun hm => h (List.mem_append_left _ hm)
    rw [modes_snoc]
    cases e with
    | setAuto b =>
      intro _
      show b = true
      cases b with
      | true => rfl
      | false => exact absurd (List.mem_append_right _ (List.mem_singleton_self _)) h
    | frame r =>
      show (frameLevel N r (modes N true evs).1).1.since ≤ 1000 → (frameLevel N r (modes N true evs).1).1.auto = true
      have hf := frameLevel_spec N r (modes N true evs).1
      intro hs
      by_cases h0 : (modes N true evs).1.since ≤ 1000
      · exact hf.auto (ih h' h0) h0
      · have := hf.since (by omega)
        omega

/-- Once the counter has passed its limit there are no more resets. -/
theorem locked (N : Nat) (auto : Bool) (evs : List Ev) (h : 1000 < (modes N auto evs).1.since) (later : List Ev) :
    1000 < (modes N auto (evs ++ later)).1.since ∧ resets (modes N auto (evs ++ later)).2 = resets (modes N auto evs).2 := by
  induction later using List.reverseRecOn with
  | nil => rw [List.append_nil]; exact ⟨h, rfl⟩
  | append_singleton later e ih =>
    rw [← List.append_assoc, modes_snoc]
    cases e with
    | setAuto b => exact ih
    | frame r =>
      show 1000 < (frameLevel N r (modes N auto (evs ++ later)).1).1.since ∧
        resets ((modes N auto (evs ++ later)).2 ++ (frameLevel N r (modes N auto (evs ++ later)).1).2.map fun c => ((modes N auto (evs ++ later)).1.t + 1, c)) = _
      have hf := frameLevel_spec N r (modes N auto (evs ++ later)).1
      refine ⟨by rw [hf.since ih.1]; exact ih.1, ?_⟩
      rw [resets_append]
      rcases frame_resets N r (modes N auto (evs ++ later)).1 with ⟨-, h2⟩ | ⟨h1, -⟩
      · rw [h2, List.append_nil]; exact ih.2
      · have := (hf.reset h1).2.1
        have := ih.1
        omega

/-- Without resets the counter grows with the frames after the bootstrap window. -/
theorem counter_grows (N : Nat) (evs : List Ev) (h500 : 500 ≤ frameCount evs) (more : List Ev) (hoff : NeverOff (evs ++ more))
    (hno : resets (modes N true (evs ++ more)).2 = resets (modes N true evs).2) :
    min (frameCount more) 1001 ≤ (modes N true (evs ++ more)).1.since := by
  induction more using List.reverseRecOn with
  | nil => simp [frameCount]
  | append_singleton more e ih =>
    rw [← List.append_assoc] at hoff hno ⊢
    have hoff' : NeverOff (evs ++ more) := fun hm => hoff (List.mem_append_left _ hm)
    rw [modes_snoc] at hno ⊢
    rw [frameCount_snoc]
    cases e with
    | setAuto b =>
      show min (frameCount more + 0) 1001 ≤ (modes N true (evs ++ more)).1.since
      exact ih hoff' hno
    | frame r =>
      have hlen : ∀ l l' : List Nat, l ++ l' = l → l' = [] := fun l l' h => by simpa using h
      have hpre : ∃ z, resets (modes N true (evs ++ more)).2 = resets (modes N true evs).2 ++ z := resets_prefix N true evs more
      change resets ((modes N true (evs ++ more)).2 ++ (frameLevel N r (modes N true (evs ++ more)).1).2.map fun c => ((modes N true (evs ++ more)).1.t + 1, c)) = _ at hno
      obtain ⟨z, hz⟩ := hpre
      rw [resets_append, hz, List.append_assoc] at hno
      have h0 := hlen _ _ hno
      rw [List.append_eq_nil_iff] at h0
      have ih := ih hoff' (by rw [hz, h0.1, List.append_nil])
      have hf := frameLevel_spec N r (modes N true (evs ++ more)).1
      show min (frameCount more + 1) 1001 ≤ (frameLevel N r (modes N true (evs ++ more)).1).1.since
      by_cases hs : (modes N true (evs ++ more)).1.since ≤ 1000
      · have hcount := (modes_ok N true (evs ++ more)).count
        have h5 : 500 ≤ frameCount (evs ++ more) := by
          unfold frameCount at h500 ⊢
          rw [List.countP_append]; omega
        rw [hf.grow hs (modes_auto N _ hoff' hs) (by omega) (by
          rcases frame_resets N r (modes N true (evs ++ more)).1 with ⟨h1, -⟩ | ⟨-, h2⟩
          · exact h1
          · rw [h2] at h0; exact absurd h0.2 (by simp))]
        omega
      · rw [hf.since (by omega)]
        omega

end Litiv.PawcsFeed
