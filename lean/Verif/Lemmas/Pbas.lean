import Verif.Model.Pbas
import Verif.Spec.Pbas
import Verif.Lemmas.Consensus
import Verif.Lemmas.SubSense
import Verif.Props.Consensus

namespace Litiv.Pbas
open Consensus Consensus.Spec IEEE Spec
open SubSense (rd0 rd1 rd_nonneg rd_le_one one_le_rd rd_le_nat)

section
variable {rd : ℚ → ℚ} (H : Rounds rd)

/-- Lowest value of the distance threshold factor. -/
def loR (rd : ℚ → ℚ) : ℚ := rd (rd (3 / 5) * rd (19 / 20))
/-- Largest value of the distance threshold factor. -/
def hiR (rd : ℚ → ℚ) : ℚ := rd (rd (rd (3 / 5) + 5) * rd (21 / 20))

/-- The ranges of the adaptive values of one pixel. -/
structure Ok (rd : ℚ → ℚ) (t0 : ℚ) (a : Adapt) : Prop where
  d0 : 0 ≤ a.D
  d1 : a.D ≤ 1
  r0 : loR rd ≤ a.R
  r1 : a.R ≤ hiR rd
  tlo : min t0 2 ≤ a.T
  thi : a.T ≤ max t0 200
  trep : rd a.T = a.T

include H

theorem stepMean_unit {n : Nat} (hn : 0 < n) (hle : n ≤ 2 ^ 24) {D md : ℚ} (hD : 0 ≤ D ∧ D ≤ 1) (hm : 0 ≤ md ∧ md ≤ 255) :
    0 ≤ stepMean rd n D md ∧ stepMean rd n D md ≤ 1 := by
  unfold stepMean
  have e1 := H.nat (n - 1) (by omega)
  have e2 := H.nat n hle
  have e3 : ((n - 1 : Nat) : ℚ) = (n : ℚ) - 1 := by push_cast [Nat.cast_sub hn]; ring
  rw [e1, e2]
  have hnq : (1 : ℚ) ≤ n := by exact_mod_cast hn
  have a1 : rd (D * ((n - 1 : Nat) : ℚ)) ≤ ((n - 1 : Nat) : ℚ) := by
    refine rd_le_nat H (n - 1) (by omega) ?_
    rw [e3]
    nlinarith [hD.1, hD.2]
  have a0 : 0 ≤ rd (D * ((n - 1 : Nat) : ℚ)) := rd_nonneg H (mul_nonneg hD.1 (by positivity))
  have b0 : 0 ≤ rd (md / 255) := rd_nonneg H (div_nonneg hm.1 (by norm_num))
  have b1 : rd (md / 255) ≤ 1 := rd_le_one H (by rw [div_le_one (by norm_num)]; exact hm.2)
  have c1 : rd (rd (D * ((n - 1 : Nat) : ℚ)) + rd (md / 255)) ≤ n := rd_le_nat H n hle (by rw [e3] at a1 ⊢; linarith)
  have c0 : 0 ≤ rd (rd (D * ((n - 1 : Nat) : ℚ)) + rd (md / 255)) := rd_nonneg H (by linarith)
  exact ⟨rd_nonneg H (div_nonneg c0 (by linarith)), rd_le_one H (by rw [div_le_one (by linarith)]; exact c1)⟩

theorem denom_ge {D : ℚ} (hD : 0 ≤ D) : 1 ≤ rd (rd (D * 255) + 1) :=
  one_le_rd H (by have := rd_nonneg H (mul_nonneg hD (by norm_num : (0 : ℚ) ≤ 255)); linarith)

theorem rd2 : rd 2 = 2 := by simpa using H.nat 2 (by norm_num)
theorem rd200 : rd 200 = 200 := by simpa using H.nat 200 (by norm_num)

omit H in
theorem rateUp_le (T D : ℚ) : rateUp rd T D ≤ 200 := by
  unfold rateUp
  dsimp only
  split <;> linarith

theorem rateUp_rep (T D : ℚ) : rd (rateUp rd T D) = rateUp rd T D := by
  unfold rateUp
  dsimp only
  split
  · exact rd200 H
  · exact H.idem _

theorem rateDown_rep (T D : ℚ) : rd (rateDown rd T D) = rateDown rd T D := by
  unfold rateDown
  dsimp only
  split
  · exact rd2 H
  · exact H.idem _

omit H in
theorem rateDown_ge (T D : ℚ) : 2 ≤ rateDown rd T D := by
  unfold rateDown
  dsimp only
  split <;> linarith

/-- The rate of a foreground pixel does not decrease, up to the cap. -/
theorem rateUp_mono {T D : ℚ} (hT : rd T = T) (hD : 0 ≤ D) : min T 200 ≤ rateUp rd T D := by
  have h := denom_ge H hD
  have h0 : 0 ≤ rd (1 / rd (rd (D * 255) + 1)) := rd_nonneg H (by positivity)
  have := H.mono T (T + rd (1 / rd (rd (D * 255) + 1))) (by linarith)
  rw [hT] at this
  unfold rateUp
  dsimp only
  split
  · exact min_le_right _ _
  · exact (min_le_left _ _).trans this

/-- The rate of a background pixel does not increase, down to the floor. -/
theorem rateDown_mono {T D : ℚ} (hT : rd T = T) (hD : 0 ≤ D) : rateDown rd T D ≤ max T 2 := by
  have h := denom_ge H hD
  have h0 : 0 ≤ rd (rd (1 / 20) / rd (rd (D * 255) + 1)) := rd_nonneg H (div_nonneg (rd_nonneg H (by norm_num)) (by linarith))
  have := H.mono (T - rd (rd (1 / 20) / rd (rd (D * 255) + 1))) T (by linarith)
  rw [hT] at this
  unfold rateDown
  dsimp only
  split
  · exact le_max_right _ _
  · exact this.trans (le_max_left _ _)

theorem c95 : 0 ≤ rd (19 / 20) ∧ rd (19 / 20) ≤ 1 := ⟨rd_nonneg H (by norm_num), rd_le_one H (by norm_num)⟩
theorem c105 : 1 ≤ rd (21 / 20) := one_le_rd H (by norm_num)
theorem c06 : 0 ≤ rd (3 / 5) ∧ rd (3 / 5) ≤ 1 := ⟨rd_nonneg H (by norm_num), rd_le_one H (by norm_num)⟩

theorem loR_nonneg : 0 ≤ loR rd := rd_nonneg H (mul_nonneg (c06 H).1 (c95 H).1)

theorem stepThr_range {R D : ℚ} (hD : D ≤ 1) (h0 : loR rd ≤ R) (h1 : R ≤ hiR rd) : loR rd ≤ stepThr rd R D ∧ stepThr rd R D ≤ hiR rd := by
  have hn := loR_nonneg H
  have i0 : rd (loR rd) = loR rd := H.idem _
  have i1 : rd (hiR rd) = hiR rd := H.idem _
  obtain ⟨q0, q1⟩ := c95 H
  have q2 := c105 H
  unfold stepThr
  split
  · rename_i hlt
    split
    · constructor
      · rw [← i0]; exact H.mono _ _ (by nlinarith)
      · refine H.mono _ _ (mul_le_mul_of_nonneg_right ?_ (by linarith))
        refine hlt.le.trans ?_
        rw [add_zero, H.idem]
        refine H.mono _ _ ?_
        have : rd (D * 5) ≤ (5 : Nat) := rd_le_nat H 5 (by norm_num) (by push_cast; linarith)
        push_cast at this
        linarith
    · exact ⟨h0, h1⟩
  · split
    · rename_i hgt
      constructor
      · exact H.mono _ _ (mul_le_mul_of_nonneg_right (le_of_lt hgt) q0)
      · rw [← i1]; exact H.mono _ _ (by nlinarith)
    · exact ⟨h0, h1⟩

theorem ok_init {t0 : ℚ} (hrep : rd t0 = t0) : Ok rd t0 ⟨1, t0, 0⟩ where
  d0 := le_refl _
  d1 := by norm_num
  r0 := rd_le_one H (by have := c06 H; have := c95 H; nlinarith)
  r1 := by
    refine one_le_rd H ?_
    have h1 : 1 ≤ rd (rd (3 / 5) + 5) := one_le_rd H (by linarith [(c06 H).1])
    nlinarith [c105 H]
  tlo := min_le_left _ _
  thi := le_max_left _ _
  trep := hrep

theorem ok_up {n : Nat} (hn : 0 < n) (hle : n ≤ 2 ^ 24) {t0 md : ℚ} {a : Adapt} (h : Ok rd t0 a) (hm : 0 ≤ md ∧ md ≤ 255) :
    Ok rd t0 ⟨stepThr rd a.R (stepMean rd n a.D md), rateUp rd a.T (stepMean rd n a.D md), stepMean rd n a.D md⟩ := by
  obtain ⟨u0, u1⟩ := stepMean_unit H hn hle ⟨h.d0, h.d1⟩ hm
  obtain ⟨v0, v1⟩ := stepThr_range H u1 h.r0 h.r1
  refine ⟨u0, u1, v0, v1, ?_, (rateUp_le _ _).trans (le_max_right _ _), rateUp_rep H _ _⟩
  refine le_trans ?_ (rateUp_mono H h.trep u0)
  exact le_min h.tlo ((min_le_right _ _).trans (by norm_num))

theorem ok_down {n : Nat} (hn : 0 < n) (hle : n ≤ 2 ^ 24) {t0 md : ℚ} {a : Adapt} (h : Ok rd t0 a) (hm : 0 ≤ md ∧ md ≤ 255) :
    Ok rd t0 ⟨stepThr rd a.R (stepMean rd n a.D md), rateDown rd a.T (stepMean rd n a.D md), stepMean rd n a.D md⟩ := by
  obtain ⟨u0, u1⟩ := stepMean_unit H hn hle ⟨h.d0, h.d1⟩ hm
  obtain ⟨v0, v1⟩ := stepThr_range H u1 h.r0 h.r1
  refine ⟨u0, u1, v0, v1, (min_le_right _ _).trans (rateDown_ge _ _), ?_, rateDown_rep H _ _⟩
  refine (rateDown_mono H h.trep u0).trans ?_
  exact max_le h.thi (le_trans (by norm_num) (le_max_right _ _))

end

/-! ## The matching loop -/

/-- Number of matches: that of the loop of `Consensus`. -/
theorem scan_cnt (acc : ℚ → ℚ → ℚ) (d g : Nat → ℚ) (thr : ℚ) (req : Nat) : ∀ (rem idx cnt : Nat) (md tot : ℚ) (bad : Nat),
    (scan acc d g thr req rem idx cnt md tot bad).1 = goodLoop (fun s => decide (d s ≤ thr)) req rem idx cnt := by
  intro rem
  induction rem with
  | zero => intros; rfl
  | succ rem ih =>
    intro idx cnt md tot bad
    unfold scan goodLoop
    by_cases h : cnt < req
    · rw [if_pos h, if_pos h]
      by_cases hd : d idx ≤ thr
      · rw [if_pos hd, ih]; simp [hd]
      · rw [if_neg hd, ih]; simp [hd]
    · rw [if_neg h, if_neg h]

/-- What the loop computes: `j` samples are examined. -/
theorem scan_spec (acc : ℚ → ℚ → ℚ) (d g : Nat → ℚ) (thr : ℚ) (req : Nat) : ∀ (rem idx cnt : Nat) (md tot : ℚ) (bad : Nat), cnt ≤ req →
    ∃ j ≤ rem, (scan acc d g thr req rem idx cnt md tot bad).1 = cnt + ((List.range j).filter fun i => decide (d (idx + i) ≤ thr)).length ∧
      (scan acc d g thr req rem idx cnt md tot bad).1 ≤ req ∧ (j = rem ∨ (scan acc d g thr req rem idx cnt md tot bad).1 = req) ∧
      (∀ i < j, d (idx + i) ≤ thr → (scan acc d g thr req rem idx cnt md tot bad).2.1 ≤ d (idx + i)) ∧
      (scan acc d g thr req rem idx cnt md tot bad).2.1 ≤ md ∧
      ((scan acc d g thr req rem idx cnt md tot bad).2.1 = md ∨ ∃ i < j, d (idx + i) ≤ thr ∧ (scan acc d g thr req rem idx cnt md tot bad).2.1 = d (idx + i)) ∧
      (scan acc d g thr req rem idx cnt md tot bad).2.2.2 = bad + ((List.range j).filter fun i => !decide (d (idx + i) ≤ thr)).length ∧
      (scan acc d g thr req rem idx cnt md tot bad).2.2.1 = (((List.range j).filter fun i => !decide (d (idx + i) ≤ thr)).map fun i => g (idx + i)).foldl acc tot ∧
      ∀ k < j, cnt + ((List.range k).filter fun i => decide (d (idx + i) ≤ thr)).length < req := by
  intro rem
  induction rem with
  | zero =>
    intro idx cnt md tot bad hc
    exact ⟨0, le_refl _, by simp [scan], hc, Or.inl rfl, fun i hi => by omega, le_refl _, Or.inl rfl, by simp [scan], by simp [scan], fun k hk => by omega⟩
  | succ rem ih =>
    intro idx cnt md tot bad hc
    have sh : ∀ (p : Nat → Bool) (j : Nat), (List.range (j + 1)).filter p = (if p 0 then [0] else []) ++ ((List.range j).filter fun i => p (i + 1)).map (· + 1) := by
      intro p j
      rw [List.range_succ_eq_map, List.filter_cons, List.filter_map]
      split <;> simp_all [Function.comp_def]
    have ea : ∀ i, idx + (i + 1) = idx + 1 + i := fun i => by omega
    have s1 : ∀ j, (List.range (j + 1)).filter (fun i => decide (d (idx + i) ≤ thr)) =
        (if d idx ≤ thr then [0] else []) ++ ((List.range j).filter fun i => decide (d (idx + 1 + i) ≤ thr)).map (· + 1) := by
      intro j
      rw [sh]
      congr 1
      · simp
      · congr 2; funext i; rw [ea]
    have s2 : ∀ j, (List.range (j + 1)).filter (fun i => !decide (d (idx + i) ≤ thr)) =
        (if d idx ≤ thr then [] else [0]) ++ ((List.range j).filter fun i => !decide (d (idx + 1 + i) ≤ thr)).map (· + 1) := by
      intro j
      rw [sh]
      congr 1
      · by_cases hd : d idx ≤ thr <;> simp [hd]
      · congr 2; funext i; rw [ea]
    have s3 : ∀ l : List Nat, (l.map (· + 1)).map (fun i => g (idx + i)) = l.map fun i => g (idx + 1 + i) := by
      intro l
      rw [List.map_map]
      congr 1
      funext i
      show g (idx + (i + 1)) = _
      rw [ea]
    by_cases h : cnt < req
    · by_cases hd : d idx ≤ thr
      · have e : scan acc d g thr req (rem + 1) idx cnt md tot bad =
            scan acc d g thr req rem (idx + 1) (cnt + 1) (if d idx < md then d idx else md) tot bad := by
          rw [scan, if_pos h, if_pos hd]
        rw [e]
        obtain ⟨j, hj, h1, h2, h3, h4, h5, h6, h7, h8, h9⟩ := ih (idx + 1) (cnt + 1) (if d idx < md then d idx else md) tot bad h
        generalize scan acc d g thr req rem (idx + 1) (cnt + 1) (if d idx < md then d idx else md) tot bad = r at *
        refine ⟨j + 1, by omega, ?_, h2, ?_, ?_, ?_, ?_, ?_, ?_, ?_⟩
        · rw [h1, s1, if_pos hd, List.length_append, List.length_map, List.length_singleton]; omega
        · rcases h3 with h3 | h3
          · left; omega
          · exact Or.inr h3
        · intro i hi hdi
          cases i with
          | zero => refine h5.trans ?_; rw [Nat.add_zero]; split <;> linarith
          | succ i => rw [ea]; exact h4 i (by omega) (by rwa [ea] at hdi)
        · refine h5.trans ?_; split <;> linarith
        · rcases h6 with h6 | ⟨i, hi, h6, h7⟩
          · by_cases hlt : d idx < md
            · rw [if_pos hlt] at h6
              exact Or.inr ⟨0, by omega, hd, h6⟩
            · rw [if_neg hlt] at h6
              exact Or.inl h6
          · exact Or.inr ⟨i + 1, by omega, by rw [ea]; exact h6, by rw [ea]; exact h7⟩
        · rw [h7, s2, if_pos hd, List.nil_append, List.length_map]
        · rw [h8, s2, if_pos hd, List.nil_append, s3]
        · intro k hk
          cases k with
          | zero => simpa using h
          | succ k =>
            have := h9 k (by omega)
            rw [s1, if_pos hd, List.length_append, List.length_map, List.length_singleton]
            omega
      · have e : scan acc d g thr req (rem + 1) idx cnt md tot bad =
            scan acc d g thr req rem (idx + 1) cnt md (acc tot (g idx)) (bad + 1) := by
          rw [scan, if_pos h, if_neg hd]
        rw [e]
        obtain ⟨j, hj, h1, h2, h3, h4, h5, h6, h7, h8, h9⟩ := ih (idx + 1) cnt md (acc tot (g idx)) (bad + 1) hc
        generalize scan acc d g thr req rem (idx + 1) cnt md (acc tot (g idx)) (bad + 1) = r at *
        refine ⟨j + 1, by omega, ?_, h2, ?_, ?_, h5, ?_, ?_, ?_, ?_⟩
        · rw [h1, s1, if_neg hd, List.nil_append, List.length_map]
        · rcases h3 with h3 | h3
          · left; omega
          · exact Or.inr h3
        · intro i hi hdi
          cases i with
          | zero => exact absurd hdi hd
          | succ i => rw [ea]; exact h4 i (by omega) (by rwa [ea] at hdi)
        · rcases h6 with h6 | ⟨i, hi, h6, h7⟩
          · exact Or.inl h6
          · exact Or.inr ⟨i + 1, by omega, by rw [ea]; exact h6, by rw [ea]; exact h7⟩
        · rw [h7, s2, if_neg hd, List.length_append, List.length_map, List.length_singleton]; omega
        · rw [h8, s2, if_neg hd, List.map_append, List.foldl_append, s3]; rfl
        · intro k hk
          cases k with
          | zero => simpa using h
          | succ k =>
            have := h9 k (by omega)
            rw [s1, if_neg hd, List.nil_append, List.length_map]
            omega
    · have e : scan acc d g thr req (rem + 1) idx cnt md tot bad = (cnt, md, tot, bad) := by rw [scan, if_neg h]
      rw [e]
      exact ⟨0, by omega, by simp, hc, Or.inr (by dsimp only; omega), fun i hi => by omega, le_refl _, Or.inl rfl, by simp, by simp, fun k hk => by omega⟩

/-! ## One pixel -/

section
variable {V : Type} {rd : ℚ → ℚ} (K : Kind V) (P : Par) (rnd : Nat → Nat)

/-- The frame that `Consensus` would process: matching and rates are those of the adaptive values at the start of the frame. -/
def frameOf (rd : ℚ → ℚ) (K : Kind V) (P : Par) (mean : ℚ) (ad : Nat → Nat → Adapt) (f : Input V) : Frame V :=
  pbas f.img (fun y x v => decide (sumDist rd K mean (f.img y x) v ≤ curThr rd P (ad y x))) (fun y x => learnRate f.over (ad y x).T)

/-- The new adaptive values of a pixel. -/
def newAd (rd : ℚ → ℚ) (n : Nat) (a : Adapt) (md : ℚ) (fg : Bool) : Adapt :=
  ⟨stepThr rd a.R (stepMean rd n a.D md), if fg then rateUp rd a.T (stepMean rd n a.D md) else rateDown rd a.T (stepMean rd n a.D md),
    stepMean rd n a.D md⟩

theorem updateOwn_congr (c : Cfg) (f g : Frame V) (st : Consensus.St V) (y x : Nat) (hi : f.img = g.img) (hr : f.rate y x = g.rate y x) :
    updateOwn c rnd f st y x = updateOwn c rnd g st y x := by
  unfold updateOwn; rw [hi, hr]

theorem updateNeighbour_congr (c : Cfg) (f g : Frame V) (st : Consensus.St V) (y x : Nat) (hi : f.img = g.img) (hr : f.rate y x = g.rate y x)
    (hs : f.self = g.self) : updateNeighbour c rnd f st y x = updateNeighbour c rnd g st y x := by
  unfold updateNeighbour; rw [hi, hr, hs]

/-- The result of the matching loop at a pixel. -/
def scanAt (rd : ℚ → ℚ) (K : Kind V) (P : Par) (mean : ℚ) (f : Input V) (st : St V) (p : Nat × Nat) : Nat × ℚ × ℚ × Nat :=
  scan K.acc (fun s => sumDist rd K mean (f.img p.1 p.2) (st.core.model s p.1 p.2)) (fun s => K.grd (f.img p.1 p.2) (st.core.model s p.1 p.2))
    (curThr rd P (st.ad p.1 p.2)) P.c.req P.c.n 0 0 255 st.tot st.bad

theorem step_form (mean : ℚ) (f : Input V) (st : St V) (p : Nat × Nat) :
    step rd K P rnd mean f st p =
      (Consensus.step P.c rnd (frameOf rd K P mean st.ad f) st.core p).map fun c' =>
        ⟨c', fun y x => if y = p.1 ∧ x = p.2 then
            newAd rd P.c.n (st.ad p.1 p.2) (scanAt rd K P mean f st p).2.1 (decide ((scanAt rd K P mean f st p).1 < P.c.req)) else st.ad y x,
          (scanAt rd K P mean f st p).2.2.1, (scanAt rd K P mean f st p).2.2.2⟩ := by
  have hc : (scanAt rd K P mean f st p).1 = goodLoop (fun s => (frameOf rd K P mean st.ad f).matched p.1 p.2 (st.core.model s p.1 p.2)) P.c.req P.c.n 0 0 := by
    unfold scanAt
    rw [scan_cnt]
    rfl
  unfold step Consensus.step
  dsimp only
  rw [← hc]
  change (if (scanAt rd K P mean f st p).1 < P.c.req then _ else _) = _
  by_cases hlt : (scanAt rd K P mean f st p).1 < P.c.req
  · rw [if_pos hlt, if_pos hlt]
    simp only [Option.map_some, newAd, decide_eq_true hlt, if_true]
    rfl
  · rw [if_neg hlt, if_neg hlt]
    change (if learnRate f.over (st.ad p.1 p.2).T = 0 then _ else _) =
      Option.map _ (if learnRate f.over (st.ad p.1 p.2).T = 0 then _ else _)
    by_cases h0 : learnRate f.over (st.ad p.1 p.2).T = 0
    · rw [if_pos h0, if_pos h0]; rfl
    · rw [if_neg h0, if_neg h0]
      rw [updateOwn_congr rnd P.c (pbas f.img (fun _ _ _ => true) (fun _ _ => learnRate f.over (st.ad p.1 p.2).T)) (frameOf rd K P mean st.ad f) st.core p.1 p.2 rfl rfl]
      cases updateOwn P.c rnd (frameOf rd K P mean st.ad f) st.core p.1 p.2 with
      | none => rfl
      | some c1 =>
        dsimp only
        rw [updateNeighbour_congr rnd P.c (pbas f.img (fun _ _ _ => true) (fun _ _ => learnRate f.over (st.ad p.1 p.2).T)) (frameOf rd K P mean st.ad f) c1 p.1 p.2 rfl rfl rfl]
        cases updateNeighbour P.c rnd (frameOf rd K P mean st.ad f) c1 p.1 p.2 with
        | none => rfl
        | some c2 =>
          simp only [Option.map_some, newAd, decide_eq_false hlt]
          rfl

theorem cstep_congr (c : Cfg) (f g : Frame V) (st : Consensus.St V) (p : Nat × Nat) (hi : f.img = g.img) (hr : f.rate p.1 p.2 = g.rate p.1 p.2)
    (hs : f.self = g.self) (hm : f.matched p.1 p.2 = g.matched p.1 p.2) : Consensus.step c rnd f st p = Consensus.step c rnd g st p := by
  unfold Consensus.step
  rw [hm, hr, updateOwn_congr rnd c f g st p.1 p.2 hi hr]
  simp only [updateNeighbour_congr rnd c f g _ p.1 p.2 hi hr hs]

/-- A PBAS frame is a frame of the sample-consensus model, decided with the adaptive values at its start. -/
theorem refine_fold (mean : ℚ) (f : Input V) (ad : Nat → Nat → Adapt) : ∀ (px : List (Nat × Nat)) (st : St V), px.Nodup →
    (∀ p ∈ px, st.ad p.1 p.2 = ad p.1 p.2) →
    (px.foldlM (step rd K P rnd mean f) st).map (fun s => s.core) = px.foldlM (Consensus.step P.c rnd (frameOf rd K P mean ad f)) st.core := by
  intro px
  induction px with
  | nil => intro st _ _; rfl
  | cons p px ih =>
    intro st hnd had
    rw [List.nodup_cons] at hnd
    have hp := had p (by simp)
    have e : Consensus.step P.c rnd (frameOf rd K P mean st.ad f) st.core p = Consensus.step P.c rnd (frameOf rd K P mean ad f) st.core p := by
      refine cstep_congr rnd P.c _ _ _ _ rfl ?_ rfl ?_
      · show learnRate _ _ = learnRate _ _; rw [hp]
      · funext v; show decide (_ ≤ curThr rd P (st.ad p.1 p.2)) = decide (_ ≤ curThr rd P (ad p.1 p.2)); rw [hp]
    rw [List.foldlM_cons, List.foldlM_cons, step_form, e]
    cases Consensus.step P.c rnd (frameOf rd K P mean ad f) st.core p with
    | none => rfl
    | some c' =>
      simp only [Option.map_some, Option.bind_eq_bind, Option.bind_some]
      refine ih _ hnd.2 ?_
      intro q hq
      dsimp only
      rw [if_neg (fun h => hnd.1 (by have : q = p := Prod.ext h.1 h.2; rwa [this] at hq))]
      exact had q (by simp [hq])

/-- The contract of the distances. -/
structure Kind.Good (K : Kind V) : Prop where
  col0 : ∀ a b, 0 ≤ K.col a b
  grd0 : ∀ a b, 0 ≤ K.grd a b
  colSelf : ∀ a, K.col a a = 0
  grdSelf : ∀ a, K.grd a a = 0

theorem sumDist_range (H : Rounds rd) (hK : K.Good) {mean : ℚ} (hm : 20 ≤ mean) (a b : V) :
    0 ≤ sumDist rd K mean a b ∧ sumDist rd K mean a b ≤ 255 := by
  unfold sumDist
  refine ⟨le_min (rd_nonneg H ?_) (by norm_num), min_le_right _ _⟩
  have h1 : 0 ≤ rd (10 / mean) := rd_nonneg H (by positivity)
  have h2 := rd_nonneg H (mul_nonneg h1 (hK.grd0 a b))
  linarith [hK.col0 a b]

theorem sumDist_self (H : Rounds rd) (hK : K.Good) (mean : ℚ) (a : V) : sumDist rd K mean a a = 0 := by
  unfold sumDist
  rw [hK.colSelf, hK.grdSelf, mul_zero, rd0 H, add_zero, rd0 H]
  norm_num

theorem curThr_nonneg (H : Rounds rd) {t0 : ℚ} {a : Adapt} (h : Ok rd t0 a) : 0 ≤ curThr rd P a :=
  rd_nonneg H (mul_nonneg ((loR_nonneg H).trans h.r0) (rd_nonneg H (by positivity)))

theorem learnRate_pos {over : Option ℚ} (ho : ∀ r, over = some r → 0 < r) {T : ℚ} (hT : 0 < T) : 0 < learnRate over T := by
  unfold learnRate
  cases over with
  | none => simpa using Int.ceil_pos.2 hT
  | some r => simpa using Int.ceil_pos.2 (ho r rfl)

/-- Invariant of the pixel loop after the pixels `pre`. -/
structure LInv (rd : ℚ → ℚ) (K : Kind V) (P : Par) (rnd : Nat → Nat) (s : Hist V) (f : Input V) (bm : Nat × Nat → Model V) (jj : Nat × Nat → Nat)
    (md : Nat × Nat → ℚ) (pre : List (Nat × Nat)) (st : St V) : Prop where
  run : pixels rd K P rnd s f pre = some st
  ok : ∀ y x, Ok rd P.rate0 (st.ad y x)
  same : ∀ y x, (y, x) ∉ pre → st.ad y x = s.ad y x
  tot : st.tot = (pre.flatMap fun p => rejected (fun i => sumDist rd K s.mean (f.img p.1 p.2) (bm p i p.1 p.2))
    (fun i => K.grd (f.img p.1 p.2) (bm p i p.1 p.2)) (curThr rd P (s.ad p.1 p.2)) (jj p)).foldl K.acc 0
  bad : st.bad = 1 + (pre.flatMap fun p => rejected (fun i => sumDist rd K s.mean (f.img p.1 p.2) (bm p i p.1 p.2))
    (fun i => K.grd (f.img p.1 p.2) (bm p i p.1 p.2)) (curThr rd P (s.ad p.1 p.2)) (jj p)).length
  each : ∀ pre' y x post, pre = pre' ++ (y, x) :: post →
    (∃ b, pixels rd K P rnd s f pre' = some b ∧ bm (y, x) = b.core.model) ∧
    Searched P.c.n P.c.req (fun i => sumDist rd K s.mean (f.img y x) (bm (y, x) i y x)) (curThr rd P (s.ad y x)) (jj (y, x)) (md (y, x)) ∧
    st.ad y x = newAd rd P.c.n (s.ad y x) (md (y, x))
      (decide (count P.c.n (fun i => decide (sumDist rd K s.mean (f.img y x) (bm (y, x) i y x) ≤ curThr rd P (s.ad y x))) < P.c.req))

/-- What holds between frames. -/
structure HistOk (rd : ℚ → ℚ) (P : Par) (s : Hist V) : Prop where
  ok : ∀ y x, Ok rd P.rate0 (s.ad y x)
  mean : 20 ≤ s.mean

theorem rate_pos {t0 : ℚ} (ht : 0 < t0) {a : Adapt} (h : Ok rd t0 a) : 0 < a.T := lt_of_lt_of_le (lt_min ht (by norm_num)) h.tlo

theorem loop_inv (H : Rounds rd) (hK : K.Good) (hP : P.Valid rd) (s : Hist V) (hs : HistOk rd P s) (f : Input V) (ho : ∀ r, f.over = some r → 0 < r) :
    ∃ bm jj md st, LInv rd K P rnd s f bm jj md (raster P.c.h P.c.w) st := by
  have hpx : ∀ p ∈ raster P.c.h P.c.w, Inner P.c.b P.c.h P.c.w p := fun p hp => by rw [hP.b0, inner_iff]; exact (raster_mem _ _ _).1 hp
  have hb := hP.b0
  have hh := hP.h0
  have hw := hP.w0
  have key : ∀ pre, (∃ post, raster P.c.h P.c.w = pre ++ post) → ∃ bm jj md st, LInv rd K P rnd s f bm jj md pre st := by
    intro pre
    induction pre using List.reverseRecOn with
    | nil =>
      intro _
      exact ⟨fun _ => s.model, fun _ => 0, fun _ => 0, _, rfl, hs.ok, fun _ _ _ => rfl, rfl, rfl, fun pre' y x post h => by simp at h⟩
    | append_singleton pre p ih =>
      rintro ⟨post, hpost⟩
      obtain ⟨bm, jj, md, st, I⟩ := ih ⟨p :: post, by rw [hpost]; simp⟩
      have hnd := raster_nodup P.c.h P.c.w
      rw [hpost] at hnd
      have hpn : p ∉ pre := by
        intro hin
        have := (List.nodup_append.1 (List.nodup_append.1 hnd).1).2.2 p hin p (by simp)
        exact this rfl
      have hin : p ∈ raster P.c.h P.c.w := by rw [hpost]; simp
      obtain ⟨y, x⟩ := p
      have hsame := I.same y x hpn
      obtain ⟨c', hc', -⟩ := Consensus.step_spec P.c (by omega) (by omega) rnd (frameOf rd K P s.mean st.ad f) hP.n0 st.core y x (hpx _ hin)
        (learnRate_pos ho (rate_pos hP.rpos (I.ok y x)))
      have e := step_form (rd := rd) K P rnd s.mean f st (y, x)
      rw [hc', Option.map_some] at e
      obtain ⟨j, hj, h1, h2, h3, h4, h5, h6, h7, h8, h9⟩ := scan_spec K.acc (fun i => sumDist rd K s.mean (f.img y x) (st.core.model i y x))
        (fun i => K.grd (f.img y x) (st.core.model i y x)) (curThr rd P (st.ad y x)) P.c.req P.c.n 0 0 255 st.tot st.bad (Nat.zero_le _)
      change (scanAt rd K P s.mean f st (y, x)).1 = _ at h1
      change (scanAt rd K P s.mean f st (y, x)).1 ≤ _ at h2
      change _ ∨ (scanAt rd K P s.mean f st (y, x)).1 = _ at h3
      change ∀ i < j, _ → (scanAt rd K P s.mean f st (y, x)).2.1 ≤ _ at h4
      change (scanAt rd K P s.mean f st (y, x)).2.1 ≤ _ at h5
      change (scanAt rd K P s.mean f st (y, x)).2.1 = _ ∨ ∃ i < j, _ ∧ (scanAt rd K P s.mean f st (y, x)).2.1 = _ at h6
      change (scanAt rd K P s.mean f st (y, x)).2.2.2 = _ at h7
      change (scanAt rd K P s.mean f st (y, x)).2.2.1 = _ at h8
      have hcnt : (scanAt rd K P s.mean f st (y, x)).1 < P.c.req ↔
          count P.c.n (fun i => decide (sumDist rd K s.mean (f.img y x) (st.core.model i y x) ≤ curThr rd P (s.ad y x))) < P.c.req := by
        unfold scanAt
        rw [scan_cnt, goodLoop_count]
        dsimp only
        rw [hsame]
      generalize scanAt rd K P s.mean f st (y, x) = r at *
      simp only [Nat.zero_add] at h1 h4 h6 h7 h8 h9
      have md0 : 0 ≤ r.2.1 := by
        rcases h6 with h6 | ⟨i, -, -, h6⟩
        · rw [h6]; norm_num
        · rw [h6]; exact (sumDist_range K H hK hs.mean _ _).1
      dsimp only at e hpn
      have hfm : ∀ (F : Nat × Nat → Model V → Nat → List ℚ) (q : Model V) (t : Nat),
          (pre.flatMap fun p => F p (if p = (y, x) then q else bm p) (if p = (y, x) then t else jj p)) = pre.flatMap fun p => F p (bm p) (jj p) := by
        intro F q t
        rw [List.flatMap_congr]
        intro p hp
        have hne : p ≠ (y, x) := fun h => hpn (h ▸ hp)
        rw [if_neg hne, if_neg hne]
      refine ⟨fun p => if p = (y, x) then st.core.model else bm p, fun p => if p = (y, x) then j else jj p,
        fun p => if p = (y, x) then r.2.1 else md p,
        ⟨c', fun y' x' => if y' = y ∧ x' = x then newAd rd P.c.n (st.ad y x) r.2.1 (decide (r.1 < P.c.req)) else st.ad y' x', r.2.2.1, r.2.2.2⟩,
        ?_, ?_, ?_, ?_, ?_, ?_⟩
      · unfold pixels
        rw [List.foldlM_append]
        change (pixels rd K P rnd s f pre).bind _ = _
        rw [I.run]
        simp only [Option.bind_some, List.foldlM_cons, List.foldlM_nil]
        rw [e]
        rfl
      · intro y' x'
        dsimp only
        split
        · unfold newAd
          by_cases hfg : r.1 < P.c.req
          · rw [decide_eq_true hfg, if_pos rfl]; exact ok_up H hP.n0 hP.nle (I.ok y x) ⟨md0, h5⟩
          · rw [decide_eq_false hfg, if_neg Bool.false_ne_true]; exact ok_down H hP.n0 hP.nle (I.ok y x) ⟨md0, h5⟩
        · exact I.ok y' x'
      · intro y' x' hn
        dsimp only
        rw [if_neg (fun h => hn (by rw [h.1, h.2]; simp))]
        exact I.same y' x' (fun h => hn (by simp [h]))
      · dsimp only
        rw [h8, I.tot, List.flatMap_append, List.foldl_append]
        rw [hfm (fun p b t => rejected (fun i => sumDist rd K s.mean (f.img p.1 p.2) (b i p.1 p.2)) (fun i => K.grd (f.img p.1 p.2) (b i p.1 p.2))
          (curThr rd P (s.ad p.1 p.2)) t)]
        simp only [List.flatMap_singleton, if_true, rejected, hsame]
      · dsimp only
        rw [h7, I.bad, List.flatMap_append, List.length_append]
        rw [hfm (fun p b t => rejected (fun i => sumDist rd K s.mean (f.img p.1 p.2) (b i p.1 p.2)) (fun i => K.grd (f.img p.1 p.2) (b i p.1 p.2))
          (curThr rd P (s.ad p.1 p.2)) t)]
        simp only [List.flatMap_singleton, if_true, rejected, hsame, List.length_map]
        omega
      · intro pre' y' x' post' hsp
        rcases List.eq_nil_or_concat post' with rfl | ⟨post'', q, rfl⟩
        · have := List.append_inj' hsp (by simp)
          obtain ⟨rfl, hq⟩ := this
          simp only [List.cons.injEq, Prod.mk.injEq, and_true] at hq
          obtain ⟨rfl, rfl⟩ := hq
          simp only [if_true, and_self]
          refine ⟨⟨st, I.run, rfl⟩, ⟨hj, ?_, ?_, ?_, ?_⟩, ?_⟩
          · intro i hi; rw [← hsame]; exact h9 i hi
          · rcases h3 with h3 | h3
            · exact Or.inl h3
            · right; rw [← hsame]; exact h1.symm.trans h3
          · rw [← hsame]; exact h4
          · rw [← hsame]; exact h6
          · rw [hsame]
            simp only [hcnt]
        · have hsp' : pre ++ [(y, x)] = (pre' ++ (y', x') :: post'') ++ [q] := by rw [hsp]; simp
          have := List.append_inj' hsp' (by simp)
          obtain ⟨h10, hq⟩ := this
          have hne : (y', x') ≠ (y, x) := fun h => hpn (by rw [h10, h]; simp)
          have hne' : ¬ (y' = y ∧ x' = x) := fun h => hne (by rw [h.1, h.2])
          simp only [if_neg hne, if_neg hne']
          exact I.each pre' y' x' post'' h10
  obtain ⟨bm, jj, md, st, I⟩ := key (raster P.c.h P.c.w) ⟨[], by simp⟩
  exact ⟨bm, jj, md, st, I⟩

theorem init_spec (H : Rounds rd) (hP : P.Valid rd) (zero : V) {mean : ℚ} (hm : 20 ≤ mean) (img : Nat → Nat → V) :
    ∃ s, init P zero rnd mean img = some s ∧ HistOk rd P s ∧ initModel P.c zero rnd img = some (s.model, s.k) ∧ s.masks = [] := by
  obtain ⟨m, e, -⟩ := initModel_spec P.c hP.b0 hP.h0 hP.w0 zero rnd img
  unfold init
  rw [e]
  exact ⟨_, rfl, ⟨fun _ _ => ok_init H hP.rrep, hm⟩, rfl, rfl⟩

end

end Litiv.Pbas
