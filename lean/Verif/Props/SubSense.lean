import Verif.Lemmas.SubSenseHist
import Verif.Props.Lobster

/-!
# Properties C87, C88, C89: SuBSENSE

Histories: initialization, then any sequence of frames, model refreshes and changes of the automatic reset setting, with an
arbitrary stream of random numbers and an arbitrary mask post-processing `post`. `px` is the list of relevant pixels
(`Lobster.pixels_ok` shows that the list computed by the library satisfies `Setup`). `kind1` and `kind3` are the
single-channel and three-channel versions of the algorithm; `float32` is the rounding of `float` operations.
-/

namespace Litiv.SubSense
open Consensus Consensus.Spec BgUtils IEEE Spec

variable {I V : Type}

/-! ## C87: the adaptive values -/

theorem ranges {rd : ℚ → ℚ} (H : Rounds rd) (K : Kind I V) (hK : KindOk K) (P : Par) (px : List (Nat × Nat)) (hS : Setup P px)
    (rnd : Nat → Nat) (post : Gray → Gray) (zero : V) (last : Nat → Nat → V) (lut : BitVec 8 → BitVec 8) (ops : List (Op I))
    (hops : ∀ i ∈ frames ops, Callable P i) :
    (∃ st, session rd K P rnd px post zero last lut ops = .ok st ∧ (∀ y x, InRange (rd (1 / 10)) (st.fb y x)) ∧
      1 ≤ st.lower ∧ st.lower ≤ st.upper ∧ st.upper ≤ 512) ∨
    (session rd K P rnd px post zero last lut ops = .error .distShift ∧ 3000 < (frames ops).length) ∨
    (session rd K P rnd px post zero last lut ops = .error .capShift ∧ P.scaling = true) := by
  rcases history_inv H K hK P px hS rnd post zero last lut ops hops with ⟨st, e, h⟩ | ⟨e, h, ⟨rfl, h2⟩ | ⟨rfl, h2⟩⟩
  · exact Or.inl ⟨st, e, fun y x => fbOk_inRange.1 (h.ready.fb y x), h.ready.lower, h.ready.le, h.ready.upper⟩
  · exact Or.inr (Or.inl ⟨h, h2⟩)
  · exact Or.inr (Or.inr ⟨h, h2⟩)

/-- C87, single channel, `float` arithmetic: after any history every adaptive value of every pixel is in its range (learning
rate between 1 and 512, distance factor at least 1, variation factor at least 0.1, averages between 0 and 1) and the caps are
ordered; no access is out of range, no modulo by zero. Missing from the full property: the call may instead run into one of two
undefined shifts, the first only after more than 3000 frames, the second only when the frame-level analysis is on (it does
happen: `cap_shift_refuted`). -/
theorem ranges1_partial (impl : LBSP.Impl) (P : Par) (px : List (Nat × Nat)) (hS : Setup P px) (rnd : Nat → Nat) (post : Gray → Gray)
    (zero : Lobster.Px) (last : Nat → Nat → Lobster.Px) (lut : BitVec 8 → BitVec 8) (ops : List (Op Gray)) (hops : ∀ i ∈ frames ops, Callable P i) :
    (∃ st, session float32 (kind1 impl) P rnd px post zero last lut ops = .ok st ∧ (∀ y x, InRange (float32 (1 / 10)) (st.fb y x)) ∧
      1 ≤ st.lower ∧ st.lower ≤ st.upper ∧ st.upper ≤ 512) ∨
    (session float32 (kind1 impl) P rnd px post zero last lut ops = .error .distShift ∧ 3000 < (frames ops).length) ∨
    (session float32 (kind1 impl) P rnd px post zero last lut ops = .error .capShift ∧ P.scaling = true) :=
  ranges float32_rounds (kind1 impl) (kind1_ok impl) P px hS rnd post zero last lut ops hops

/-- C87, three channels. -/
theorem ranges3_partial (impl : LBSP.Impl) (P : Par) (px : List (Nat × Nat)) (hS : Setup P px) (rnd : Nat → Nat) (post : Gray → Gray)
    (zero : Fin 3 → Lobster.Px) (last : Nat → Nat → Fin 3 → Lobster.Px) (lut : BitVec 8 → BitVec 8) (ops : List (Op (Fin 3 → Gray)))
    (hops : ∀ i ∈ frames ops, Callable P i) :
    (∃ st, session float32 (kind3 impl) P rnd px post zero last lut ops = .ok st ∧ (∀ y x, InRange (float32 (1 / 10)) (st.fb y x)) ∧
      1 ≤ st.lower ∧ st.lower ≤ st.upper ∧ st.upper ≤ 512) ∨
    (session float32 (kind3 impl) P rnd px post zero last lut ops = .error .distShift ∧ 3000 < (frames ops).length) ∨
    (session float32 (kind3 impl) P rnd px post zero last lut ops = .error .capShift ∧ P.scaling = true) :=
  ranges float32_rounds (kind3 impl) (kind3_ok impl) P px hS rnd post zero last lut ops hops

/-- A 5x6 image with two relevant pixels satisfies the hypotheses, and two frames are processed. -/
def demoPar : Par := ⟨⟨5, 6, 3, 2, 2⟩, 30, 3, 4, true, false, 0, fun _ => 1, 85⟩

theorem demo_setup : Setup demoPar [(2, 2), (2, 3)] :=
  ⟨by decide, by decide, by decide, by decide, by unfold Inner demoPar; decide, by decide⟩

/-- The demo history: a frame showing something else in one of the pixels, a refresh, and another frame. -/
def demoOps : List (Op Gray) :=
  [.frame ⟨fun _ x => if x = 3 then 200 else 100, [], none⟩, .refresh none true, .frame ⟨fun _ x => if x = 2 then 90 else 100, [], some 16⟩]

theorem demo_callable : ∀ i ∈ frames demoOps, Callable demoPar i := by
  intro i hi
  have h : frames demoOps = [⟨fun _ x => if x = 3 then 200 else 100, [], none⟩, ⟨fun _ x => if x = 2 then 90 else 100, [], some 16⟩] := rfl
  rw [h] at hi
  simp only [List.mem_cons, List.not_mem_nil, or_false] at hi
  rcases hi with rfl | rfl
  · exact ⟨fun n h => absurd h (by simp), fun h => absurd h (by decide)⟩
  · exact ⟨fun n h => by injection h with h; omega, fun h => absurd h (by decide)⟩

/-- What the demo history gives: raw mask, rates and distance factors of the two pixels. -/
def demoView : Except Fail (St Lobster.Px) → Option (BitVec 8 × BitVec 8 × ℚ × ℚ)
  | .error _ => none
  | .ok st => some (st.lastRaw 2 2, st.lastRaw 2 3, (st.fb 2 3).T, (st.fb 2 3).dST)

example : demoView (session float32 (kind1 .scalar) demoPar (fun k => 7 * k) [(2, 2), (2, 3)] id (0, 0) (fun _ _ => (100, 0)) (fun _ => 30) (demoOps.take 1)) =
    some (0, 255, 4, 1) := by decide +kernel

/-- C87: small images and frame-by-frame use without the frame-level analysis never fail over the first 3000 frames. -/
theorem small_images (impl : LBSP.Impl) (P : Par) (px : List (Nat × Nat)) (hS : Setup P px) (hs : P.scaling = false) (rnd : Nat → Nat)
    (post : Gray → Gray) (zero : Lobster.Px) (last : Nat → Nat → Lobster.Px) (lut : BitVec 8 → BitVec 8) (ops : List (Op Gray))
    (hops : ∀ i ∈ frames ops, Callable P i) (hlen : (frames ops).length ≤ 3000) :
    ∃ st, session float32 (kind1 impl) P rnd px post zero last lut ops = .ok st := by
  rcases ranges1_partial impl P px hS rnd post zero last lut ops hops with ⟨st, e, -⟩ | ⟨-, h⟩ | ⟨-, h⟩
  · exact ⟨st, e⟩
  · omega
  · rw [hs] at h; exact absurd h (by simp)

/-- Reachable states satisfy the invariant. -/
theorem reach {rd : ℚ → ℚ} (H : Rounds rd) (K : Kind I V) (hK : KindOk K) (P : Par) (px : List (Nat × Nat)) (hS : Setup P px)
    (rnd : Nat → Nat) (post : Gray → Gray) (zero : V) (last : Nat → Nat → V) (lut : BitVec 8 → BitVec 8) (ops : List (Op I))
    (hops : ∀ i ∈ frames ops, Callable P i) (st : St V) (h : session rd K P rnd px post zero last lut ops = .ok st) :
    HInv rd K P px lut last ops st := by
  rcases history_inv H K hK P px hS rnd post zero last lut ops hops with ⟨st', e, hI⟩ | ⟨e, he, -⟩
  · rw [h] at e; injection e with e; subst e; exact hI
  · rw [h] at he; exact absurd he (by simp)

theorem applied {rd : ℚ → ℚ} (H : Rounds rd) (K : Kind I V) (hK : KindOk K) (P : Par) (px : List (Nat × Nat)) (hS : Setup P px)
    (rnd : Nat → Nat) (post : Gray → Gray) (st : St V) (i : Input I) (hc : Callable P i) (hR : Ready rd P st) (st' : St V)
    (h : apply rd K P rnd px post st i = .ok st') :
    ∃ l st1 fLT fST, Applied rd K P rnd px post st i st' l st1 fLT fST ∧ Ready rd P st' := by
  rcases apply_spec H K hK P px hS rnd post st i hc hR with ⟨st2, l, st1, fLT, fST, e, hA, hR'⟩ | ⟨e, -⟩ | ⟨e, -⟩
  · rw [h] at e; injection e with e; subst e; exact ⟨l, st1, fLT, fST, hA, hR'⟩
  · rw [h] at e; exact absurd e (by simp)
  · rw [h] at e; exact absurd e (by simp)

/-- C87: a frame leaves the learning rate of every relevant pixel between the caps in force, unless the model was reset, which
sets it to 1. -/
theorem rate_clamped {rd : ℚ → ℚ} (H : Rounds rd) (K : Kind I V) (hK : KindOk K) (P : Par) (px : List (Nat × Nat)) (hS : Setup P px)
    (rnd : Nat → Nat) (post : Gray → Gray) (zero : V) (last : Nat → Nat → V) (lut : BitVec 8 → BitVec 8) (ops : List (Op I))
    (hops : ∀ i ∈ frames ops, Callable P i) (st : St V) (h : session rd K P rnd px post zero last lut ops = .ok st)
    (i : Input I) (hc : Callable P i) (st' : St V) (h' : apply rd K P rnd px post st i = .ok st') :
    (∀ p ∈ px, st.lower ≤ (st'.fb p.1 p.2).T ∧ (st'.fb p.1 p.2).T ≤ st.upper) ∨
    (P.scaling = true ∧ st.autoReset = true ∧ st.cooldown = 0 ∧ ∀ y x, (st'.fb y x).T = 1) := by
  have hI := reach H K hK P px hS rnd post zero last lut ops hops st h
  obtain ⟨l, st1, fLT, fST, hA, -⟩ := applied H K hK P px hS rnd post st i hc hI.ready st' h'
  obtain ⟨-, -, -, -, -, hF, -, rfl, hl⟩ := hA
  rcases hl.effect with ⟨-, -, hf, -⟩ | ⟨h1, h2, h3, -, -, -, hf⟩
  · left
    intro p hp
    rw [hf]
    exact hF.fbNew p hp
  · right
    exact ⟨h1, h2, h3, fun y x => by rw [hf]⟩

/-- C87: the direction of the adaptation, for values that are results of `float` operations: the learning rate does not
decrease on a pixel that was foreground or is an unexplained foreground, and does not increase otherwise; the distance factor
does not decrease while it is below the square of one plus twice the distance average and does not increase otherwise; the
variation factor grows by one on blinking unstable pixels and does not grow otherwise. -/
theorem directions {rd : ℚ → ℚ} (H : Rounds rd) (lower upper : ℚ) (lastFG fg blink : Bool) (b : Fb) (hb : InRange (rd (1 / 10)) b)
    (hT : lower ≤ b.T ∧ b.T ≤ upper) (hrep : rd b.T = b.T ∧ rd b.R = b.R ∧ rd b.v = b.v) :
    (lastFG = true ∨ (min b.dLT b.dST < rd (1 / 10) ∧ fg = true) → b.T ≤ (feedback rd lower upper lastFG fg blink b).T) ∧
    (¬ (lastFG = true ∨ (min b.dLT b.dST < rd (1 / 10) ∧ fg = true)) → (feedback rd lower upper lastFG fg blink b).T ≤ b.T) ∧
    (rd (1 / 10) < max b.dLT b.dST ∧ blink = true → (feedback rd lower upper lastFG fg blink b).v = rd (b.v + 1)) ∧
    (¬ (rd (1 / 10) < max b.dLT b.dST ∧ blink = true) → (feedback rd lower upper lastFG fg blink b).v ≤ b.v) ∧
    (b.R < (rd (1 + rd (min b.dLT b.dST * 2))) ^ 2 → b.R ≤ (feedback rd lower upper lastFG fg blink b).R) ∧
    ((rd (1 + rd (min b.dLT b.dST * 2))) ^ 2 ≤ b.R → (feedback rd lower upper lastFG fg blink b).R ≤ b.R) := by
  have hok := fbOk_inRange.2 hb
  have hv0 : 0 < b.v := lt_of_lt_of_le (vDecr_pos H) hok.var
  have hmx : 0 ≤ max b.dLT b.dST := le_max_of_le_left hok.dLT.1
  have hc : ∀ t, b.T ≤ t → b.T ≤ clampRate lower upper (.fin t) := fun t ht => by
    simp only [clampRate]; split
    · linarith
    · split <;> linarith
  have hc2 : ∀ t, t ≤ b.T → clampRate lower upper (.fin t) ≤ b.T := fun t ht => by
    simp only [clampRate]; split
    · linarith
    · split <;> linarith
  have hup : (lastFG || (decide (min b.dLT b.dST < (consts rd).ratioMin) && fg)) = true ↔ (lastFG = true ∨ (min b.dLT b.dST < rd (1 / 10) ∧ fg = true)) := by
    simp [consts]
  refine ⟨fun h => ?_, fun h => ?_, fun h => ?_, fun h => ?_, fun h => ?_, fun h => ?_⟩
  · show b.T ≤ clampRate lower upper (stepRate rd lower upper _ _ _ _)
    rw [hup.2 h]
    unfold stepRate
    rw [if_pos rfl]
    split
    · split
      · exact hT.2
      · refine hc _ ?_
        have h0 : 0 ≤ rd (1 / 2 / rd (max b.dLT b.dST * b.v)) := rd_nonneg H (div_nonneg (by norm_num) (rd_nonneg H (mul_nonneg hmx hv0.le)))
        have := H.mono b.T (b.T + rd (1 / 2 / rd (max b.dLT b.dST * b.v))) (by linarith)
        rwa [hrep.1] at this
    · exact hc _ le_rfl
  · show clampRate lower upper (stepRate rd lower upper _ _ _ _) ≤ b.T
    have hf : (lastFG || (decide (min b.dLT b.dST < (consts rd).ratioMin) && fg)) = false := by
      rw [← Bool.not_eq_true]; exact fun e => h (hup.1 e)
    rw [hf]
    unfold stepRate
    rw [if_neg (by simp)]
    split
    · split
      · exact hT.1
      · refine hc2 _ ?_
        have h0 : 0 ≤ rd (rd (1 / 4 * b.v) / max b.dLT b.dST) := rd_nonneg H (div_nonneg (rd_nonneg H (by linarith)) hmx)
        have := H.mono (b.T - rd (rd (1 / 4 * b.v) / max b.dLT b.dST)) b.T (by linarith)
        rwa [hrep.1] at this
    · exact hc2 _ le_rfl
  · show stepVar rd _ _ _ _ _ = _
    unfold stepVar
    exact if_pos h
  · show stepVar rd _ _ _ _ _ ≤ _
    unfold stepVar
    rw [if_neg (show ¬ ((consts rd).ratioMin < max b.dLT b.dST ∧ blink = true) from h)]
    split
    · have hd0 := dec_nonneg H lastFG b.unstable
      generalize (if lastFG then rd ((consts rd).vDecr / 4) else if b.unstable then rd ((consts rd).vDecr / 2) else (consts rd).vDecr) = d at hd0 ⊢
      split
      · exact hok.var
      · have := H.mono (b.v - d) b.v (by linarith)
        rwa [hrep.2.2] at this
    · exact le_rfl
  · show _ ≤ stepDist rd _ _ _
    unfold stepDist
    rw [if_pos h]
    have h0 : 0 ≤ rd ((consts rd).rVar * rd (stepVar rd (max b.dLT b.dST) b.v blink lastFG b.unstable - (consts rd).vDecr)) :=
      rd_nonneg H (mul_nonneg (rVar_nonneg H) (rd_nonneg H (by linarith [stepVar_ge H hok.var (mx := max b.dLT b.dST) blink lastFG b.unstable])))
    have := H.mono b.R (b.R + rd ((consts rd).rVar * rd (stepVar rd (max b.dLT b.dST) b.v blink lastFG b.unstable - (consts rd).vDecr))) (by linarith)
    rwa [hrep.2.1] at this
  · show stepDist rd _ _ _ ≤ _
    unfold stepDist
    rw [if_neg (not_lt.2 h)]
    have hv' := stepVar_ge H hok.var (mx := max b.dLT b.dST) blink lastFG b.unstable
    have h0 : 0 ≤ rd ((consts rd).rVar / stepVar rd (max b.dLT b.dST) b.v blink lastFG b.unstable) :=
      rd_nonneg H (div_nonneg (rVar_nonneg H) (le_trans (vDecr_pos H).le hv'))
    split
    · exact hok.dist
    · have := H.mono (b.R - rd ((consts rd).rVar / stepVar rd (max b.dLT b.dST) b.v blink lastFG b.unstable)) b.R (by linarith)
      rwa [hrep.2.1] at this

example : ((feedback float32 4 512 true true false { Fb.init 4 with dLT := 1, dST := 1 }).T, (feedback float32 4 512 false true false { Fb.init 4 with T := 6, dLT := 1, dST := 1 }).T,
    (feedback float32 4 512 true true true { Fb.init 4 with dLT := 1, dST := 1 }).v) = (float32 (4 + float32 (1 / 20)), 4, 11) := by decide +kernel

/-- C87: a larger distance factor gives thresholds that are at least as large. -/
theorem thresholds_mono {rd : ℚ → ℚ} (H : Rounds rd) (minCol descOff : Nat) (b b' : Fb) (hR : b.R ≤ b'.R) (hu : b.unstable = b'.unstable)
    (c c' d d' : Nat) (hc : colThr rd minCol b = .ok c) (hc' : colThr rd minCol b' = .ok c') (hd : descThr rd descOff b = .ok d)
    (hd' : descThr rd descOff b' = .ok d') : c ≤ c' ∧ d ≤ d' := by
  constructor
  · unfold colThr at hc hc'
    rw [← hu] at hc'
    generalize (if b.unstable = true then (0 : ℚ) else ((minCol / 5 : Nat) : ℚ)) = w at hc hc'
    split at hc
    · exact absurd hc (by simp)
    split at hc'
    · exact absurd hc' (by simp)
    injection hc with hc
    injection hc' with hc'
    rw [← hc, ← hc']
    refine Int.toNat_le_toNat (Int.floor_le_floor (H.mono _ _ (sub_le_sub_right (H.mono _ _ ?_) _)))
    exact mul_le_mul_of_nonneg_right hR (rd_nonneg H (by positivity))
  · unfold descThr at hd hd'
    split at hd
    · exact absurd hd (by simp)
    split at hd'
    · exact absurd hd' (by simp)
    injection hd with hd
    injection hd' with hd'
    rw [← hd, ← hd', hu]
    have : ⌊rd (b.R + 1 / 2)⌋.toNat ≤ ⌊rd (b'.R + 1 / 2)⌋.toNat := Int.toNat_le_toNat (Int.floor_le_floor (H.mono _ _ (by linarith)))
    have := Nat.pow_le_pow_right (show 0 < 2 by norm_num) this
    omega

example : (colThr float32 30 (Fb.init 4) = .ok 24 ∧ descThr float32 3 (Fb.init 4) = .ok 5) ∧
    colThr float32 30 { Fb.init 4 with R := 5 / 2, unstable := true } = .ok 75 ∧ descThr float32 3 { Fb.init 4 with R := 5 / 2, unstable := true } = .ok 14 := by
  unfold colThr descThr
  decide +kernel

/-- C87: the thresholds of whole distance factors: `r` times the minimum colour threshold, less a fifth of it on stable pixels,
and `2^r` plus the descriptor offset, counted twice on unstable pixels. -/
theorem thresholds_whole (minCol descOff r : Nat) (h1 : 1 ≤ r) (h2 : r < 64) (hm : minCol ≤ 255) (b : Fb) (hR : b.R = r) :
    colThr float32 minCol b = .ok (if b.unstable then r * minCol else r * minCol - minCol / 5) ∧
    descThr float32 descOff b = .ok (2 ^ r + if b.unstable then 2 * descOff else descOff) := by
  have H := float32_rounds
  have hle : r * minCol ≤ 64 * 255 := Nat.mul_le_mul h2.le hm
  have hge : minCol ≤ r * minCol := Nat.le_mul_of_pos_left _ h1
  constructor
  · unfold colThr
    have e1 : float32 (b.R * float32 minCol) = ((r * minCol : Nat) : ℚ) := by
      rw [hR, H.nat minCol (by omega), ← Nat.cast_mul, H.nat _ (by omega)]
    have e2 : float32 (if b.unstable then (0 : ℚ) else ((minCol / 5 : Nat) : ℚ)) = ((if b.unstable then 0 else minCol / 5 : Nat) : ℚ) := by
      split
      · rw [← Nat.cast_zero, H.nat 0 (by omega)]
      · exact H.nat _ (by omega)
    have h0 : (0 : ℚ) ≤ ((r * minCol - (if b.unstable then 0 else minCol / 5) : Nat) : ℚ) := by positivity
    rw [e1, e2, ← Nat.cast_sub (by split <;> omega), H.nat _ (by omega), if_neg (by linarith), Int.floor_natCast, Int.toNat_natCast]
    split <;> rfl
  · have e : ∀ n : Fin 64, 1 ≤ n.val → ⌊float32 ((n.val : ℚ) + 1 / 2)⌋ = n.val := by decide +kernel
    have e' := e ⟨r, h2⟩ h1
    unfold descThr
    rw [hR]
    dsimp only at e'
    rw [e', if_neg (by omega), Int.toNat_natCast]
    by_cases hu : b.unstable = true
    · rw [if_pos hu, if_pos hu]
      exact congrArg _ (by omega)
    · rw [if_neg hu, if_neg hu]; rfl

example : colThr float32 30 { Fb.init 4 with R := 2 } = .ok 54 ∧ descThr float32 3 { Fb.init 4 with R := 2 } = .ok 7 := by
  unfold colThr descThr
  decide +kernel

/-- C87: what a frame does to the running averages and the unstable flag of a relevant pixel: the averages move towards a
distance between 0 and 1 (towards 1 or 0 for the label averages) with weight `1/min(n, N)` (a quarter of the window for the
short-term ones) at the `n`th frame; the flag says that the distance factor was above 3 or that the raw label average exceeded the
final label average by more than 10%. -/
theorem pixel_update {rd : ℚ → ℚ} (H : Rounds rd) (K : Kind I V) (hK : KindOk K) (P : Par) (px : List (Nat × Nat)) (hS : Setup P px)
    (rnd : Nat → Nat) (post : Gray → Gray) (zero : V) (last : Nat → Nat → V) (lut : BitVec 8 → BitVec 8) (ops : List (Op I))
    (hops : ∀ i ∈ frames ops, Callable P i) (st : St V) (h : session rd K P rnd px post zero last lut ops = .ok st)
    (i : Input I) (hc : Callable P i) (st' : St V) (h' : apply rd K P rnd px post st i = .ok st') (p : Nat × Nat) (hp : p ∈ px)
    (b b' : Fb) (hb : b = st.fb p.1 p.2) (hb' : b' = st'.fb p.1 p.2) (f g : ℚ)
    (hf : f = rd (1 / (min ((frames ops).length + 1) P.N : Nat))) (hg : g = rd (1 / (min ((frames ops).length + 1) (P.N / 4) : Nat))) :
    (∃ dl d, (0 ≤ dl ∧ dl ≤ 1) ∧ (0 ≤ d ∧ d ≤ 1) ∧ b'.dLast = rd (rd (b.dLast * rd (1 - g)) + rd (dl * g)) ∧
      b'.dLT = rd (rd (b.dLT * rd (1 - f)) + rd (d * f)) ∧ b'.dST = rd (rd (b.dST * rd (1 - g)) + rd (d * g))) ∧
    b'.rawLT = (if st'.lastRaw p.1 p.2 ≠ 0 then rd (rd (b.rawLT * rd (1 - f)) + f) else rd (b.rawLT * rd (1 - f))) ∧
    b'.rawST = (if st'.lastRaw p.1 p.2 ≠ 0 then rd (rd (b.rawST * rd (1 - g)) + g) else rd (b.rawST * rd (1 - g))) ∧
    b'.finLT = rd (b.finLT * rd (1 - f) + ((st'.fg p.1 p.2).toNat / 255 : ℚ) * f) ∧
    b'.finST = rd (b.finST * rd (1 - g) + ((st'.fg p.1 p.2).toNat / 255 : ℚ) * g) ∧
    (b'.unstable = true ↔ 3 < b.R ∨ rd (1 / 10) < rd (b.rawLT - b.finLT) ∨ rd (1 / 10) < rd (b.rawST - b.finST)) := by
  have hI := reach H K hK P px hS rnd post zero last lut ops hops st h
  obtain ⟨l, st1, fLT, fST, hA, -⟩ := applied H K hK P px hS rnd post st i hc hI.ready st' h'
  obtain ⟨-, -, e1, e2, -, hF, -, rfl, hl⟩ := hA
  have hfac : ∀ n q, factor rd n = .ok q → q = rd (1 / (n : Nat)) := by
    intro n q hq
    unfold factor at hq
    split at hq
    · exact absurd hq (by simp)
    · injection hq with hq; exact hq.symm
  rw [hI.idx] at e1 e2
  obtain rfl : f = fLT := hf.trans (hfac _ _ e1).symm
  obtain rfl : g = fST := hg.trans (hfac _ _ e2).symm
  have hraw : st'.lastRaw = l.mask := hl.lastRaw
  have hfg : st'.fg = post l.mask := hl.fg
  obtain ⟨dl, d, h1, h2, hform⟩ := hF.fbForm p hp
  set a := afterLoop rd P px.length f g st l (post l.mask) with ha
  have hsame : b'.dLast = (l.fb p.1 p.2).dLast ∧ b'.dLT = (l.fb p.1 p.2).dLT ∧ b'.dST = (l.fb p.1 p.2).dST ∧ b'.rawLT = (l.fb p.1 p.2).rawLT ∧
      b'.rawST = (l.fb p.1 p.2).rawST ∧ b'.unstable = (l.fb p.1 p.2).unstable ∧
      b'.finLT = rd ((l.fb p.1 p.2).finLT * rd (1 - f) + ((post l.mask p.1 p.2).toNat / 255 : ℚ) * f) ∧
      b'.finST = rd ((l.fb p.1 p.2).finST * rd (1 - g) + ((post l.mask p.1 p.2).toNat / 255 : ℚ) * g) := by
    rcases hl.effect with ⟨-, -, hfb, -⟩ | ⟨-, -, -, -, -, -, hfb⟩
    · rw [hb', hfb]; exact ⟨rfl, rfl, rfl, rfl, rfl, rfl, rfl, rfl⟩
    · rw [hb', hfb]; exact ⟨rfl, rfl, rfl, rfl, rfl, rfl, rfl, rfl⟩
  rw [hform] at hsame
  obtain ⟨g1, g2, g3, g4, g5, g6, g7, g8⟩ := hsame
  rw [hraw, hfg, hb]
  refine ⟨⟨dl, d, h1, h2, g1, g2, g3⟩, ?_, ?_, g7, g8, ?_⟩
  · rw [g4]
    by_cases hz : l.mask p.1 p.2 ≠ 0
    · rw [if_pos hz]; show (if (decide _) = true then _ else _) = _; rw [if_pos (decide_eq_true hz)]
    · rw [if_neg hz]; show (if (decide _) = true then _ else _) = _; rw [if_neg (by simpa using hz)]
  · rw [g5]
    by_cases hz : l.mask p.1 p.2 ≠ 0
    · rw [if_pos hz]; show (if (decide _) = true then _ else _) = _; rw [if_pos (decide_eq_true hz)]
    · rw [if_neg hz]; show (if (decide _) = true then _ else _) = _; rw [if_neg (by simpa using hz)]
  · rw [g6]
    show decide _ = true ↔ _
    rw [decide_eq_true_eq]
    rfl

/-! ## C88: the samples and the masks -/

/-- C88: after any history every sample of every relevant pixel is what was shown at one position at most 3 rows and columns
away, inside the border: by the initial image as recorded at initialization (`last`), or by a processed frame, with a descriptor
computed with one of the threshold tables of the run. -/
theorem samples_shown {rd : ℚ → ℚ} (H : Rounds rd) (K : Kind I V) (hK : KindOk K) (P : Par) (px : List (Nat × Nat)) (hS : Setup P px)
    (rnd : Nat → Nat) (post : Gray → Gray) (zero : V) (last : Nat → Nat → V) (lut : BitVec 8 → BitVec 8) (ops : List (Op I))
    (hops : ∀ i ∈ frames ops, Callable P i) (st : St V) (h : session rd K P rnd px post zero last lut ops = .ok st) :
    (∀ p ∈ px, ∀ s < P.c.n, ∃ q, Inner P.c.b P.c.h P.c.w q ∧ Near 3 p q ∧ Shown K P lut last (frames ops) q (st.model s p.1 p.2)) ∧
    (∀ i rest, frames ops = rest ++ [i] → ∀ p ∈ px, ∃ lut', TableOk P lut lut' ∧ st.last p.1 p.2 = K.obs lut' i.img p.1 p.2) := by
  have hI := reach H K hK P px hS rnd post zero last lut ops hops st h
  exact ⟨hI.samples, hI.lastPx⟩

/-- C88, single channel: the stored colour was the colour of that position in that image and the stored descriptor is the
descriptor of the same image around the same position. -/
theorem samples_shown1 (impl : LBSP.Impl) (P : Par) (px : List (Nat × Nat)) (hS : Setup P px)
    (rnd : Nat → Nat) (post : Gray → Gray) (zero : Lobster.Px) (last : Nat → Nat → Lobster.Px) (lut : BitVec 8 → BitVec 8) (ops : List (Op Gray))
    (hops : ∀ i ∈ frames ops, Callable P i) (st : St Lobster.Px) (h : session float32 (kind1 impl) P rnd px post zero last lut ops = .ok st) :
    ∀ p ∈ px, ∀ s < P.c.n, ∃ q, Inner P.c.b P.c.h P.c.w q ∧ Near 3 p q ∧ (st.model s p.1 p.2 = last q.1 q.2 ∨
      ∃ i ∈ frames ops, ∃ lut', TableOk P lut lut' ∧ (st.model s p.1 p.2).1 = i.img q.1 q.2 ∧
        (st.model s p.1 p.2).2 = LBSP.threshold impl (Lobster.nb i.img q.1 q.2) (i.img q.1 q.2) (lut' (i.img q.1 q.2))) := by
  intro p hp s hs
  obtain ⟨q, h1, h2, h3⟩ := (samples_shown float32_rounds (kind1 impl) (kind1_ok impl) P px hS rnd post zero last lut ops hops st h).1 p hp s hs
  refine ⟨q, h1, h2, ?_⟩
  rcases h3 with h3 | ⟨i, hi, lut', h4, h5⟩
  · exact Or.inl h3
  · exact Or.inr ⟨i, hi, lut', h4, by rw [h5]; exact ⟨rfl, rfl⟩⟩

/-- C88: one frame. The mask before post-processing is 0 outside of the relevant pixels, and at a relevant pixel 255 when fewer
than the required number of samples match (in the model as it stands when the pixel is reached, with the thresholds given by the
pixel's distance factor) and 0 otherwise. A sample changes only to what this frame shows at a relevant pixel at most two rows
and columns away, which is labelled background unless the frame falls in the cooldown after a reset and it is the pixel itself;
or, in a reset, to what is last seen at a position at most 3 away, pixel and position being background in the final mask. -/
theorem frame_effect {rd : ℚ → ℚ} (H : Rounds rd) (K : Kind I V) (hK : KindOk K) (P : Par) (px : List (Nat × Nat)) (hS : Setup P px)
    (rnd : Nat → Nat) (post : Gray → Gray) (zero : V) (last : Nat → Nat → V) (lut : BitVec 8 → BitVec 8) (ops : List (Op I))
    (hops : ∀ i ∈ frames ops, Callable P i) (st : St V) (h : session rd K P rnd px post zero last lut ops = .ok st)
    (i : Input I) (hc : Callable P i) (st' : St V) (h' : apply rd K P rnd px post st i = .ok st') :
    (∀ y x, (y, x) ∉ px → st'.lastRaw y x = 0) ∧ st'.fg = post st'.lastRaw ∧
    (∃ fLT fST, ∀ pre p rest, px = pre ++ p :: rest → ∃ before col desc, pixels rd K P rnd pre st i fLT fST = .ok before ∧
      colThr rd P.minCol (st.fb p.1 p.2) = .ok col ∧ descThr rd P.descOff (st.fb p.1 p.2) = .ok desc ∧
      st'.lastRaw p.1 p.2 =
        if count P.c.n (fun s => (K.test st.lut i.img p.1 p.2 col desc (before.model s p.1 p.2)).isSome) < P.c.req then 255 else 0) ∧
    (∀ p ∈ px, st'.last p.1 p.2 = K.obs st.lut i.img p.1 p.2) ∧
    (∀ s y x, st'.model s y x ≠ st.model s y x →
      (∃ p ∈ px, Near 2 (y, x) p ∧ Inner P.c.b P.c.h P.c.w (y, x) ∧ st'.model s y x = K.obs st.lut i.img p.1 p.2 ∧
        (st'.lastRaw p.1 p.2 = 0 ∨ (st.cooldown ≠ 0 ∧ p = (y, x)))) ∨
      (P.scaling = true ∧ st.autoReset = true ∧ st.cooldown = 0 ∧ (y, x) ∈ px ∧ st'.fg y x = 0 ∧
        ∃ q, Inner P.c.b P.c.h P.c.w q ∧ Near 3 (y, x) q ∧ st'.fg q.1 q.2 = 0 ∧ st'.model s y x = st'.last q.1 q.2)) := by
  have hI := reach H K hK P px hS rnd post zero last lut ops hops st h
  obtain ⟨l, st1, fLT, fST, hA, -⟩ := applied H K hK P px hS rnd post st i hc hI.ready st' h'
  obtain ⟨-, -, -, -, -, hF, hM, rfl, hl⟩ := hA
  have hraw : st'.lastRaw = l.mask := hl.lastRaw
  have hfg : st'.fg = post l.mask := hl.fg
  have hlast : st'.last = l.last := hl.last
  rw [hraw, hfg, hlast]
  refine ⟨hF.maskOld, rfl, ⟨fLT, fST, hM⟩, hF.lastNew, fun s y x hne => ?_⟩
  have hloop : l.model s y x ≠ st.model s y x → (∃ p ∈ px, Near 2 (y, x) p ∧ Inner P.c.b P.c.h P.c.w (y, x) ∧
      l.model s y x = K.obs st.lut i.img p.1 p.2 ∧ (l.mask p.1 p.2 = 0 ∨ (st.cooldown ≠ 0 ∧ p = (y, x)))) := by
    intro hne'
    rcases hF.samples s y x with g | ⟨p, hp, g1, g2, g3, g4⟩
    · exact absurd g hne'
    · refine ⟨p, hp, g2, g1, g3, ?_⟩
      rcases g4 with g4 | ⟨g4, g5⟩
      · exact Or.inl g4
      · exact Or.inr ⟨g4, g5.symm⟩
  rcases hl.effect with ⟨hm, -⟩ | ⟨h1, h2, h3, -, -, hm, -⟩
  · left
    rw [hm] at hne ⊢
    exact hloop hne
  · rcases hm s y x with g | ⟨g1, g2, q, g3, g4, g5, g6⟩
    · left
      rw [g] at hne ⊢
      exact hloop hne
    · right
      exact ⟨h1, h2, h3, g1, (show (afterLoop rd P px.length fLT fST st l (post l.mask)).fg y x = 0 by simpa using g2), q, g3, g4,
        (show (afterLoop rd P px.length fLT fST st l (post l.mask)).fg q.1 q.2 = 0 by simpa using g5), g6⟩

/-- Mean number of differing bits of the stored descriptor and the descriptors of the input around the pixel, computed with the
input's colour and with the stored colour as reference. -/
def meanDesc (impl : LBSP.Impl) (lut : BitVec 8 → BitVec 8) (img : Gray) (y x : Nat) (v : Lobster.Px) : Nat :=
  (Bits.Spec.differing (LBSP.threshold impl (Lobster.nb img y x) (img y x) (lut (img y x))) v.2 +
    Bits.Spec.differing (LBSP.threshold impl (Lobster.nb img y x) v.1 (lut v.1)) v.2) / 2

theorem descDist_eq (impl : LBSP.Impl) (lut : BitVec 8 → BitVec 8) (img : Gray) (y x : Nat) (v : Lobster.Px) :
    descDist impl lut img y x v = meanDesc impl lut img y x v := by
  have h : ∀ a b : BitVec 16, (Bits.hdist 64 (n := 2) a b).toNat = Bits.Spec.differing (w := 16) a b := fun a b => Bits.hdist_spec 64 (n := 2) a b (by decide)
  unfold descDist meanDesc
  rw [h, h]
  rfl

theorem colDist_eq (img : Gray) (y x : Nat) (v : Lobster.Px) : colDist img y x v = (((img y x).toNat : Int) - v.1.toNat).natAbs := by
  unfold colDist
  rw [Bits.l1distU_eq, Bits.Spec.dist]
  omega

/-- C88, single-channel matching: the colour difference is within half the colour threshold, the descriptor distance within its
threshold, and so is the combination of both. -/
theorem matched1 (impl : LBSP.Impl) (lut : BitVec 8 → BitVec 8) (img : Gray) (y x col desc : Nat) (v : Lobster.Px) :
    ((kind1 impl).test lut img y x col desc v).isSome = true ↔
      (((img y x).toNat : Int) - v.1.toNat).natAbs ≤ col / 2 ∧ meanDesc impl lut img y x v ≤ desc ∧
      min (meanDesc impl lut img y x v / 4 * 15 + (((img y x).toNat : Int) - v.1.toNat).natAbs) 255 ≤ col / 2 := by
  unfold kind1
  dsimp only
  rw [descDist_eq, colDist_eq]
  unfold sumDist
  generalize (((img y x).toNat : Int) - v.1.toNat).natAbs = a
  generalize meanDesc impl lut img y x v = b
  have h15 : 255 / 16 = 15 := by norm_num
  rw [h15]
  split
  · exact ⟨fun h => absurd h (by simp), fun h => by omega⟩
  · split
    · exact ⟨fun h => absurd h (by simp), fun h => by omega⟩
    · split
      · exact ⟨fun h => absurd h (by simp), fun h => by omega⟩
      · exact ⟨fun _ => by omega, fun _ => rfl⟩

/-- C88, three-channel matching: in every channel the colour difference and its combination with the descriptor distance are
within one and a half times the colour threshold, and the sums over the channels are within three times the thresholds. -/
theorem matched3 (impl : LBSP.Impl) (lut : BitVec 8 → BitVec 8) (img : Fin 3 → Gray) (y x col desc : Nat) (v : Fin 3 → Lobster.Px)
    (c d s : Fin 3 → Nat) (hc : ∀ ch, c ch = (((img ch y x).toNat : Int) - (v ch).1.toNat).natAbs)
    (hd : ∀ ch, d ch = meanDesc impl lut (img ch) y x (v ch)) (hs : ∀ ch, s ch = min (d ch / 2 * 15 + c ch) 255) :
    ((kind3 impl).test lut img y x col desc v).isSome = true ↔
      (∀ ch, c ch ≤ col * 3 / 2 ∧ s ch ≤ col * 3 / 2) ∧ d 0 + d 1 + d 2 ≤ desc * 3 ∧ s 0 + s 1 + s 2 ≤ col * 3 := by
  have hall : ∀ Q : Fin 3 → Prop, (∀ ch, Q ch) ↔ Q 0 ∧ Q 1 ∧ Q 2 := by
    intro Q
    constructor
    · intro h; exact ⟨h 0, h 1, h 2⟩
    · rintro ⟨a, b, c⟩ ch
      match ch with
      | 0 => exact a
      | 1 => exact b
      | 2 => exact c
  rw [hall]
  unfold kind3
  dsimp only
  have e : (fun ch : Fin 3 => (descDist impl lut (img ch) y x (v ch), colDist (img ch) y x (v ch))) = fun ch => (d ch, c ch) := by
    funext ch
    rw [descDist_eq, colDist_eq, hc, hd]
  have es : ∀ ch, sumDist 2 (d ch) (c ch) = s ch := fun ch => by rw [hs]; rfl
  rw [e]
  simp only [chans, es]
  clear e es hs hc hd
  generalize c 0 = c0; generalize c 1 = c1; generalize c 2 = c2
  generalize d 0 = d0; generalize d 1 = d1; generalize d 2 = d2
  generalize s 0 = s0; generalize s 1 = s1; generalize s 2 = s2
  by_cases h1 : c0 > col * 3 / 2
  · rw [if_pos h1]; exact ⟨fun h => absurd h (by simp), fun h => by omega⟩
  rw [if_neg h1]
  by_cases h2 : s0 > col * 3 / 2
  · rw [if_pos h2]; exact ⟨fun h => absurd h (by simp), fun h => by omega⟩
  rw [if_neg h2]
  by_cases h3 : c1 > col * 3 / 2
  · rw [if_pos h3]; exact ⟨fun h => absurd h (by simp), fun h => by omega⟩
  rw [if_neg h3]
  by_cases h4 : s1 > col * 3 / 2
  · rw [if_pos h4]; exact ⟨fun h => absurd h (by simp), fun h => by omega⟩
  rw [if_neg h4]
  by_cases h5 : c2 > col * 3 / 2
  · rw [if_pos h5]; exact ⟨fun h => absurd h (by simp), fun h => by omega⟩
  rw [if_neg h5]
  by_cases h6 : s2 > col * 3 / 2
  · rw [if_pos h6]; exact ⟨fun h => absurd h (by simp), fun h => by omega⟩
  rw [if_neg h6]
  dsimp only
  by_cases h7 : 0 + d0 + d1 + d2 > desc * 3 ∨ 0 + s0 + s1 + s2 > col * 3
  · rw [if_pos h7]; exact ⟨fun h => absurd h (by simp), fun h => by omega⟩
  · rw [if_neg h7]; exact ⟨fun _ => by omega, fun _ => rfl⟩

example : (((kind1 .scalar).test (fun _ => 30) (fun _ _ => 100) 2 2 24 5 (90, 0)).isSome, ((kind1 .scalar).test (fun _ => 30) (fun _ _ => 100) 2 2 24 5 (87, 0)).isSome) =
    (true, false) := by decide +kernel

/-- C88: what a frame shows at a pixel matches itself, whatever the thresholds. -/
theorem self_match1 (impl : LBSP.Impl) (lut : BitVec 8 → BitVec 8) (img : Gray) (y x col desc : Nat) :
    ((kind1 impl).test lut img y x col desc ((kind1 impl).obs lut img y x)).isSome = true := by
  rw [matched1]
  have h : meanDesc impl lut img y x ((kind1 impl).obs lut img y x) = 0 := by
    unfold meanDesc kind1 Lobster.obs
    dsimp only
    rw [(Bits.differing_eq_zero _ _).2 rfl]
  have h2 : ((kind1 impl).obs lut img y x).1 = img y x := rfl
  rw [h, h2]
  omega

/-- C88: the blink map after two consecutive frames, with a post-processing that gives masks of 0 and 255: the raw label changed
in one of the last two frames, and no pixel of the last two final masks is set within 3 rows and columns. -/
theorem blink_rule {rd : ℚ → ℚ} (H : Rounds rd) (K : Kind I V) (hK : KindOk K) (P : Par) (px : List (Nat × Nat)) (hS : Setup P px)
    (rnd : Nat → Nat) (post : Gray → Gray) (hpost : ∀ m y x, post m y x = 0 ∨ post m y x = 255) (zero : V) (last : Nat → Nat → V)
    (lut : BitVec 8 → BitVec 8) (ops : List (Op I)) (hops : ∀ i ∈ frames ops, Callable P i) (st0 st1 st2 : St V)
    (h : session rd K P rnd px post zero last lut ops = .ok st0)
    (i1 i2 : Input I) (hc1 : Callable P i1) (hc2 : Callable P i2) (h1 : apply rd K P rnd px post st0 i1 = .ok st1)
    (h2 : apply rd K P rnd px post st1 i2 = .ok st2) (y x : Nat) (hyx : InImg P.c.h P.c.w (y, x)) :
    st2.blinks y x ≠ 0 ↔
      (st2.lastRaw y x ≠ st1.lastRaw y x ∨ st1.lastRaw y x ≠ st0.lastRaw y x) ∧
      (¬ ∃ q, InImg P.c.h P.c.w q ∧ Near 3 (y, x) q ∧ st1.fg q.1 q.2 ≠ 0) ∧
      (¬ ∃ q, InImg P.c.h P.c.w q ∧ Near 3 (y, x) q ∧ st2.fg q.1 q.2 ≠ 0) := by
  have hI := reach H K hK P px hS rnd post zero last lut ops hops st0 h
  obtain ⟨l1, s1, a1, b1, hA1, hR1⟩ := applied H K hK P px hS rnd post st0 i1 hc1 hI.ready st1 h1
  obtain ⟨l2, s2, a2, b2, hA2, -⟩ := applied H K hK P px hS rnd post st1 i2 hc2 hR1 st2 h2
  obtain ⟨-, -, -, -, -, hF1, -, rfl, hl1⟩ := hA1
  obtain ⟨-, -, -, -, -, hF2, -, rfl, hl2⟩ := hA2
  have hraw1 : st1.lastRaw = l1.mask := hl1.lastRaw
  have hraw2 : st2.lastRaw = l2.mask := hl2.lastRaw
  have hfg1 : st1.fg = post l1.mask := hl1.fg
  have hfg2 : st2.fg = post l2.mask := hl2.fg
  have hlb1 : st1.lastBlink = fun y x => l1.mask y x ^^^ st0.lastRaw y x := hl1.lastBlink
  have hdi1 : st1.dilInv = inv (dilate P.c.h P.c.w 3 (post l1.mask)) := hl1.dilInv
  have hbl : st2.blinks = blinkMap st1.lastRaw st1.lastBlink st1.dilInv l2.mask (dilate P.c.h P.c.w 3 (post l2.mask)) := hl2.blinks
  rw [hbl, hraw2, hfg1, hfg2, ← dilate_ne P.c.h P.c.w 3 (post l1.mask) y x hyx, ← dilate_ne P.c.h P.c.w 3 (post l2.mask) y x hyx]
  unfold blinkMap
  rw [hlb1, hdi1, hraw1]
  unfold inv
  dsimp only
  have m2 := hF2.maskBin y x
  have m1 := hF1.maskBin y x
  have m0 := hI.rawBin y x
  have d1 := dilate_bin P.c.h P.c.w 3 (post l1.mask) (fun y x _ => hpost _ y x) y x hyx
  have d2 := dilate_bin P.c.h P.c.w 3 (post l2.mask) (fun y x _ => hpost _ y x) y x hyx
  generalize dilate P.c.h P.c.w 3 (post l1.mask) y x = e1 at d1 ⊢
  generalize dilate P.c.h P.c.w 3 (post l2.mask) y x = e2 at d2 ⊢
  generalize l1.mask y x = r1 at m1 ⊢
  generalize l2.mask y x = r2 at m2 ⊢
  generalize st0.lastRaw y x = r0 at m0 ⊢
  rcases m2 with rfl | rfl <;> rcases m1 with rfl | rfl <;> rcases m0 with rfl | rfl <;> rcases d1 with rfl | rfl <;>
    rcases d2 with rfl | rfl <;> decide

/-- C88, refuted part: the distance to the previous frame of a three-channel pixel, used to decide that a region is static, misses
changes: it is computed modulo 256. -/
theorem last_distance_refuted : ¬ ∀ (impl : LBSP.Impl) (a b : Fin 3 → Lobster.Px),
    ((kind3 impl).lastDist a b).1 = (((a 0).1.toNat : Int) - (b 0).1.toNat).natAbs + (((a 1).1.toNat : Int) - (b 1).1.toNat).natAbs +
      (((a 2).1.toNat : Int) - (b 2).1.toNat).natAbs := by
  intro h
  exact absurd (h .scalar (fun _ => (0, 0)) (fun ch => (if ch = 0 then 200 else if ch = 1 then 56 else 0, 0))) (by decide +kernel)

/-- C88, refuted part: right after initialization a sample of a relevant pixel (row 2 or column 2 of the image) can hold a
descriptor that no image showed: the descriptors of the first row and column of the retained ROI are never computed. -/
theorem init_descriptor_refuted :
    ¬ ∀ (img : Gray) (st : St Lobster.Px),
      start demoPar (fun _ => 0) [(2, 2), (2, 3)] (0, 0) (lastInit .scalar (fun _ => 30) 5 6 (fun _ _ => 255) img) (fun _ => 30) = .ok st →
      ∃ q, Inner 2 5 6 q ∧ st.model 0 2 2 = Lobster.obs .scalar (fun _ => 30) img q.1 q.2 := by
  intro h
  have hs : ∃ st, start demoPar (fun _ => 0) [(2, 2), (2, 3)] (0, 0)
      (lastInit .scalar (fun _ => 30) 5 6 (fun _ _ => 255) (fun _ x => if x = 2 then 0 else 200)) (fun _ => 30) = .ok st ∧ st.model 0 2 2 = (0, 0) := by
    unfold start
    have hr : (refreshModel demoPar.c (fun _ => 0) (lastInit .scalar (fun _ => 30) 5 6 (fun _ _ => 255) (fun _ x => if x = 2 then 0 else 200)) (fun _ _ => 0)
        [(2, 2), (2, 3)] none false (fun _ _ _ => (0, 0)) 0).map (fun r => r.1 0 2 2) = some (0, 0) := by decide +kernel
    obtain ⟨r, h1, h2⟩ := Option.map_eq_some_iff.1 hr
    rw [h1]
    exact ⟨_, rfl, h2⟩
  obtain ⟨st, h1, h2⟩ := hs
  obtain ⟨q, ⟨q1, q2, q3, q4⟩, hq⟩ := h _ st h1
  rw [h2] at hq
  obtain ⟨qy, qx⟩ := q
  dsimp only at q1 q2 q3 q4 hq
  obtain rfl : qy = 2 := by omega
  have : qx = 2 ∨ qx = 3 := by omega
  rcases this with rfl | rfl
  · exact absurd hq (by decide +kernel)
  · exact absurd hq (by decide +kernel)

/-! ## C89: the frame-level analysis -/

/-- C89: caps and threshold table over histories. -/
theorem caps_and_table {rd : ℚ → ℚ} (H : Rounds rd) (K : Kind I V) (hK : KindOk K) (P : Par) (px : List (Nat × Nat)) (hS : Setup P px)
    (rnd : Nat → Nat) (post : Gray → Gray) (zero : V) (last : Nat → Nat → V) (lut : BitVec 8 → BitVec 8) (ops : List (Op I))
    (hops : ∀ i ∈ frames ops, Callable P i) (st : St V) (h : session rd K P rnd px post zero last lut ops = .ok st) :
    (P.scaling = true → 1 ≤ st.lower ∧ st.lower ≤ 2 ∧ st.lower ≤ st.upper ∧ st.upper ≤ 256) ∧
    (P.scaling = false → st.lower = 4 ∧ st.upper = 512) ∧ TableOk P lut st.lut ∧ st.cooldown ≤ P.N / 4 ∧
    st.frameIdx = (frames ops).length := by
  have hI := reach H K hK P px hS rnd post zero last lut ops hops st h
  exact ⟨fun hs => ⟨hI.ready.lower, (hI.ready.caps.1 hs).1, hI.ready.le, (hI.ready.caps.1 hs).2⟩, hI.ready.caps.2, hI.lut, hI.cooldown, hI.idx⟩

/-- C89: a frame moves every entry of the threshold table by at most one: down when in both of the last two frames less than 10%
of the relevant pixels had a textured descriptor, up when more than half had in both, and not otherwise. -/
theorem table_step {rd : ℚ → ℚ} (H : Rounds rd) (K : Kind I V) (hK : KindOk K) (P : Par) (px : List (Nat × Nat)) (hS : Setup P px)
    (rnd : Nat → Nat) (post : Gray → Gray) (zero : V) (last : Nat → Nat → V) (lut : BitVec 8 → BitVec 8) (ops : List (Op I))
    (hops : ∀ i ∈ frames ops, Callable P i) (st : St V) (h : session rd K P rnd px post zero last lut ops = .ok st)
    (i : Input I) (hc : Callable P i) (st' : St V) (h' : apply rd K P rnd px post st i = .ok st') :
    st'.lastRatio = rd (rd ((px.filter fun p => K.textured (K.obs st.lut i.img p.1 p.2)).length : Nat) / rd (px.length : Nat)) ∧
    ∀ t, (st'.lut t).toNat =
      if st'.lastRatio < rd (1 / 10) ∧ st.lastRatio < rd (1 / 10) then
        (if (P.lutLo t).toNat < (st.lut t).toNat then (st.lut t).toNat - 1 else (st.lut t).toNat)
      else if 1 / 2 < st'.lastRatio ∧ 1 / 2 < st.lastRatio then
        (if (st.lut t).toNat < P.lutHi.toNat then (st.lut t).toNat + 1 else (st.lut t).toNat)
      else (st.lut t).toNat := by
  have hI := reach H K hK P px hS rnd post zero last lut ops hops st h
  obtain ⟨l, st1, fLT, fST, hA, -⟩ := applied H K hK P px hS rnd post st i hc hI.ready st' h'
  obtain ⟨-, -, -, -, -, hF, -, rfl, hl⟩ := hA
  have e1 : st'.lastRatio = rd (rd (l.nz : Nat) / rd (px.length : Nat)) := hl.lastRatio
  have e2 : st'.lut = adaptLut rd P (rd (rd (l.nz : Nat) / rd (px.length : Nat))) st.lastRatio st.lut := hl.lut
  rw [hF.nz] at e1 e2
  refine ⟨e1, fun t => ?_⟩
  rw [e2, ← e1]
  unfold adaptLut
  show BitVec.toNat (if st'.lastRatio < rd (1 / 10) ∧ st.lastRatio < rd (1 / 10) then _ else _) = _
  split
  · by_cases hgt : (P.lutLo t).toNat < (st.lut t).toNat
    · rw [if_pos hgt, if_pos (show st.lut t > P.lutLo t from hgt)]
      have := (st.lut t).isLt
      rw [BitVec.toNat_sub, show (1 : BitVec 8).toNat = 1 from rfl]
      omega
    · rw [if_neg hgt, if_neg (show ¬ st.lut t > P.lutLo t from hgt)]
  · split
    · by_cases hlt : (st.lut t).toNat < P.lutHi.toNat
      · rw [if_pos hlt, if_pos (show st.lut t < P.lutHi from hlt)]
        have := P.lutHi.isLt
        rw [BitVec.toNat_add, show (1 : BitVec 8).toNat = 1 from rfl]
        omega
      · rw [if_neg hlt, if_neg (show ¬ st.lut t < P.lutHi from hlt)]
    · rfl

/-- C89: a frame either shortens the cooldown by one, or resets the model, which happens only with the automatic reset on and the
cooldown over, starts a cooldown of a quarter of the averaging window (this frame included) and sets every learning rate to 1. -/
theorem reset_rule {rd : ℚ → ℚ} (H : Rounds rd) (K : Kind I V) (hK : KindOk K) (P : Par) (px : List (Nat × Nat)) (hS : Setup P px)
    (hs : P.scaling = true) (rnd : Nat → Nat) (post : Gray → Gray) (zero : V) (last : Nat → Nat → V) (lut : BitVec 8 → BitVec 8) (ops : List (Op I))
    (hops : ∀ i ∈ frames ops, Callable P i) (st : St V) (h : session rd K P rnd px post zero last lut ops = .ok st)
    (i : Input I) (hc : Callable P i) (st' : St V) (h' : apply rd K P rnd px post st i = .ok st') :
    st'.cooldown = st.cooldown - 1 ∨
    (st.autoReset = true ∧ st.cooldown = 0 ∧ st'.cooldown = P.N / 4 - 1 ∧ st'.sinceReset = 0 ∧ ∀ y x, (st'.fb y x).T = 1) := by
  have hI := reach H K hK P px hS rnd post zero last lut ops hops st h
  obtain ⟨l, st1, fLT, fST, hA, -⟩ := applied H K hK P px hS rnd post st i hc hI.ready st' h'
  obtain ⟨-, -, -, -, -, hF, -, rfl, hl⟩ := hA
  rcases hl.effect with ⟨-, -, -, hcd⟩ | ⟨-, h2, h3, h4, h5, -, hf⟩
  · left
    rw [hcd, if_pos hs]
    rfl
  · right
    exact ⟨h2, h3, h4, h5, fun y x => by rw [hf]⟩

/-- C89: resets are spaced: over as many frames as the cooldown lasts, the cooldown decreases by one per frame and samples only
change to what the processed frame shows at a relevant pixel at most 2 rows and columns away. -/
theorem reset_spacing {rd : ℚ → ℚ} (H : Rounds rd) (K : Kind I V) (hK : KindOk K) (P : Par) (px : List (Nat × Nat)) (hS : Setup P px)
    (hs : P.scaling = true) (rnd : Nat → Nat) (post : Gray → Gray) (zero : V) (last : Nat → Nat → V) (lut : BitVec 8 → BitVec 8) (ops : List (Op I))
    (hops : ∀ i ∈ frames ops, Callable P i) (st : St V) (hst : session rd K P rnd px post zero last lut ops = .ok st) (is : List (Input I))
    (hc : ∀ i ∈ is, Callable P i) (hlen : is.length ≤ st.cooldown) (st' : St V)
    (h : is.foldlM (apply rd K P rnd px post) st = .ok st') :
    st'.cooldown = st.cooldown - is.length ∧ ∀ pre i rest a b, is = pre ++ i :: rest → pre.foldlM (apply rd K P rnd px post) st = .ok a →
      apply rd K P rnd px post a i = .ok b →
      ∀ s y x, b.model s y x ≠ a.model s y x → ∃ p ∈ px, Near 2 (y, x) p ∧ b.model s y x = K.obs a.lut i.img p.1 p.2 := by
  have hR := (reach H K hK P px hS rnd post zero last lut ops hops st hst).ready
  have key : ∀ (js : List (Input I)), (∀ i ∈ js, Callable P i) → js.length ≤ st.cooldown → ∀ a, js.foldlM (apply rd K P rnd px post) st = .ok a →
      a.cooldown = st.cooldown - js.length ∧ Ready rd P a := by
    intro js
    induction js using List.reverseRecOn with
    | nil => intro _ _ a ha; injection ha with ha; subst ha; exact ⟨by simp, hR⟩
    | append_singleton js j ih =>
      intro hcj hl a ha
      rw [List.foldlM_append] at ha
      cases hj : js.foldlM (apply rd K P rnd px post) st with
      | error e => rw [hj] at ha; exact absurd ha (by simp [bind, Except.bind])
      | ok b =>
        rw [hj] at ha
        obtain ⟨h1, h2⟩ := ih (fun i hi => hcj i (by simp [hi])) (by simp at hl; omega) b hj
        have hab : apply rd K P rnd px post b j = .ok a := by
          have e : (List.foldlM (apply rd K P rnd px post) b [j]) = .ok a := ha
          rw [List.foldlM_cons] at e
          cases hx : apply rd K P rnd px post b j with
          | error e' => rw [hx] at e; exact absurd e (by simp [bind, Except.bind])
          | ok c => rw [hx] at e; exact e
        obtain ⟨l, st1, fLT, fST, hA, hRa⟩ := applied H K hK P px hS rnd post b j (hcj j (by simp)) h2 a hab
        obtain ⟨-, -, -, -, -, -, -, rfl, hlv⟩ := hA
        refine ⟨?_, hRa⟩
        rcases hlv.effect with ⟨-, -, -, hcd⟩ | ⟨-, -, hcd, -⟩
        · rw [hcd, if_pos hs]
          show b.cooldown - 1 = _
          rw [h1]; simp; omega
        · have : b.cooldown = 0 := hcd
          simp at hl
          omega
  refine ⟨(key is hc hlen st' h).1, fun pre i rest a b hsp ha hb s y x hne => ?_⟩
  subst hsp
  obtain ⟨k1, k2⟩ := key pre (fun i hi => hc i (by simp [hi])) (by simp at hlen; omega) a ha
  obtain ⟨l, st1, fLT, fST, hA, -⟩ := applied H K hK P px hS rnd post a i (hc i (by simp)) k2 b hb
  obtain ⟨-, -, -, -, -, hF, -, rfl, hlv⟩ := hA
  rcases hlv.effect with ⟨hm, -⟩ | ⟨-, -, hcd, -⟩
  · rw [hm] at hne ⊢
    rcases hF.samples s y x with g | ⟨p, hp, -, g2, g3, -⟩
    · exact absurd g hne
    · exact ⟨p, hp, g2, g3⟩
  · have : a.cooldown = 0 := hcd
    simp at hlen
    omega

/-- C89: the frame-level analysis fails only on strong frame-level changes: with a colour difference ratio below 64 the caps are
computed. -/
theorem caps_defined (P : Par) (ratio : ℚ) (h : ratio < 64) : ∃ lo up, caps P ratio = .ok (lo, up) ∧ 1 ≤ lo ∧ lo ≤ 2 ∧ lo ≤ up ∧ up ≤ 256 := by
  rcases caps_spec P ratio with h' | ⟨-, h'⟩
  · exact h'
  · linarith

example : caps { demoPar with scaling := true } 40 = .ok (1, 1) ∧ caps { demoPar with scaling := true } 9 = .ok (1, 16) ∧ caps { demoPar with scaling := true } 3 = .ok (2, 256) := by
  unfold caps
  decide +kernel

/-! ### Where the frame-level analysis fails -/

/-- The downscaled image of a uniform three-channel image. -/
def uniform (n : Nat) (v : ℚ) : List (List ℚ) := List.replicate n [v, v, v]

theorem accum_uniform (rd : ℚ → ℚ) (f : ℚ) (n : Nat) (a v : ℚ) :
    accum rd f (uniform n a) (uniform n v) = uniform n (rd (rd (v * f) + rd (a * rd (1 - f)))) := by
  unfold accum uniform
  refine List.ext_getElem (by simp) fun i h1 h2 => ?_
  have hi : i < n := by simpa using h2
  rw [List.getElem_mapIdx]
  simp [List.getD_eq_getElem?_getD, hi]

theorem accum_empty (rd : ℚ → ℚ) (h0 : rd 0 = 0) (f : ℚ) (n : Nat) : accum rd f [] (uniform n 0) = uniform n 0 := by
  unfold accum uniform
  refine List.ext_getElem (by simp) fun i h1 h2 => ?_
  rw [List.getElem_mapIdx]
  simp [h0]

/-- What a frame does to the accumulated downscaled images. -/
theorem apply_down {rd : ℚ → ℚ} (K : Kind I V) (P : Par) (hs : P.scaling = true) (rnd : Nat → Nat) (px : List (Nat × Nat))
    (post : Gray → Gray) (st : St V) (i : Input I) (st' : St V) (h : apply rd K P rnd px post st i = .ok st') :
    ∃ fLT fST, factor rd (min (st.frameIdx + 1) P.N) = .ok fLT ∧ factor rd (min (st.frameIdx + 1) (P.N / 4)) = .ok fST ∧
      st'.frameIdx = st.frameIdx + 1 ∧ st'.dsLT = accum rd fLT st.dsLT i.down ∧ st'.dsST = accum rd fST st.dsST i.down ∧
      ∃ c, caps P (diffRatio rd st'.dsST st'.dsLT) = .ok c := by
  unfold apply at h
  split at h
  · rename_i fLT fST e1 e2
    refine ⟨fLT, fST, e1, e2, ?_⟩
    split at h
    · exact absurd h (by simp)
    · rename_i l _
      unfold frameLevel at h
      rw [if_pos hs] at h
      split at h
      · exact absurd h (by simp)
      dsimp only at h
      split at h
      · exact absurd h (by simp)
      rename_i cap hcap
      split at h
      · injection h with h
        subst h
        exact ⟨rfl, rfl, rfl, cap, hcap⟩
      · split at h
        · exact absurd h (by simp)
        · injection h with h
          subst h
          exact ⟨rfl, rfl, rfl, cap, hcap⟩
  · exact absurd h (by simp)
  · exact absurd h (by simp)

/-- One step of the accumulation of a uniform image. -/
def acc1 (f a v : ℚ) : ℚ := float32 (float32 (v * f) + float32 (a * float32 (1 - f)))

def whiteLT (k : Nat) : ℚ := (fun a => acc1 (float32 (1 / 100)) a 255)^[k] 0
def whiteST (k : Nat) : ℚ := (fun a => acc1 (float32 (1 / 25)) a 255)^[k] 0

theorem foldlM_snoc {α β ε : Type} (f : β → α → Except ε β) (b : β) (l : List α) (a : α) (c : β) (h : (l ++ [a]).foldlM f b = .ok c) :
    ∃ d, l.foldlM f b = .ok d ∧ f d a = .ok c := by
  rw [List.foldlM_append] at h
  cases hl : l.foldlM f b with
  | error e => rw [hl] at h; exact absurd h (by simp [bind, Except.bind])
  | ok d =>
    rw [hl] at h
    have e : List.foldlM f d [a] = .ok c := h
    rw [List.foldlM_cons] at e
    cases hx : f d a with
    | error e' => rw [hx] at e; exact absurd e (by simp [bind, Except.bind])
    | ok c' => rw [hx] at e; exact ⟨d, rfl, by rw [hx]; exact e⟩

/-- State of the accumulation after `k` uniform black frames, and after 100 of them and `k` white ones. -/
theorem track (K : Kind I V) (P : Par) (hs : P.scaling = true) (hN : P.N = 100) (rnd : Nat → Nat) (px : List (Nat × Nat)) (post : Gray → Gray)
    (st0 : St V) (h0 : st0.frameIdx = 0 ∧ st0.dsLT = [] ∧ st0.dsST = []) (n : Nat) :
    (∀ fs : List (Input I), 0 < fs.length → fs.length ≤ 100 → (∀ i ∈ fs, i.down = uniform n 0) → ∀ st,
      fs.foldlM (apply float32 K P rnd px post) st0 = .ok st → st.frameIdx = fs.length ∧ st.dsLT = uniform n 0 ∧ st.dsST = uniform n 0) ∧
    (∀ bs ws : List (Input I), bs.length = 100 → (∀ i ∈ bs, i.down = uniform n 0) → (∀ i ∈ ws, i.down = uniform n 255) → ∀ st,
      (bs ++ ws).foldlM (apply float32 K P rnd px post) st0 = .ok st →
      st.frameIdx = 100 + ws.length ∧ st.dsLT = uniform n (whiteLT ws.length) ∧ st.dsST = uniform n (whiteST ws.length)) := by
  have z : float32 0 = 0 := by decide +kernel
  have hb : ∀ fs : List (Input I), 0 < fs.length → fs.length ≤ 100 → (∀ i ∈ fs, i.down = uniform n 0) → ∀ st,
      fs.foldlM (apply float32 K P rnd px post) st0 = .ok st → st.frameIdx = fs.length ∧ st.dsLT = uniform n 0 ∧ st.dsST = uniform n 0 := by
    intro fs
    induction fs using List.reverseRecOn with
    | nil => intro h; exact absurd h (by simp)
    | append_singleton fs i ih =>
      intro _ hl hd st h
      obtain ⟨st1, h1, h2⟩ := foldlM_snoc _ _ _ _ _ h
      obtain ⟨fLT, fST, -, -, e1, e2, e3, -⟩ := apply_down K P hs rnd px post st1 i st h2
      rw [hd i (by simp)] at e2 e3
      by_cases hf : fs = []
      · subst hf
        injection h1 with h1
        subst h1
        rw [h0.2.1, accum_empty _ z] at e2
        rw [h0.2.2, accum_empty _ z] at e3
        exact ⟨by rw [e1, h0.1]; rfl, e2, e3⟩
      · obtain ⟨g1, g2, g3⟩ := ih (List.length_pos_iff.2 hf) (by simp at hl; omega) (fun i hi => hd i (by simp [hi])) st1 h1
        rw [g2, accum_uniform] at e2
        rw [g3, accum_uniform] at e3
        have zz : ∀ f, float32 (float32 (0 * f) + float32 (0 * float32 (1 - f))) = 0 := fun f => by rw [zero_mul, zero_mul, z, add_zero, z]
        rw [zz] at e2 e3
        exact ⟨by rw [e1, g1]; simp, e2, e3⟩
  refine ⟨hb, fun bs ws hbl hbd => ?_⟩
  induction ws using List.reverseRecOn with
  | nil =>
    intro _ st h
    rw [List.append_nil] at h
    obtain ⟨g1, g2, g3⟩ := hb bs (by omega) (by omega) hbd st h
    exact ⟨by rw [g1, hbl]; rfl, g2, g3⟩
  | append_singleton ws i ih =>
    intro hwd st h
    rw [← List.append_assoc] at h
    obtain ⟨st1, h1, h2⟩ := foldlM_snoc _ _ _ _ _ h
    obtain ⟨g1, g2, g3⟩ := ih (fun i hi => hwd i (by simp [hi])) st1 h1
    obtain ⟨fLT, fST, f1, f2, e1, e2, e3, -⟩ := apply_down K P hs rnd px post st1 i st h2
    rw [hwd i (by simp), g2, accum_uniform] at e2
    rw [hwd i (by simp), g3, accum_uniform] at e3
    rw [g1, hN, show min (100 + ws.length + 1) 100 = 100 by omega] at f1
    rw [g1, hN, show min (100 + ws.length + 1) (100 / 4) = 25 by omega] at f2
    have f1' : fLT = float32 (1 / 100) := by unfold factor at f1; rw [if_neg (by norm_num)] at f1; injection f1 with f1; rw [← f1]; norm_num
    have f2' : fST = float32 (1 / 25) := by unfold factor at f2; rw [if_neg (by norm_num)] at f2; injection f2 with f2; rw [← f2]; norm_num
    refine ⟨by rw [e1, g1]; simp; omega, ?_, ?_⟩
    · rw [e2, f1', List.length_append, List.length_singleton, whiteLT, whiteLT, Function.iterate_succ_apply']
      rfl
    · rw [e3, f2', List.length_append, List.length_singleton, whiteST, whiteST, Function.iterate_succ_apply']
      rfl

/-- C87/C89, refuted part: `apply` runs into a shift by 32 or more bits of an `int`. With the default averaging window of 100
frames and a three-channel image for which the frame-level analysis is on (here, images with `n` downscaled pixels, 1200 for
320x240), a uniform black scene of 100 frames that turns white never gets through 11 white frames, whatever the samples, the
regions, the random numbers and the post-processing. -/
theorem cap_shift_refuted (K : Kind I V) (hK : KindOk K) (P : Par) (hs : P.scaling = true) (hN : P.N = 100) (hmin : P.minCol ≤ 255)
    (px : List (Nat × Nat)) (hS : Setup P px) (rnd : Nat → Nat) (post : Gray → Gray) (zero : V) (last : Nat → Nat → V)
    (lut : BitVec 8 → BitVec 8) (n : Nat) (hn : 0 < n) (hn2 : n ≤ 200000) (bs ws : List (Input I)) (hbl : bs.length = 100) (hwl : ws.length = 11)
    (hbd : ∀ i ∈ bs, i.down = uniform n 0) (hwd : ∀ i ∈ ws, i.down = uniform n 255) (hov : ∀ i ∈ bs ++ ws, i.over = none) :
    session float32 K P rnd px post zero last lut ((bs ++ ws).map .frame) = .error .capShift := by
  have hfr : frames ((bs ++ ws).map (.frame : Input I → Op I)) = bs ++ ws := by
    unfold frames
    rw [List.filterMap_map]
    exact List.filterMap_some
  have hne : uniform n 0 ≠ [] ∧ uniform n 255 ≠ [] := by
    unfold uniform
    constructor <;> simp only [ne_eq, List.replicate_eq_nil_iff] <;> omega
  have hcall : ∀ i ∈ frames ((bs ++ ws).map (.frame : Input I → Op I)), Callable P i := by
    rw [hfr]
    intro i hi
    refine ⟨fun m hm => by rw [hov i hi] at hm; exact absurd hm (by simp), fun _ => ?_⟩
    rcases List.mem_append.1 hi with h | h
    · rw [hbd i h]; exact hne.1
    · rw [hwd i h]; exact hne.2
  rcases ranges float32_rounds K hK P px hS rnd post zero last lut _ hcall with ⟨st, e, -⟩ | ⟨-, h⟩ | ⟨h, -⟩
  · exfalso
    unfold session at e
    cases hst : start P rnd px zero last lut with
    | error x => rw [hst] at e; exact absurd e (by simp)
    | ok st0 =>
      rw [hst] at e
      have e' : (bs ++ ws).foldlM (apply float32 K P rnd px post) st0 = .ok st := by
        rw [← e]
        show _ = ((bs ++ ws).map (.frame : Input I → Op I)).foldlM (run1 float32 K P rnd px post) st0
        generalize bs ++ ws = fs
        clear e hst
        induction fs generalizing st0 with
        | nil => rfl
        | cons a fs ih =>
          rw [List.map_cons, List.foldlM_cons, List.foldlM_cons]
          show _ = (apply float32 K P rnd px post st0 a >>= _)
          cases apply float32 K P rnd px post st0 a with
          | error x => rfl
          | ok s => exact ih s
      have h0 : st0.frameIdx = 0 ∧ st0.dsLT = [] ∧ st0.dsST = [] := by
        unfold start at hst
        split at hst
        · exact absurd hst (by simp)
        · injection hst with hst
          subst hst
          exact ⟨rfl, rfl, rfl⟩
      obtain ⟨-, g2, g3⟩ := (track K P hs hN rnd px post st0 h0 n).2 bs ws hbl hbd hwd st e'
      have hws : ws ≠ [] := by intro h; rw [h] at hwl; exact absurd hwl (by simp)
      have hsplit : bs ++ ws = (bs ++ ws.dropLast) ++ [ws.getLast hws] := by
        rw [List.append_assoc, List.dropLast_append_getLast]
      rw [hsplit] at e'
      obtain ⟨st1, -, h2⟩ := foldlM_snoc _ _ _ _ _ e'
      obtain ⟨-, -, -, -, -, -, -, c, hc⟩ := apply_down K P hs rnd px post st1 _ st h2
      rw [g2, g3, hwl] at hc
      have hd : ⌊|float32 (whiteST 11 - whiteLT 11)|⌋.toNat = 65 := by decide +kernel
      have hr : diffRatio float32 (uniform n (whiteST 11)) (uniform n (whiteLT 11)) = 65 := by
        unfold diffRatio uniform
        rw [List.zipWith_replicate, List.sum_replicate, List.length_replicate, min_self]
        show float32 (float32 ((n • (max _ (max _ _)) : Nat) : ℚ) / float32 n) = 65
        rw [hd, max_self, max_self, float32_rounds.nat _ (by simp; omega), float32_rounds.nat _ (by omega)]
        have hq : ((n • 65 : Nat) : ℚ) / (n : ℚ) = (65 : Nat) := by
          have : (n : ℚ) ≠ 0 := by positivity
          rw [smul_eq_mul]
          push_cast
          field_simp
        rw [hq, float32_rounds.nat _ (by norm_num)]
        norm_num
      rw [hr] at hc
      unfold caps at hc
      have hm : ((P.minCol / 2 / 2 : Nat) : ℚ) ≤ 65 := by
        have : P.minCol / 2 / 2 ≤ 65 := by omega
        exact_mod_cast this
      rw [if_pos hm, if_pos (by decide +kernel)] at hc
      exact absurd hc (by simp)
  · rw [hfr] at h
    simp at h
    omega
  · exact h

/-- The hypotheses are met: a 240x320 three-channel setup with the default parameters. -/
example : Setup (P := ⟨⟨240, 320, 50, 2, 2⟩, 30, 3, 100, true, true, 5, fun _ => 1, 85⟩) [(2, 2), (120, 160)] ∧ KindOk (kind3 .scalar) :=
  ⟨⟨by decide, by decide, by decide, by decide, by unfold Inner; decide, by decide⟩, kind3_ok _⟩

/-- C87, refuted part: with an averaging window of fewer than four frames, accepted by the constructor, the first frame divides by
zero. -/
theorem short_average_refuted (rd : ℚ → ℚ) (K : Kind I V) (P : Par) (hN : P.N < 4) (rnd : Nat → Nat) (px : List (Nat × Nat)) (post : Gray → Gray)
    (zero : V) (last : Nat → Nat → V) (lut : BitVec 8 → BitVec 8) (i : Input I) (ops : List (Op I)) (st : St V) :
    session rd K P rnd px post zero last lut (.frame i :: ops) ≠ .ok st := by
  intro h
  unfold session at h
  split at h
  · exact absurd h (by simp)
  · rename_i st0 _
    rw [List.foldlM_cons] at h
    have : run1 rd K P rnd px post st0 (.frame i) = .error .avg := by
      show apply rd K P rnd px post st0 i = _
      unfold apply
      have h2 : factor rd (min (st0.frameIdx + 1) (P.N / 4)) = .error .avg := by
        unfold factor
        rw [if_pos (by omega)]
      rw [h2]
      unfold factor
      split
      · rename_i h; exact absurd h (by simp)
      · rename_i e _ he
        split at he
        · injection he with he; rw [he]
        · exact absurd he (by simp)
      · rename_i he _; injection he with he; rw [he]
    rw [this] at h
    exact absurd h (by simp [bind, Except.bind])

example : ∃ st, start (V := Lobster.Px) { demoPar with N := 3 } (fun _ => 0) [(2, 2), (2, 3)] (0, 0) (fun _ _ => (100, 0)) (fun _ => 30) = .ok st := by
  have : (refreshModel demoPar.c (fun _ => 0) (fun _ _ => (100, 0)) (fun _ _ => 0) [(2, 2), (2, 3)] none false (fun _ _ _ => ((0, 0) : Lobster.Px)) 0).isSome = true := by
    decide +kernel
  obtain ⟨r, hr⟩ := Option.isSome_iff_exists.1 this
  unfold start
  have hr' : refreshModel (Par.c { demoPar with N := 3 }) (fun _ => 0) (fun _ _ => (100, 0)) (fun _ _ => 0) [(2, 2), (2, 3)] none false
      (fun _ _ _ => ((0, 0) : Lobster.Px)) 0 = some r := hr
  rw [hr']
  exact ⟨_, rfl⟩

/-- C87, refuted part, at the level of one pixel's adaptation: the distance factor is not bounded by what the descriptor threshold
can be computed for. A pixel that blinks for 6390 frames while its short-term distance average is 0 and its long-term average 1,
and then gets a short-term average of 1, has a distance factor for which the shift count reaches the width of the shifted
integer. -/
theorem dist_shift_refuted :
    ∃ inputs : List (ℚ × ℚ), (∀ d ∈ inputs, 0 ≤ d.1 ∧ d.1 ≤ 1 ∧ 0 ≤ d.2 ∧ d.2 ≤ 1) ∧
      descThr float32 3 (inputs.foldl (fun b d => feedback float32 4 512 false false true { b with dLT := d.1, dST := d.2 }) (Fb.init 4)) = .error .distShift := by
  refine ⟨List.replicate 6390 (1, 0) ++ [(1, 1)], ?_, ?_⟩
  · intro d hd
    rcases List.mem_append.1 hd with h | h
    · rw [List.eq_of_mem_replicate h]; norm_num
    · rw [List.mem_singleton.1 h]; norm_num
  · rw [List.foldl_append, List.foldl_cons, List.foldl_nil]
    have key : ∀ k : Nat, k ≤ 6390 → ((List.replicate k ((1 : ℚ), (0 : ℚ))).foldl
        (fun b d => feedback float32 4 512 false false true { b with dLT := d.1, dST := d.2 }) (Fb.init 4)).v = ((10 + k : Nat) : ℚ) ∧
        ((List.replicate k ((1 : ℚ), (0 : ℚ))).foldl (fun b d => feedback float32 4 512 false false true { b with dLT := d.1, dST := d.2 }) (Fb.init 4)).R = 1 := by
      intro k
      induction k with
      | zero => intro _; exact ⟨by simp [Fb.init], rfl⟩
      | succ k ih =>
        intro hk
        obtain ⟨h1, h2⟩ := ih (by omega)
        rw [List.replicate_succ', List.foldl_append, List.foldl_cons, List.foldl_nil]
        generalize (List.replicate k ((1 : ℚ), (0 : ℚ))).foldl (fun b d => feedback float32 4 512 false false true { b with dLT := d.1, dST := d.2 }) (Fb.init 4) = b at h1 h2 ⊢
        have hm : (consts float32).ratioMin < max (1 : ℚ) 0 ∧ true = true := ⟨by decide +kernel, rfl⟩
        have hv : (feedback float32 4 512 false false true { b with dLT := 1, dST := 0 }).v = ((10 + (k + 1) : Nat) : ℚ) := by
          show stepVar float32 (max 1 0) b.v true false b.unstable = _
          unfold stepVar
          rw [if_pos hm, h1, show (((10 + k : Nat) : ℚ) + 1) = ((10 + (k + 1) : Nat) : ℚ) by push_cast; ring]
          exact float32_rounds.nat _ (by omega)
        refine ⟨hv, ?_⟩
        show stepDist float32 (min 1 0) (feedback float32 4 512 false false true { b with dLT := 1, dST := 0 }).v b.R = 1
        rw [hv, h2]
        unfold stepDist
        rw [if_neg (by decide +kernel)]
        generalize hw : float32 ((consts float32).rVar / ((10 + (k + 1) : Nat) : ℚ)) = w
        split
        · rfl
        · rename_i h
          have h0 : 0 ≤ w := by
            rw [← hw]
            exact rd_nonneg float32_rounds (div_nonneg (rVar_nonneg float32_rounds) (by positivity))
          have h1' : float32 (1 - w) ≤ 1 := rd_le_one float32_rounds (by linarith)
          exact le_antisymm h1' (not_lt.1 h)
    obtain ⟨h1, h2⟩ := key 6390 le_rfl
    generalize (List.replicate 6390 ((1 : ℚ), (0 : ℚ))).foldl (fun b d => feedback float32 4 512 false false true { b with dLT := d.1, dST := d.2 }) (Fb.init 4) = b at h1 h2 ⊢
    have hR : (feedback float32 4 512 false false true { b with dLT := 1, dST := 1 }).R = stepDist float32 1 (stepVar float32 1 6400 true false b.unstable) 1 := by
      show stepDist float32 (min 1 1) (stepVar float32 (max 1 1) b.v true false b.unstable) b.R = _
      rw [h1, h2, min_self, max_self]
      norm_num
    unfold descThr
    rw [hR]
    have hd : ∀ u : Bool, 64 ≤ ⌊float32 (stepDist float32 1 (stepVar float32 1 6400 true false u) 1 + 1 / 2)⌋ := by decide +kernel
    rw [if_pos (hd _)]

end Litiv.SubSense
