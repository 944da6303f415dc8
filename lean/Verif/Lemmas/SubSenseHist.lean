import Verif.Lemmas.SubSenseFrame
import Verif.Spec.SubSense

namespace Litiv.SubSense
open Consensus Consensus.Spec BgUtils IEEE Spec Lobster

variable {I V : Type}

theorem fbOk_inRange {rd : ℚ → ℚ} {b : Fb} : FbOk rd b ↔ InRange (consts rd).vDecr b := by
  constructor
  · intro h
    refine ⟨h.rate, h.dist, h.var, fun a ha => ?_⟩
    simp only [List.mem_cons, List.not_mem_nil, or_false] at ha
    rcases ha with rfl | rfl | rfl | rfl | rfl | rfl | rfl
    · exact h.dLast
    · exact h.dLT
    · exact h.dST
    · exact h.rawLT
    · exact h.rawST
    · exact h.finLT
    · exact h.finST
  · intro h
    exact ⟨h.rate, h.dist, h.var, h.averages _ (by simp), h.averages _ (by simp), h.averages _ (by simp), h.averages _ (by simp),
      h.averages _ (by simp), h.averages _ (by simp), h.averages _ (by simp)⟩

/-- The caps after the frame-level analysis. -/
theorem caps_spec (P : Par) (ratio : ℚ) :
    (∃ lo up, caps P ratio = .ok (lo, up) ∧ 1 ≤ lo ∧ lo ≤ 2 ∧ lo ≤ up ∧ up ≤ 256) ∨ (caps P ratio = .error .capShift ∧ 64 ≤ ratio) := by
  unfold caps
  split
  · split
    · rename_i h
      right
      refine ⟨rfl, ?_⟩
      have := Int.le_floor.1 h
      push_cast at this
      linarith
    · left
      generalize ⌊ratio / 2⌋.toNat = k
      refine ⟨_, _, rfl, ?_, ?_, ?_, ?_⟩
      · exact_mod_cast le_max_right _ _
      · have : max (2 / 2 ^ k) 1 ≤ 2 := max_le (Nat.div_le_self _ _) (by norm_num)
        exact_mod_cast this
      · have : max (2 / 2 ^ k) 1 ≤ max (256 / 2 ^ k) 1 := max_le_max (Nat.div_le_div_right (by norm_num)) le_rfl
        exact_mod_cast this
      · have : max (256 / 2 ^ k) 1 ≤ 256 := max_le (Nat.div_le_self _ _) (by norm_num)
        exact_mod_cast this
  · left
    exact ⟨2, 256, rfl, by norm_num, by norm_num, by norm_num, by norm_num⟩

/-- The frame-level ratio of a state and a downscaled frame. -/
def ratioOf (rd : ℚ → ℚ) (st : St V) (fLT fST : ℚ) (down : List (List ℚ)) : ℚ :=
  diffRatio rd (accum rd fST st.dsST down) (accum rd fLT st.dsLT down)

/-- Effect of the frame-level analysis. -/
structure Level (rd : ℚ → ℚ) (P : Par) (px : List (Nat × Nat)) (st st' : St V) : Prop where
  last : st'.last = st.last
  fg : st'.fg = st.fg
  blinks : st'.blinks = st.blinks
  lastRaw : st'.lastRaw = st.lastRaw
  lastBlink : st'.lastBlink = st.lastBlink
  dilInv : st'.dilInv = st.dilInv
  lut : st'.lut = st.lut
  frameIdx : st'.frameIdx = st.frameIdx
  lastRatio : st'.lastRatio = st.lastRatio
  caps : (P.scaling = true → 1 ≤ st'.lower ∧ st'.lower ≤ 2 ∧ st'.lower ≤ st'.upper ∧ st'.upper ≤ 256) ∧
    (P.scaling = false → st'.lower = st.lower ∧ st'.upper = st.upper)
  effect : (st'.model = st.model ∧ st'.k = st.k ∧ st'.fb = st.fb ∧ st'.cooldown = if P.scaling then st.cooldown - 1 else st.cooldown) ∨
    (P.scaling = true ∧ st.autoReset = true ∧ st.cooldown = 0 ∧ st'.cooldown = P.N / 4 - 1 ∧ st'.sinceReset = 0 ∧
      Refreshed P.c st.last st.fg false px st.model st'.model ∧ st'.fb = fun y x => { st.fb y x with T := 1 })

theorem frameLevel_spec (rd : ℚ → ℚ) (P : Par) (px : List (Nat × Nat)) (hS : Setup P px) (rnd : Nat → Nat) (down : List (List ℚ))
    (hd : P.scaling = true → down ≠ []) (fLT fST : ℚ) (st : St V) :
    (∃ st', frameLevel rd P rnd px down fLT fST st = .ok st' ∧ Level rd P px st st') ∨
    (frameLevel rd P rnd px down fLT fST st = .error .capShift ∧ P.scaling = true ∧ 64 ≤ ratioOf rd st fLT fST down) := by
  unfold frameLevel
  by_cases hs : P.scaling = true
  · rw [if_pos hs, if_neg (hd hs)]
    dsimp only
    have hr : ratioOf rd st fLT fST down = diffRatio rd (accum rd fST st.dsST down) (accum rd fLT st.dsLT down) := rfl
    rw [← hr]
    generalize ratioOf rd st fLT fST down = ratio
    rcases caps_spec P ratio with ⟨lo, up, e, h1, h2, h3, h4⟩ | ⟨e, h⟩
    · left
      rw [e]
      dsimp only
      have hcaps : ∀ P' : Prop, (P.scaling = true → 1 ≤ lo ∧ lo ≤ 2 ∧ lo ≤ up ∧ up ≤ 256) ∧ (P.scaling = false → P') :=
        fun P' => ⟨fun _ => ⟨h1, h2, h3, h4⟩, fun h => absurd (hs.symm.trans h) (by simp)⟩
      generalize hact : resetLogic P st.autoReset st.sinceReset st.cooldown ratio = act
      obtain ⟨a1, a2, a3⟩ := act
      cases a3 with
      | nothing =>
        exact ⟨_, rfl, rfl, rfl, rfl, rfl, rfl, rfl, rfl, rfl, rfl, hcaps _, Or.inl ⟨rfl, rfl, rfl, by rw [if_pos hs]⟩⟩
      | reset =>
        have hreset : st.autoReset = true ∧ st.cooldown = 0 ∧ a2 = 0 := by
          unfold resetLogic at hact
          split at hact
          · split at hact
            · simp at hact
            · split at hact
              · rename_i h1 h2 h3
                injection hact with e1 e2
                injection e2 with e2 e3
                exact ⟨h1, h3.2, e2.symm⟩
              · simp at hact
          · split at hact <;> simp at hact
        dsimp only
        obtain ⟨r, er, hR, -⟩ := refreshModel_spec P.c hS.rows hS.cols hS.samples rnd st.last st.fg (some P.tenth) false px hS.inner st.model st.k
        rw [er]
        exact ⟨_, rfl, rfl, rfl, rfl, rfl, rfl, rfl, rfl, rfl, rfl, hcaps _, Or.inr ⟨hs, hreset.1, hreset.2.1, rfl, hreset.2.2, hR, rfl⟩⟩
    · right
      rw [e]
      exact ⟨rfl, hs, h⟩
  · have hs' : P.scaling = false := by simpa using hs
    left
    rw [if_neg hs]
    exact ⟨st, rfl, rfl, rfl, rfl, rfl, rfl, rfl, rfl, rfl, rfl, ⟨fun h => absurd h hs, fun _ => ⟨rfl, rfl⟩⟩,
      Or.inl ⟨rfl, rfl, rfl, by rw [if_neg hs]⟩⟩

/-- Effect of `apply`. -/
structure Applied (rd : ℚ → ℚ) (K : Kind I V) (P : Par) (rnd : Nat → Nat) (px : List (Nat × Nat)) (post : Gray → Gray) (st : St V) (inp : Input I)
    (st' : St V) (l : Loop V) (st1 : St V) (fLT fST : ℚ) : Prop where
  fL : Factor rd fLT
  fS : Factor rd fST
  fLe : factor rd (min (st.frameIdx + 1) P.N) = .ok fLT
  fSe : factor rd (min (st.frameIdx + 1) (P.N / 4)) = .ok fST
  loop : pixels rd K P rnd px st inp fLT fST = .ok l
  inv : FInv rd K P st inp fLT fST px l
  mask : MaskRule rd K P rnd st inp fLT fST px l.mask
  after : st1 = afterLoop rd P px.length fLT fST st l (post l.mask)
  level : Level rd P px st1 st'

/-- State invariant used by `apply`. -/
structure Ready (rd : ℚ → ℚ) (P : Par) (st : St V) : Prop where
  fb : ∀ y x, FbOk rd (st.fb y x)
  bound : st.frameIdx ≤ 2 ^ 20 → ∀ y x, FbBound st.frameIdx (st.fb y x)
  lower : 1 ≤ st.lower
  le : st.lower ≤ st.upper
  upper : st.upper ≤ 512
  caps : (P.scaling = true → st.lower ≤ 2 ∧ st.upper ≤ 256) ∧ (P.scaling = false → st.lower = 4 ∧ st.upper = 512)

theorem apply_spec {rd : ℚ → ℚ} (H : Rounds rd) (K : Kind I V) (hK : KindOk K) (P : Par) (px : List (Nat × Nat)) (hS : Setup P px)
    (rnd : Nat → Nat) (post : Gray → Gray) (st : St V) (inp : Input I) (hc : Callable P inp) (hR : Ready rd P st) :
    (∃ st' l st1 fLT fST, apply rd K P rnd px post st inp = .ok st' ∧ Applied rd K P rnd px post st inp st' l st1 fLT fST ∧ Ready rd P st') ∨
    (apply rd K P rnd px post st inp = .error .distShift ∧ 3000 < st.frameIdx) ∨
    (apply rd K P rnd px post st inp = .error .capShift ∧ P.scaling = true ∧
      ∃ st1 fLT fST, Factor rd fLT ∧ Factor rd fST ∧ 64 ≤ ratioOf rd (V := V) st1 fLT fST inp.down) := by
  have hN := hS.avg
  obtain ⟨fLT, eL, hL⟩ := factor_spec H (min (st.frameIdx + 1) P.N) (by omega)
  obtain ⟨fST, eS, hSf⟩ := factor_spec H (min (st.frameIdx + 1) (P.N / 4)) (by
    have : 1 ≤ P.N / 4 := by omega
    omega)
  unfold apply
  rw [eL, eS]
  dsimp only
  rcases pixels_spec H K hK P hS.samples hS.rows hS.cols rnd px hS.inner hS.nodup st inp hc.1 fLT fST hL hSf hR.lower hR.le hR.upper hR.fb hR.bound with
    ⟨l, el, hI, hM⟩ | ⟨el, ht⟩
  · rw [el]
    dsimp only
    rcases frameLevel_spec rd P px hS rnd inp.down hc.2 fLT fST (afterLoop rd P px.length fLT fST st l (post l.mask)) with ⟨st', e', hl⟩ | ⟨e', hs, hr⟩
    · left
      refine ⟨st', l, _, fLT, fST, e', ⟨hL, hSf, eL, eS, el, hI, hM, rfl, hl⟩, ?_⟩
      have hfb1 : ∀ y x, FbOk rd ((afterLoop rd P px.length fLT fST st l (post l.mask)).fb y x) := fun y x => by
        have h := hI.fbOk y x
        exact ⟨h.rate, h.dist, h.var, h.dLast, h.dLT, h.dST, h.rawLT, h.rawST, finalMean_unit H hL h.finLT _, finalMean_unit H hSf h.finST _⟩
      have hb1 : st.frameIdx + 1 ≤ 2 ^ 20 → ∀ y x, FbBound (st.frameIdx + 1) ((afterLoop rd P px.length fLT fST st l (post l.mask)).fb y x) := fun ht y x => by
        have h := hI.bound (by omega) y x
        exact ⟨h.var, h.dist⟩
      have hfi : st'.frameIdx = st.frameIdx + 1 := hl.frameIdx
      have hcapT : (P.scaling = true → st'.lower ≤ 2 ∧ st'.upper ≤ 256) ∧ (P.scaling = false → st'.lower = 4 ∧ st'.upper = 512) := by
        refine ⟨fun hs => ⟨(hl.caps.1 hs).2.1, (hl.caps.1 hs).2.2.2⟩, fun hs => ?_⟩
        obtain ⟨a, b⟩ := hl.caps.2 hs
        obtain ⟨c, d⟩ := hR.caps.2 hs
        exact ⟨a.trans c, b.trans d⟩
      have hcap3 : 1 ≤ st'.lower ∧ st'.lower ≤ st'.upper ∧ st'.upper ≤ 512 := by
        cases hs : P.scaling with
        | true =>
          obtain ⟨a, b, c, d⟩ := hl.caps.1 hs
          exact ⟨a, c, by linarith⟩
        | false =>
          obtain ⟨c, d⟩ := hcapT.2 hs
          rw [c, d]
          norm_num
      rcases hl.effect with ⟨-, -, hf, -⟩ | ⟨-, -, -, -, -, -, hf⟩
      · exact ⟨fun y x => by rw [hf]; exact hfb1 y x, fun ht y x => by rw [hf, hfi]; rw [hfi] at ht; exact hb1 ht y x, hcap3.1, hcap3.2.1, hcap3.2.2, hcapT⟩
      · refine ⟨fun y x => ?_, fun ht y x => ?_, hcap3.1, hcap3.2.1, hcap3.2.2, hcapT⟩
        · rw [hf]
          have h := hfb1 y x
          exact ⟨⟨le_rfl, by norm_num⟩, h.dist, h.var, h.dLast, h.dLT, h.dST, h.rawLT, h.rawST, h.finLT, h.finST⟩
        · rw [hf, hfi]
          rw [hfi] at ht
          have h := hb1 ht y x
          exact ⟨h.var, h.dist⟩
    · right; right
      exact ⟨e', hs, _, fLT, fST, hL, hSf, hr⟩
  · right; left
    rw [el]
    exact ⟨rfl, ht⟩

/-! ## Histories -/

theorem frames_append (a b : List (Op I)) : frames (a ++ b) = frames a ++ frames b := by
  simp [frames, List.filterMap_append]

theorem mem_frames (ops : List (Op I)) (i : Input I) : i ∈ frames ops ↔ Op.frame i ∈ ops := by
  unfold frames
  rw [List.mem_filterMap]
  constructor
  · rintro ⟨o, ho, h⟩
    cases o with
    | frame j => injection h with h; subst h; exact ho
    | refresh _ _ => exact absurd h (by simp)
    | autoReset _ => exact absurd h (by simp)
  · intro h; exact ⟨_, h, rfl⟩

/-- A value shown near a pixel. -/
def SeenNear (K : Kind I V) (P : Par) (lut0 : BitVec 8 → BitVec 8) (last0 : Nat → Nat → V) (fs : List (Input I)) (p : Nat × Nat) (v : V) : Prop :=
  ∃ q, Inner P.c.b P.c.h P.c.w q ∧ Near 3 p q ∧ Shown K P lut0 last0 fs q v

theorem shown_mono {K : Kind I V} {P : Par} {lut0 : BitVec 8 → BitVec 8} {last0 : Nat → Nat → V} {fs fs' : List (Input I)} (h : ∀ i ∈ fs, i ∈ fs') {q : Nat × Nat} {v : V}
    (hv : Shown K P lut0 last0 fs q v) : Shown K P lut0 last0 fs' q v := by
  rcases hv with hv | ⟨i, hi, lut, h1, h2⟩
  · exact Or.inl hv
  · exact Or.inr ⟨i, h i hi, lut, h1, h2⟩

/-- Invariant of histories. -/
structure HInv (rd : ℚ → ℚ) (K : Kind I V) (P : Par) (px : List (Nat × Nat)) (lut0 : BitVec 8 → BitVec 8) (last0 : Nat → Nat → V) (pre : List (Op I))
    (st : St V) : Prop where
  ready : Ready rd P st
  idx : st.frameIdx = (frames pre).length
  lut : TableOk P lut0 st.lut
  last : ∀ q, Shown K P lut0 last0 (frames pre) q (st.last q.1 q.2)
  lastPx : ∀ i rest, frames pre = rest ++ [i] → ∀ p ∈ px, ∃ lut, TableOk P lut0 lut ∧ st.last p.1 p.2 = K.obs lut i.img p.1 p.2
  samples : ∀ p ∈ px, ∀ s < P.c.n, SeenNear K P lut0 last0 (frames pre) p (st.model s p.1 p.2)
  rawBin : ∀ y x, st.lastRaw y x = 0 ∨ st.lastRaw y x = 255
  blinkBin : ∀ y x, st.lastBlink y x = 0 ∨ st.lastBlink y x = 255
  cooldown : st.cooldown ≤ P.N / 4

theorem adaptLut_ok (rd : ℚ → ℚ) (P : Par) (lut0 lut : BitVec 8 → BitVec 8) (r r' : ℚ) (h : TableOk P lut0 lut) :
    TableOk P lut0 (adaptLut rd P r r' lut) := by
  intro t
  obtain ⟨h1, h2⟩ := h t
  unfold adaptLut
  split
  · split
    · rename_i hgt
      have hgt' : (P.lutLo t).toNat < (lut t).toNat := hgt
      have e : (lut t - 1).toNat = (lut t).toNat - 1 := by
        have := (lut t).isLt
        rw [BitVec.toNat_sub, show (1 : BitVec 8).toNat = 1 from rfl]
        omega
      rw [e]
      omega
    · exact ⟨h1, h2⟩
  · split
    · split
      · rename_i hlt
        have hlt' : (lut t).toNat < P.lutHi.toNat := hlt
        have e : (lut t + 1).toNat = (lut t).toNat + 1 := by
          have := P.lutHi.isLt
          rw [BitVec.toNat_add, show (1 : BitVec 8).toNat = 1 from rfl]
          omega
        rw [e]
        omega
      · exact ⟨h1, h2⟩
    · exact ⟨h1, h2⟩

theorem refresh_noforce {c : Cfg} (rnd : Nat → Nat) (last : Nat → Nat → V) (px : List (Nat × Nat)) (m : Model V) (k : Nat) :
    refreshModel c rnd last (fun _ _ => 0) px none false m k = refreshModel c rnd last (fun _ _ => 0) px none true m k := by
  unfold refreshModel
  dsimp only
  have h : refreshPixel c rnd last (fun _ _ => 0) false 0 c.n = refreshPixel c rnd last (fun _ _ => 0) true 0 c.n := by
    funext st p
    unfold refreshPixel
    have hs : refreshSample c rnd last (fun _ _ => 0) false p = refreshSample c rnd last (fun _ _ => 0) true p := by
      funext st' idx
      unfold refreshSample
      rfl
    rw [hs]
    rfl
  rw [h]

theorem start_spec {rd : ℚ → ℚ} (H : Rounds rd) (K : Kind I V) (P : Par) (px : List (Nat × Nat)) (hS : Setup P px) (rnd : Nat → Nat) (zero : V)
    (last : Nat → Nat → V) (lut : BitVec 8 → BitVec 8) :
    ∃ st, start P rnd px zero last lut = .ok st ∧ HInv rd K P px lut last ([] : List (Op I)) st := by
  obtain ⟨r, er, -, hfull⟩ := refreshModel_spec P.c hS.rows hS.cols hS.samples rnd last (fun _ _ => 0) none true px hS.inner (fun _ _ _ => zero) 0
  unfold start
  rw [refresh_noforce, er]
  refine ⟨_, rfl, ⟨?_, rfl, fun t => ⟨min_le_left _ _, le_max_left _ _⟩, fun q => Or.inl rfl, fun i rest h => ?_, fun p hp s hs => ?_,
    fun _ _ => Or.inl rfl, fun _ _ => Or.inl rfl, Nat.zero_le _⟩⟩
  · have hv : (consts rd).vDecr ≤ 10 := (rd_le_one H (by norm_num)).trans (by norm_num)
    have u0 : SubSense.Unit 0 := ⟨le_rfl, by norm_num⟩
    refine ⟨fun y x => ⟨?_, by simp [Fb.init], by simpa [Fb.init] using hv, u0, u0, u0, u0, u0, u0, u0⟩,
      fun _ y x => ⟨by simp [Fb.init], by simp [Fb.init]⟩, ?_, ?_, ?_, ?_⟩
    · simp only [Fb.init]; split <;> norm_num
    · dsimp only; split <;> norm_num
    · dsimp only; split <;> norm_num
    · dsimp only; split <;> norm_num
    · dsimp only
      constructor
      · intro h; rw [if_pos h, if_pos h]; norm_num
      · intro h; rw [h]; norm_num
  · exact absurd h (by simp [frames])
  · obtain ⟨q, h1, h2, h3⟩ := hfull rfl rfl p hp s hs
    exact ⟨q, h1, h2, Or.inl h3⟩

theorem bin_xor {a b : BitVec 8} (ha : a = 0 ∨ a = 255) (hb : b = 0 ∨ b = 255) : a ^^^ b = 0 ∨ a ^^^ b = 255 := by
  rcases ha with rfl | rfl <;> rcases hb with rfl | rfl <;> decide

theorem Applied.hinv {rd : ℚ → ℚ} {K : Kind I V} {P : Par} {px : List (Nat × Nat)} (hS : Setup P px) {rnd : Nat → Nat} {post : Gray → Gray}
    {lut0 : BitVec 8 → BitVec 8} {last0 : Nat → Nat → V} {pre : List (Op I)} {st : St V} {inp : Input I} {st' : St V} {l : Loop V} {st1 : St V} {fLT fST : ℚ}
    (hA : Applied rd K P rnd px post st inp st' l st1 fLT fST) (hR : Ready rd P st') (hI : HInv rd K P px lut0 last0 pre st) :
    HInv rd K P px lut0 last0 (pre ++ [.frame inp]) st' := by
  obtain ⟨-, -, -, -, -, hF, -, rfl, hl⟩ := hA
  have hfr : frames (pre ++ [Op.frame inp]) = frames pre ++ [inp] := frames_append _ _
  have hsub : ∀ i ∈ frames pre, i ∈ frames pre ++ [inp] := fun i hi => by simp [hi]
  have hlast : ∀ q : Nat × Nat, Shown K P lut0 last0 (frames pre ++ [inp]) q (l.last q.1 q.2) := fun q => by
    by_cases hq : q ∈ px
    · rw [hF.lastNew q hq]
      exact Or.inr ⟨inp, by simp, st.lut, hI.lut, rfl⟩
    · rw [hF.lastOld q.1 q.2 hq]
      exact shown_mono hsub (hI.last q)
  have hsamp : ∀ p ∈ px, ∀ s < P.c.n, SeenNear K P lut0 last0 (frames pre ++ [inp]) p (l.model s p.1 p.2) := fun p hp s hs => by
    rcases hF.samples s p.1 p.2 with h | ⟨q, hq, -, hn, hv, -⟩
    · rw [h]
      obtain ⟨q, h1, h2, h3⟩ := hI.samples p hp s hs
      exact ⟨q, h1, h2, shown_mono hsub h3⟩
    · exact ⟨q, hS.inner q hq, near_mono (by omega) hn, Or.inr ⟨inp, by simp, st.lut, hI.lut, hv⟩⟩
  refine ⟨hR, ?_, ?_, ?_, ?_, ?_, ?_, ?_, ?_⟩
  · rw [hl.frameIdx, hfr, List.length_append]
    show st.frameIdx + 1 = _
    rw [hI.idx]; rfl
  · rw [hl.lut]
    exact adaptLut_ok rd P lut0 st.lut _ _ hI.lut
  · intro q
    rw [hl.last, hfr]
    exact hlast q
  · intro i rest he p hp
    rw [hfr] at he
    obtain ⟨-, h2⟩ := List.append_inj' he rfl
    obtain rfl : inp = i := by simpa using h2
    rw [hl.last]
    exact ⟨st.lut, hI.lut, hF.lastNew p hp⟩
  · intro p hp s hs
    rw [hfr]
    rcases hl.effect with ⟨hm, -, -, -⟩ | ⟨-, -, -, -, -, hm, -⟩
    · rw [hm]; exact hsamp p hp s hs
    · rcases hm s p.1 p.2 with h | ⟨-, -, q, h1, h2, -, h4⟩
      · rw [h]; exact hsamp p hp s hs
      · rw [h4]
        exact ⟨q, h1, h2, hlast q⟩
  · intro y x
    rw [hl.lastRaw]
    exact hF.maskBin y x
  · intro y x
    rw [hl.lastBlink]
    exact bin_xor (hF.maskBin y x) (hI.rawBin y x)
  · rcases hl.effect with ⟨-, -, -, h⟩ | ⟨-, -, -, h, -⟩
    · rw [h]
      have := hI.cooldown
      show (if P.scaling = true then st.cooldown - 1 else st.cooldown) ≤ _
      split <;> omega
    · rw [h]; omega

/-- All histories. -/
theorem history_inv {rd : ℚ → ℚ} (H : Rounds rd) (K : Kind I V) (hK : KindOk K) (P : Par) (px : List (Nat × Nat)) (hS : Setup P px)
    (rnd : Nat → Nat) (post : Gray → Gray) (zero : V) (last : Nat → Nat → V) (lut : BitVec 8 → BitVec 8) (ops : List (Op I))
    (hops : ∀ i, i ∈ frames ops → Callable P i) :
    (∃ st, session rd K P rnd px post zero last lut ops = .ok st ∧ HInv rd K P px lut last ops st) ∨
    ∃ e, session rd K P rnd px post zero last lut ops = .error e ∧
      ((e = .distShift ∧ 3000 < (frames ops).length) ∨ (e = .capShift ∧ P.scaling = true)) := by
  obtain ⟨st0, e0, h0⟩ := start_spec (I := I) H K P px hS rnd zero last lut
  unfold session
  rw [e0]
  dsimp only
  refine exFold_inv (run1 rd K P rnd px post) ops (fun pre st => HInv rd K P px lut last pre st)
    (fun e => (e = .distShift ∧ 3000 < (frames ops).length) ∨ (e = .capShift ∧ P.scaling = true)) (fun pre op rest st hl hI => ?_) st0 h0
  cases op with
  | frame i =>
    have hc : Callable P i := hops i ((mem_frames _ _).2 (by rw [hl]; simp))
    rcases apply_spec H K hK P px hS rnd post st i hc hI.ready with ⟨st', l, st1, fLT, fST, e, hA, hR⟩ | ⟨e, ht⟩ | ⟨e, hs, -⟩
    · exact Or.inl ⟨st', e, hA.hinv hS hR hI⟩
    · refine Or.inr ⟨_, e, Or.inl ⟨rfl, ?_⟩⟩
      rw [hI.idx] at ht
      rw [hl, frames_append, List.length_append]
      omega
    · exact Or.inr ⟨_, e, Or.inr ⟨rfl, hs⟩⟩
  | refresh frac force =>
    left
    obtain ⟨r, er, hR, -⟩ := refreshModel_spec P.c hS.rows hS.cols hS.samples rnd st.last st.fg frac force px hS.inner st.model st.k
    have hfr : frames (pre ++ [Op.refresh frac force]) = frames pre := by rw [frames_append]; simp [frames]
    refine ⟨{ st with model := r.1, k := r.2 }, by simp only [run1]; rw [er], ?_⟩
    refine ⟨⟨hI.ready.fb, hI.ready.bound, hI.ready.lower, hI.ready.le, hI.ready.upper, hI.ready.caps⟩, by rw [hfr]; exact hI.idx, hI.lut,
      by rw [hfr]; exact hI.last, by rw [hfr]; exact hI.lastPx, fun p hp s hs => ?_, hI.rawBin, hI.blinkBin, hI.cooldown⟩
    rw [hfr]
    rcases hR s p.1 p.2 with h | ⟨-, -, q, h1, h2, -, h4⟩
    · dsimp only; rw [h]; exact hI.samples p hp s hs
    · dsimp only; rw [h4]; exact ⟨q, h1, h2, hI.last q⟩
  | autoReset b =>
    left
    have hfr : frames (pre ++ [Op.autoReset b]) = frames pre := by rw [frames_append]; simp [frames]
    exact ⟨{ st with autoReset := b }, rfl, ⟨hI.ready.fb, hI.ready.bound, hI.ready.lower, hI.ready.le, hI.ready.upper, hI.ready.caps⟩,
      by rw [hfr]; exact hI.idx, hI.lut, by rw [hfr]; exact hI.last, by rw [hfr]; exact hI.lastPx, by rw [hfr]; exact hI.samples,
      hI.rawBin, hI.blinkBin, hI.cooldown⟩

end Litiv.SubSense
