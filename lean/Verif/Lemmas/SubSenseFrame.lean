import Verif.Lemmas.SubSense

namespace Litiv.SubSense
open Consensus Consensus.Spec BgUtils IEEE

/-- Invariant rule for a loop that may stop with an error. -/
theorem exFold_inv {σ α ε : Type} (g : σ → α → Except ε σ) (l : List α) (P : List α → σ → Prop) (E : ε → Prop)
    (hP : ∀ pre a post s, l = pre ++ a :: post → P pre s → (∃ s', g s a = .ok s' ∧ P (pre ++ [a]) s') ∨ ∃ e, g s a = .error e ∧ E e)
    (s : σ) (h0 : P [] s) : (∃ s', l.foldlM g s = .ok s' ∧ P l s') ∨ ∃ e, l.foldlM g s = .error e ∧ E e := by
  have key : ∀ (rest pre : List α) (s : σ), l = pre ++ rest → P pre s →
      (∃ s', rest.foldlM g s = .ok s' ∧ P l s') ∨ ∃ e, rest.foldlM g s = .error e ∧ E e := by
    intro rest
    induction rest with
    | nil =>
      intro pre s hl hp
      left
      refine ⟨s, rfl, ?_⟩
      rw [hl, List.append_nil]
      exact hp
    | cons a rest ih =>
      intro pre s hl hp
      rw [List.foldlM_cons]
      rcases hP pre a rest s hl hp with ⟨s', e, h⟩ | ⟨e, he, hE⟩
      · rw [e]
        exact ih (pre ++ [a]) s' (by rw [hl]; simp) h
      · right
        refine ⟨e, ?_, hE⟩
        rw [he]; rfl
  exact key l [] s rfl h0

theorem exFold_append {σ α ε : Type} (g : σ → α → Except ε σ) (pre : List α) (a : α) (s : σ) (s' s'' : σ)
    (h1 : pre.foldlM g s = .ok s') (h2 : g s' a = .ok s'') : (pre ++ [a]).foldlM g s = .ok s'' := by
  rw [List.foldlM_append, h1]
  show (List.foldlM g s' [a]) = _
  rw [List.foldlM_cons, h2]
  rfl

variable {I V : Type}

theorem put_cases (m : Model V) (s y x : Nat) (v : V) (s' y' x' : Nat) :
    m.put s y x v s' y' x' = m s' y' x' ∨ (y' = y ∧ x' = x ∧ m.put s y x v s' y' x' = v) := by
  unfold Model.put
  split
  · rename_i h; exact Or.inr ⟨h.2.1, h.2.2, rfl⟩
  · exact Or.inl rfl

theorem fgUpdate_spec (P : Par) (hn0 : 0 < P.c.n) (rnd : Nat → Nat) (cd : Nat) (m : Model V) (k y x : Nat) (v : V) :
    ∃ u, fgUpdate P rnd cd m k y x v = .ok u ∧ ∀ s y' x', u.1 s y' x' = m s y' x' ∨ (cd ≠ 0 ∧ y' = y ∧ x' = x ∧ u.1 s y' x' = v) := by
  unfold fgUpdate
  by_cases h : cd ≠ 0
  · rw [if_pos h]
    by_cases h2 : rnd k % 2 = 0
    · rw [if_pos h2, write_mod P.c hn0]
      exact ⟨_, rfl, fun s y' x' => by
        rcases put_cases m (rnd (k + 1) % P.c.n) y x v s y' x' with h' | h'
        · exact Or.inl h'
        · exact Or.inr ⟨h, h'⟩⟩
    · rw [if_neg h2]
      exact ⟨_, rfl, fun _ _ _ => Or.inl rfl⟩
  · rw [if_neg h]
    exact ⟨_, rfl, fun _ _ _ => Or.inl rfl⟩

theorem ownUpdate_spec (P : Par) (hn0 : 0 < P.c.n) (rnd : Nat → Nat) (L : Nat) (hL : 0 < L) (m : Model V) (k y x : Nat) (v : V) :
    ∃ u, ownUpdate P rnd L m k y x v = .ok u ∧ ∀ s y' x', u.1 s y' x' = m s y' x' ∨ (y' = y ∧ x' = x ∧ u.1 s y' x' = v) := by
  unfold ownUpdate
  rw [if_neg (by omega)]
  by_cases h2 : rnd k % L = 0
  · rw [if_pos h2, write_mod P.c hn0]
    exact ⟨_, rfl, fun s y' x' => put_cases m (rnd (k + 1) % P.c.n) y x v s y' x'⟩
  · rw [if_neg h2]
    exact ⟨_, rfl, fun _ _ _ => Or.inl rfl⟩

theorem neighbour5_spec (c : Cfg) (hh : 2 * c.b < c.h) (hw : 2 * c.b < c.w) (r y x : Nat) (hi : Inner c.b c.h c.w (y, x)) :
    ∃ p q, Sampling.neighborPosition5 r (x, y) c.b c.w c.h = some p ∧ inImage c p = some q ∧ Inner c.b c.h c.w q ∧
      Near 2 (y, x) q := by
  obtain ⟨p, e, ⟨h1, h2, h3, h4⟩, h5⟩ := (Sampling.neighbor_in_window r ((x : Int), (y : Int)) c.b c.w c.h (by omega) (by omega)).2
  obtain ⟨i1, i2, i3, i4⟩ := hi
  dsimp only at i1 i2 i3 i4
  obtain ⟨w1, w2, w3, w4⟩ := h5 ⟨by dsimp only; omega, by dsimp only; omega, by dsimp only; omega, by dsimp only; omega⟩
  dsimp only at w1 w2 w3 w4
  refine ⟨p, (p.2.toNat, p.1.toNat), e, if_pos ⟨by omega, by omega, by omega, by omega⟩, ?_, ?_⟩
  · exact ⟨by dsimp only; omega, by dsimp only; omega, by dsimp only; omega, by dsimp only; omega⟩
  · exact ⟨by dsimp only; omega, by dsimp only; omega, by dsimp only; omega, by dsimp only; omega⟩

theorem spreadPos_spec (c : Cfg) (hh : 2 * c.b < c.h) (hw : 2 * c.b < c.w) (use3 : Bool) (r y x : Nat) (hi : Inner c.b c.h c.w (y, x)) :
    ∃ p q, (if use3 then Sampling.neighborPosition3 r (x, y) c.b c.w c.h else Sampling.neighborPosition5 r (x, y) c.b c.w c.h) = some p ∧
      inImage c p = some q ∧ Inner c.b c.h c.w q ∧ Near (if use3 then 1 else 2) (y, x) q := by
  cases use3 with
  | true => exact neighbour_spec c hh hw r y x hi
  | false => exact neighbour5_spec c hh hw r y x hi

theorem spreadUpdate_spec (rd : ℚ → ℚ) (P : Par) (hn0 : 0 < P.c.n) (hh : 2 * P.c.b < P.c.h) (hw : 2 * P.c.b < P.c.w) (rnd : Nat → Nat)
    (fb : Nat → Nat → Fb) (use3 : Bool) (L cap : Nat) (hL : 0 < L) (hc : 0 < cap) (m : Model V) (k y x : Nat) (hi : Inner P.c.b P.c.h P.c.w (y, x)) (v : V) :
    ∃ u, spreadUpdate rd P rnd fb use3 L cap m k y x v = .ok u ∧ ∀ s y' x', u.1 s y' x' = m s y' x' ∨
      (Inner P.c.b P.c.h P.c.w (y', x') ∧ Near (if use3 then 1 else 2) (y, x) (y', x') ∧ u.1 s y' x' = v) := by
  obtain ⟨p, q, e1, e2, h1, h2⟩ := spreadPos_spec P.c hh hw use3 (rnd k) y x hi
  unfold spreadUpdate
  rw [e1]
  dsimp only
  rw [e2]
  dsimp only
  have hne : ¬ ((if use3 then L else L / 2 + 1) = 0 ∨ cap = 0) := by split <;> omega
  rw [if_neg hne]
  generalize (if use3 = true then L else L / 2 + 1) = L'
  split
  · rw [write_mod P.c hn0]
    refine ⟨_, rfl, fun s y' x' => ?_⟩
    rcases put_cases m (rnd (k + 2) % P.c.n) q.1 q.2 v s y' x' with h | ⟨hy, hx, h⟩
    · exact Or.inl h
    · subst hy; subst hx
      exact Or.inr ⟨h1, h2, h⟩
  · exact ⟨_, rfl, fun _ _ _ => Or.inl rfl⟩

theorem near_symm {d : Nat} {p q : Nat × Nat} (h : Near d p q) : Near d q p := ⟨h.2.1, h.1, h.2.2.2, h.2.2.1⟩
theorem near_mono {d e : Nat} (hde : d ≤ e) {p q : Nat × Nat} (h : Near d p q) : Near e p q := by
  obtain ⟨h1, h2, h3, h4⟩ := h
  exact ⟨by omega, by omega, by omega, by omega⟩
theorem near_refl (d : Nat) (p : Nat × Nat) : Near d p p := ⟨by omega, by omega, by omega, by omega⟩

theorem setPx_same {A : Type} (f : Nat → Nat → A) (y x : Nat) (a : A) : setPx f y x a y x = a := by simp [setPx]
theorem setPx_other {A : Type} (f : Nat → Nat → A) (y x : Nat) (a : A) (y' x' : Nat) (h : (y', x') ≠ (y, x)) :
    setPx f y x a y' x' = f y' x' := if_neg fun ⟨h1, h2⟩ => h (by rw [h1, h2])

theorem learnRate_pos (over : Option Nat) (T : ℚ) (h : ∀ n, over = some n → 0 < n) (hT : 1 ≤ T) : 0 < learnRate over T := by
  unfold learnRate
  cases over with
  | some n => exact h n rfl
  | none =>
    dsimp only
    have : (1 : ℤ) ≤ ⌈T⌉ := by
      have := Int.le_ceil T
      have h2 : ((1 : ℤ) : ℚ) ≤ ((⌈T⌉ : ℤ) : ℚ) := by push_cast; linarith
      exact_mod_cast h2
    omega

/-- Effect of one pixel on the samples: unchanged, or what the frame shows at that pixel, which is background (`fg = false`) unless
the cooldown is on and it is a sample of the pixel itself. -/
def StepSamples (P : Par) (cd : Nat) (m m' : Model V) (y x : Nat) (fg : Bool) (v : V) : Prop :=
  ∀ s y' x', m' s y' x' = m s y' x' ∨
    (Inner P.c.b P.c.h P.c.w (y', x') ∧ Near 2 (y', x') (y, x) ∧ m' s y' x' = v ∧ (fg = false ∨ (cd ≠ 0 ∧ y' = y ∧ x' = x)))

/-- One pixel. -/
theorem stepThr_spec {rd : ℚ → ℚ} (H : Rounds rd) (K : Kind I V) (hK : KindOk K) (P : Par) (hn0 : 0 < P.c.n) (hh : 2 * P.c.b < P.c.h)
    (hw : 2 * P.c.b < P.c.w) (rnd : Nat → Nat) (st : St V) (inp : Input I) (hov : ∀ n, inp.over = some n → 0 < n) (fLT fST : ℚ)
    (hL : Factor rd fLT) (hS : Factor rd fST) (hl1 : 1 ≤ st.lower) (hlu : st.lower ≤ st.upper) (hu : st.upper ≤ 512)
    (l : Loop V) (y x col desc : Nat) (hi : Inner P.c.b P.c.h P.c.w (y, x)) (hb : FbOk rd (l.fb y x)) :
    ∃ l', stepThr rd K P rnd st inp fLT fST l y x col desc = .ok l' ∧
      l'.mask = (if count P.c.n (fun s => (K.test st.lut inp.img y x col desc (l.model s y x)).isSome) < P.c.req then setPx l.mask y x 255 else l.mask) ∧
      (∃ b', l'.fb = setPx l.fb y x b' ∧ FbOk rd b' ∧ st.lower ≤ b'.T ∧ b'.T ≤ st.upper ∧
        (∀ t, t ≤ 2 ^ 20 → FbBound t (l.fb y x) → FbBound (t + 1) b') ∧
        ∃ dl d, Unit dl ∧ Unit d ∧ b' = feedback rd st.lower st.upper (decide (st.fg y x ≠ 0)) (decide (count P.c.n (fun s => (K.test st.lut inp.img y x col desc (l.model s y x)).isSome) < P.c.req)) (decide (st.blinks y x ≠ 0)) (averages rd fLT fST dl d (decide (count P.c.n (fun s => (K.test st.lut inp.img y x col desc (l.model s y x)).isSome) < P.c.req)) (l.fb y x))) ∧
      l'.last = setPx l.last y x (K.obs st.lut inp.img y x) ∧
      l'.nz = (if K.textured (K.obs st.lut inp.img y x) then l.nz + 1 else l.nz) ∧
      StepSamples P st.cooldown l.model l'.model y x
        (decide (count P.c.n (fun s => (K.test st.lut inp.img y x col desc (l.model s y x)).isSome) < P.c.req)) (K.obs st.lut inp.img y x) := by
  have hcap : 0 < ⌊st.lower⌋.toNat := by
    have : (1 : ℤ) ≤ ⌊st.lower⌋ := Int.le_floor.2 (by push_cast; exact hl1)
    omega
  have hrate := learnRate_pos inp.over (l.fb y x).T hov hb.rate.1
  set cur := K.obs st.lut inp.img y x with hcur
  have hm := matching_lt K P st.lut inp.img l.model y x col desc
  obtain ⟨hd1, hd2⟩ : (matching K P st.lut inp.img l.model y x col desc).2.1 ≤ K.maxDesc ∧
      (matching K P st.lut inp.img l.model y x col desc).2.2 ≤ K.maxSum := matchLoop_le _ _ _ _ _ _ _
  unfold stepThr
  dsimp only
  rw [← hcur]
  generalize matching K P st.lut inp.img l.model y x col desc = r at hm hd1 hd2 ⊢
  have hdl := norm2_unit H (hK.last (l.last y x) cur).1 (hK.last (l.last y x) cur).2
  generalize norm2 rd (K.lastDist (l.last y x) cur).1 K.maxSum (K.lastDist (l.last y x) cur).2 K.maxDesc = dl at hdl ⊢
  have hd := minDist_unit H (req := P.c.req) (cnt := r.1) hd1 hd2
  generalize minDist rd P.c.req r.1 r.2.1 r.2.2 K.maxDesc K.maxSum = d at hd ⊢
  have fin : ∀ (fg : Bool) (u : Model V × Nat), fg = (decide (count P.c.n (fun s => (K.test st.lut inp.img y x col desc (l.model s y x)).isSome) < P.c.req)) →
      (∃ b', (finish rd K st l y x fg (averages rd fLT fST dl d fg (l.fb y x)) cur u).fb = setPx l.fb y x b' ∧ FbOk rd b' ∧ st.lower ≤ b'.T ∧ b'.T ≤ st.upper ∧
        (∀ t, t ≤ 2 ^ 20 → FbBound t (l.fb y x) → FbBound (t + 1) b') ∧
        ∃ dl d, Unit dl ∧ Unit d ∧ b' = feedback rd st.lower st.upper (decide (st.fg y x ≠ 0)) (decide (count P.c.n (fun s => (K.test st.lut inp.img y x col desc (l.model s y x)).isSome) < P.c.req)) (decide (st.blinks y x ≠ 0)) (averages rd fLT fST dl d (decide (count P.c.n (fun s => (K.test st.lut inp.img y x col desc (l.model s y x)).isSome) < P.c.req)) (l.fb y x))) := by
    intro fg u hfgc
    rw [← hfgc]
    have ha := averages_ok H hL hS hdl hd fg hb
    obtain ⟨g1, g2, g3⟩ := feedback_ok H hl1 hlu hu (decide (st.fg y x ≠ 0)) fg (decide (st.blinks y x ≠ 0)) ha
    exact ⟨_, rfl, g1, g2, g3, fun t ht hB => feedback_bound H ht _ _ _ ha ⟨hB.var, hB.dist⟩, dl, d, hdl, hd, rfl⟩
  by_cases hfg : r.1 < P.c.req
  · have hcnt := hm.1 hfg
    rw [if_pos (decide_eq_true hfg)]
    obtain ⟨u, e, hu⟩ := fgUpdate_spec P hn0 rnd st.cooldown l.model l.k y x cur
    rw [e]
    refine ⟨_, rfl, ?_, fin _ _ (by rw [decide_eq_true hfg, decide_eq_true hcnt]), rfl, rfl, ?_⟩
    · rw [if_pos hcnt]; simp [finish, hfg]
    · intro s y' x'
      rcases hu s y' x' with h | ⟨h1, rfl, rfl, h3⟩
      · exact Or.inl h
      · exact Or.inr ⟨hi, near_refl _ _, h3, Or.inr ⟨h1, rfl, rfl⟩⟩
  · have hcnt : ¬ _ := fun h => hfg (hm.2 h)
    rw [if_neg (by simpa using hfg)]
    obtain ⟨o, e, ho⟩ := ownUpdate_spec P hn0 rnd (learnRate inp.over (l.fb y x).T) hrate l.model l.k y x cur
    rw [e]
    dsimp only
    obtain ⟨u, e2, hu⟩ := spreadUpdate_spec rd P hn0 hh hw rnd (setPx l.fb y x (averages rd fLT fST dl d (decide (r.1 < P.c.req)) (l.fb y x)))
      (P.use3 && !(averages rd fLT fST dl d (decide (r.1 < P.c.req)) (l.fb y x)).unstable) (learnRate inp.over (l.fb y x).T) ⌊st.lower⌋.toNat hrate hcap o.1 o.2 y x hi cur
    rw [e2]
    refine ⟨_, rfl, ?_, fin _ _ (by rw [decide_eq_false hfg, decide_eq_false hcnt]), rfl, rfl, ?_⟩
    · rw [if_neg hcnt]; simp [finish, hfg]
    · rw [decide_eq_false hcnt]
      intro s y' x'
      rcases hu s y' x' with h | ⟨h1, h2, h3⟩
      · rcases ho s y' x' with h' | ⟨rfl, rfl, h'⟩
        · exact Or.inl (h.trans h')
        · exact Or.inr ⟨hi, near_refl _ _, h.trans h', Or.inl rfl⟩
      · exact Or.inr ⟨h1, near_symm (near_mono (by split <;> omega) h2), h3, Or.inl rfl⟩

/-- What the pixel loop has done after the pixels `pre`. -/
structure FInv (rd : ℚ → ℚ) (K : Kind I V) (P : Par) (st : St V) (inp : Input I) (fLT fST : ℚ) (pre : List (Nat × Nat)) (l : Loop V) : Prop where
  fbOld : ∀ y x, (y, x) ∉ pre → l.fb y x = st.fb y x
  fbOk : ∀ y x, FbOk rd (l.fb y x)
  fbNew : ∀ p ∈ pre, st.lower ≤ (l.fb p.1 p.2).T ∧ (l.fb p.1 p.2).T ≤ st.upper
  bound : st.frameIdx ≤ 2 ^ 20 → ∀ y x, FbBound (st.frameIdx + 1) (l.fb y x)
  lastOld : ∀ y x, (y, x) ∉ pre → l.last y x = st.last y x
  lastNew : ∀ p ∈ pre, l.last p.1 p.2 = K.obs st.lut inp.img p.1 p.2
  maskBin : ∀ y x, l.mask y x = 0 ∨ l.mask y x = 255
  maskOld : ∀ y x, (y, x) ∉ pre → l.mask y x = 0
  nz : l.nz = (pre.filter fun p => K.textured (K.obs st.lut inp.img p.1 p.2)).length
  samples : ∀ s y x, l.model s y x = st.model s y x ∨ ∃ p ∈ pre, Inner P.c.b P.c.h P.c.w (y, x) ∧ Near 2 (y, x) p ∧
    l.model s y x = K.obs st.lut inp.img p.1 p.2 ∧ (l.mask p.1 p.2 = 0 ∨ (st.cooldown ≠ 0 ∧ (y, x) = p))
  fbForm : ∀ p ∈ pre, ∃ dl d, Unit dl ∧ Unit d ∧ l.fb p.1 p.2 = feedback rd st.lower st.upper (decide (st.fg p.1 p.2 ≠ 0)) (decide (l.mask p.1 p.2 ≠ 0))
    (decide (st.blinks p.1 p.2 ≠ 0)) (averages rd fLT fST dl d (decide (l.mask p.1 p.2 ≠ 0)) (st.fb p.1 p.2))

/-- The mask rule. -/
def MaskRule (rd : ℚ → ℚ) (K : Kind I V) (P : Par) (rnd : Nat → Nat) (st : St V) (inp : Input I) (fLT fST : ℚ) (px : List (Nat × Nat))
    (mask : Gray) : Prop :=
  ∀ pre p post, px = pre ++ p :: post → ∃ before col desc, pixels rd K P rnd pre st inp fLT fST = .ok before ∧
    colThr rd P.minCol (st.fb p.1 p.2) = .ok col ∧ descThr rd P.descOff (st.fb p.1 p.2) = .ok desc ∧
    mask p.1 p.2 = if count P.c.n (fun s => (K.test st.lut inp.img p.1 p.2 col desc (before.model s p.1 p.2)).isSome) < P.c.req then 255 else 0

theorem pixels_spec {rd : ℚ → ℚ} (H : Rounds rd) (K : Kind I V) (hK : KindOk K) (P : Par) (hn0 : 0 < P.c.n) (hh : 2 * P.c.b < P.c.h)
    (hw : 2 * P.c.b < P.c.w) (rnd : Nat → Nat) (px : List (Nat × Nat)) (hpx : ∀ p ∈ px, Inner P.c.b P.c.h P.c.w p) (hnd : px.Nodup)
    (st : St V) (inp : Input I) (hov : ∀ n, inp.over = some n → 0 < n) (fLT fST : ℚ)
    (hL : Factor rd fLT) (hS : Factor rd fST) (hl1 : 1 ≤ st.lower) (hlu : st.lower ≤ st.upper) (hu : st.upper ≤ 512)
    (hfb : ∀ y x, FbOk rd (st.fb y x)) (hB : st.frameIdx ≤ 2 ^ 20 → ∀ y x, FbBound st.frameIdx (st.fb y x)) :
    (∃ l, pixels rd K P rnd px st inp fLT fST = .ok l ∧ FInv rd K P st inp fLT fST px l ∧ MaskRule rd K P rnd st inp fLT fST px l.mask) ∨
    (pixels rd K P rnd px st inp fLT fST = .error .distShift ∧ 3000 < st.frameIdx) := by
  have main := exFold_inv (step rd K P rnd st inp fLT fST) px
    (fun pre l => pixels rd K P rnd pre st inp fLT fST = .ok l ∧ FInv rd K P st inp fLT fST pre l ∧ MaskRule rd K P rnd st inp fLT fST pre l.mask)
    (fun e => e = .distShift ∧ 3000 < st.frameIdx)
    (fun pre p post l hl hP => by
      obtain ⟨hpre, hI, hM⟩ := hP
      have hp : p ∈ px := by rw [hl]; simp
      have hpn : p ∉ pre := by
        intro hpp
        rw [hl, List.nodup_append] at hnd
        exact hnd.2.2 p hpp p (by simp) rfl
      have hold : l.fb p.1 p.2 = st.fb p.1 p.2 := hI.fbOld _ _ hpn
      obtain ⟨col, hcol⟩ := colThr_spec H P.minCol (hI.fbOk p.1 p.2)
      have hdesc : (∃ d, descThr rd P.descOff (l.fb p.1 p.2) = .ok d) ∨ (descThr rd P.descOff (l.fb p.1 p.2) = .error .distShift ∧ 3000 < st.frameIdx) := by
        by_cases ht : st.frameIdx ≤ 2 ^ 20
        · exact descThr_spec H P.descOff (hI.fbOk p.1 p.2) (by rw [hold]; exact hB ht p.1 p.2)
        · unfold descThr
          split
          · exact Or.inr ⟨rfl, by omega⟩
          · exact Or.inl ⟨_, rfl⟩
      rcases hdesc with ⟨desc, hdesc⟩ | ⟨he, ht⟩
      · left
        obtain ⟨l', e, hm, ⟨b', hfb', hok', hlo', hup', hbd', dl', d', hdl', hd', hform'⟩, hlast', hnz', hs'⟩ := stepThr_spec H K hK P hn0 hh hw rnd st inp hov fLT fST hL hS hl1 hlu hu l
          p.1 p.2 col desc (hpx p hp) (hI.fbOk p.1 p.2)
        have hstep : step rd K P rnd st inp fLT fST l p = .ok l' := by
          unfold step
          rw [hcol, hdesc]
          exact e
        have hmother : ∀ y x, (y, x) ≠ p → l'.mask y x = l.mask y x := by
          intro y x hne
          rw [hm]
          split
          · exact setPx_other _ _ _ _ _ _ hne
          · rfl
        have hmp : l'.mask p.1 p.2 = if count P.c.n (fun s => (K.test st.lut inp.img p.1 p.2 col desc (l.model s p.1 p.2)).isSome) < P.c.req then 255 else 0 := by
          rw [hm]
          split
          · exact setPx_same _ _ _ _
          · exact hI.maskOld _ _ hpn
        refine ⟨l', hstep, exFold_append _ _ _ _ _ _ hpre hstep, ⟨?_, ?_, ?_, ?_, ?_, ?_, ?_, ?_, ?_, ?_, ?_⟩, ?_⟩
        · intro y x hy
          rw [hfb', setPx_other _ _ _ _ _ _ (fun h => hy (by rw [h]; simp))]
          exact hI.fbOld y x fun h => hy (by simp [h])
        · intro y x
          rw [hfb']
          by_cases h : (y, x) = p
          · subst h; rw [setPx_same]; exact hok'
          · rw [setPx_other _ _ _ _ _ _ h]; exact hI.fbOk y x
        · intro q hq
          rw [hfb']
          by_cases h : q = p
          · subst h; rw [setPx_same]; exact ⟨hlo', hup'⟩
          · rw [setPx_other _ _ _ _ _ _ (by simpa using h)]
            refine hI.fbNew q ?_
            rcases List.mem_append.1 hq with h' | h'
            · exact h'
            · exact absurd (by simpa using h') h
        · intro ht y x
          rw [hfb']
          by_cases h : (y, x) = p
          · subst h; rw [setPx_same]
            exact hbd' _ ht (by dsimp only at hold ⊢; rw [hold]; exact hB ht y x)
          · rw [setPx_other _ _ _ _ _ _ h]; exact hI.bound ht y x
        · intro y x hy
          rw [hlast', setPx_other _ _ _ _ _ _ (fun h => hy (by rw [h]; simp))]
          exact hI.lastOld y x fun h => hy (by simp [h])
        · intro q hq
          rw [hlast']
          by_cases h : q = p
          · subst h; rw [setPx_same]
          · rw [setPx_other _ _ _ _ _ _ (by simpa using h)]
            refine hI.lastNew q ?_
            rcases List.mem_append.1 hq with h' | h'
            · exact h'
            · exact absurd (by simpa using h') h
        · intro y x
          by_cases h : (y, x) = p
          · subst h
            dsimp only at hmp
            rw [hmp]
            split
            · exact Or.inr rfl
            · exact Or.inl rfl
          · rw [hmother y x h]; exact hI.maskBin y x
        · intro y x hy
          rw [hmother y x (fun h => hy (by rw [h]; simp))]
          exact hI.maskOld y x fun h => hy (by simp [h])
        · rw [hnz', List.filter_append, List.length_append, hI.nz]
          by_cases h : K.textured (K.obs st.lut inp.img p.1 p.2) = true <;> simp [h]
        · intro s y x
          rcases hs' s y x with h | ⟨h1, h2, h3, h4⟩
          · rcases hI.samples s y x with g | ⟨q, hq, g1, g2, g3, g4⟩
            · exact Or.inl (h.trans g)
            · refine Or.inr ⟨q, by simp [hq], g1, g2, h.trans g3, ?_⟩
              have hqp : (q.1, q.2) ≠ p := fun e => hpn (by rw [← e]; exact hq)
              rw [hmother q.1 q.2 hqp]
              exact g4
          · refine Or.inr ⟨p, by simp, h1, h2, h3, ?_⟩
            rcases h4 with h4 | ⟨h4, rfl, rfl⟩
            · left
              rw [hmp, if_neg (by simpa using h4)]
            · exact Or.inr ⟨h4, rfl⟩
        · intro q hq
          by_cases h : q = p
          · subst h
            refine ⟨dl', d', hdl', hd', ?_⟩
            rw [hfb', setPx_same, hform', hold]
            have hd2 : decide (l'.mask q.1 q.2 ≠ 0) =
                decide (count P.c.n (fun s => (K.test st.lut inp.img q.1 q.2 col desc (l.model s q.1 q.2)).isSome) < P.c.req) := by
              rw [hmp]
              split
              · rename_i hc; rw [decide_eq_true hc]; rfl
              · rename_i hc; rw [decide_eq_false hc]; rfl
            rw [hd2]
          · have hq' : q ∈ pre := by
              rcases List.mem_append.1 hq with h' | h'
              · exact h'
              · exact absurd (by simpa using h') h
            rw [hfb', setPx_other _ _ _ _ _ _ (by simpa using h), hmother q.1 q.2 (by simpa using h)]
            exact hI.fbForm q hq'
        · intro pre' q post' hq
          rcases List.eq_nil_or_concat post' with rfl | ⟨post'', z, rfl⟩
          · have hq' : pre ++ [p] = pre' ++ [q] := hq
            obtain ⟨rfl, h2⟩ := List.append_inj' hq' rfl
            obtain rfl : p = q := by simpa using h2
            exact ⟨l, col, desc, hpre, by rw [← hold]; exact hcol, by rw [← hold]; exact hdesc, hmp⟩
          · have hq' : pre ++ [p] = (pre' ++ q :: post'') ++ [z] := by rw [hq]; simp
            obtain ⟨h1, -⟩ := List.append_inj' hq' rfl
            obtain ⟨before, c', d', g1, g2, g3, g4⟩ := hM pre' q post'' h1
            have hqp : (q.1, q.2) ≠ p := fun e => hpn (by rw [← e, h1]; simp)
            exact ⟨before, c', d', g1, g2, g3, by rw [hmother q.1 q.2 hqp]; exact g4⟩
      · right
        refine ⟨.distShift, ?_, rfl, ht⟩
        unfold step
        rw [hcol, he])
    ⟨st.model, st.k, fun _ _ => 0, st.fb, st.last, 0⟩
    ⟨rfl, ⟨fun _ _ _ => rfl, hfb, fun p hp => absurd hp (by simp), fun ht y x => (hB ht y x).mono (by omega), fun _ _ _ => rfl,
      fun p hp => absurd hp (by simp), fun _ _ => Or.inl rfl, fun _ _ _ => rfl, rfl, fun _ _ _ => Or.inl rfl, fun p hp => absurd hp (by simp)⟩,
      fun pre p post h => absurd h (by simp)⟩
  rcases main with ⟨l, h1, h2, h3, h4⟩ | ⟨e, h1, rfl, h2⟩
  · exact Or.inl ⟨l, h1, h3, h4⟩
  · exact Or.inr ⟨h1, h2⟩

end Litiv.SubSense
