import Verif.Lemmas.PawcsFrame

/-!
# One pixel and one frame of PAWCS in terms of the specification
-/

namespace Litiv.Pawcs
open Consensus Consensus.Spec Spec

variable {F : Type}

theorem weight_nonneg {rd : ℚ → ℚ} (R : IEEE.Rounds rd) (t off : Nat) (w : Word F) : 0 ≤ weightOf rd t off w := by
  unfold weightOf
  exact Rounds_nonneg R (div_nonneg (Rounds_nonneg R (by positivity)) (Rounds_nonneg R (by positivity)))

theorem runSum_fixed {rd : ℚ → ℚ} (R : IEEE.Rounds rd) (f : Frame F) (t y x : Nat) (words : Nat → Option (Word F)) : ∀ i,
    rd (runSum rd f t y x words i) = runSum rd f t y x words i
  | 0 => Rounds_zero R
  | i + 1 => by
    have ih := runSum_fixed R f t y x words i
    unfold runSum
    cases words i with
    | none => exact ih
    | some w =>
      dsimp only
      by_cases h : f.near y x w.feat = true
      · rw [if_pos h]; exact R.idem _
      · rw [if_neg h]; exact ih

theorem runSum_succ {rd : ℚ → ℚ} (R : IEEE.Rounds rd) (f : Frame F) (t y x : Nat) (words : Nat → Option (Word F)) (i : Nat) :
    runSum rd f t y x words i ≤ runSum rd f t y x words (i + 1) := by
  conv_rhs => unfold runSum
  cases words i with
  | none => exact le_rfl
  | some w =>
    dsimp only
    by_cases h : f.near y x w.feat = true
    · rw [if_pos h]
      conv_lhs => rw [← runSum_fixed R]
      refine R.mono _ _ ?_
      have := weight_nonneg R t f.off w
      linarith
    · rw [if_neg h]

theorem runSum_mono {rd : ℚ → ℚ} (R : IEEE.Rounds rd) (f : Frame F) (t y x : Nat) (words : Nat → Option (Word F)) {i j : Nat} (h : i ≤ j) :
    runSum rd f t y x words i ≤ runSum rd f t y x words j :=
  monotone_nat_of_le_succ (fun i => runSum_succ R f t y x words i) h

theorem seen_visited {rd : ℚ → ℚ} {rnd : Nat → Nat} {f : Frame F} {t y x i : Nat} {w w' : Word F} (h : Seen rd rnd f t y x i w w') : Visited rd rnd f t y x i w w' := by
  obtain ⟨il, h1, rfl⟩ := h
  unfold scanned
  by_cases hn : f.near y x w.feat = true
  · rw [if_pos hn]
    refine ⟨rfl, (if_pos hn).symm, ?_, ?_⟩
    · show (if ((!f.lastFG y x || f.moving) && decide (weightOf rd t f.off w < 1)) = true then w.occ + bonus f y x else w.occ) = _
      by_cases h2 : ((!f.lastFG y x || f.moving) && decide (weightOf rd t f.off w < 1)) = true
      · rw [if_pos h2, if_pos]
        rw [Bool.and_eq_true, Bool.or_eq_true, decide_eq_true_eq] at h2
        exact ⟨hn, by simpa using h2.1, h2.2⟩
      · rw [if_neg h2, if_neg]
        rintro ⟨-, g1, g2⟩
        refine h2 ?_
        rw [Bool.and_eq_true, Bool.or_eq_true, decide_eq_true_eq]
        exact ⟨by simpa using g1, g2⟩
    · cases il with
      | true => exact Or.inr ⟨(h1 rfl).1, (h1 rfl).2, rfl⟩
      | false => exact Or.inl rfl
  · rw [if_neg hn]
    refine ⟨rfl, (if_neg hn).symm, ?_, ?_⟩
    · exact (if_neg (fun hc => hn hc.1)).symm
    · cases il with
      | true => exact Or.inr ⟨(h1 rfl).1, (h1 rfl).2, rfl⟩
      | false => exact Or.inl rfl

theorem shared_reinforced {rd : ℚ → ℚ} {f : Frame F} {t y x : Nat} {q : Nat × Nat} {w w' : Word F} (h : Shared rd f t y x q w w') : Reinforced rd f t y x q w w' := by
  obtain ⟨g, h1, rfl⟩ := h
  cases hb : f.byRef with
  | false => exact ⟨fun _ => rfl, rfl, fun hc => absurd hc (by rw [hb]; simp), fun hc => absurd hc (by rw [hb]; simp), Or.inl rfl⟩
  | true =>
    refine ⟨fun hc => absurd hc (by rw [hb]; simp), rfl, fun _ => rfl, fun _ => ?_, ?_⟩
    · show (if weightOf rd t f.off w < 1 then w.occ + (if f.nflat w.feat then bonus f y x * 2 else bonus f y x) else w.occ) = _
      congr 2
      split_ifs <;> omega
    · rcases h1 with ⟨-, rfl⟩ | ⟨h1, h2⟩
      · exact Or.inl rfl
      · exact Or.inr ⟨h1, h2⟩

/-- The words of a block after a change of another one. -/
theorem Touch.words {np n p : Nat} {s s' : Store (Word F)} (hs : LFull np n s) (h : Touch np n p s s') {q i : Nat} (hq : q < np) (hi : i < n) (hqp : q ≠ p) :
    wordsOf s' (q * n) i = wordsOf s (q * n) i := by
  obtain ⟨h1, h2⟩ := h.other hs hq hi hqp
  obtain ⟨a, a1, a2⟩ := hs.addr hq hi
  have a3 : s'.addr (q * n + i) = some a := h.full.ok.addr (h.full.lt hq hi) (by rw [h1]; exact a2)
  unfold wordsOf
  rw [a1, a3]
  exact congrArg some (h2 a a2)

/-- The step of one pixel. -/
theorem pixel_step {rd : ℚ → ℚ} (R : IEEE.Rounds rd) {c : Cfg} {ng : Nat} {px : List (Nat × Nat)} (S : Setup c ng px) (rnd : Nat → Nat) (f : Frame F) (hf : Callable f) (t : Nat)
    (l : Loop F) {p y x : Nat} (hpx : px[p]? = some (y, x)) (h : Live c ng px.length l.m) :
    ∃ l', pixel rd c ng rnd px f t l (p, y, x) = some l' ∧ Live c ng px.length l'.m ∧ PixelStep rd c ng px rnd f t p y x l l' := by
  have hp : p < px.length := (List.getElem?_eq_some_iff.1 hpx).1
  obtain ⟨l', a0, s1, s2, fg, j, lw, k1, k2, e, hl, hr, b0, b1, b2, b3, c1, c2, c3, t2, d2, m2, fin⟩ := pixel_spec rd S rnd f hf t l hpx h
  refine ⟨l', e, hl, ?_⟩
  have t1 := c1.touch h.loc hp
  -- the threshold and the sum
  have hw0 : wordAt c l.m p 0 = some (l.m.loc.mem a0) := by
    unfold wordAt
    rw [Nat.add_zero, h.loc.ok.addr (by have := h.loc.lt hp S.words; rwa [Nat.add_zero] at this) b0]
    rfl
  have hthr : threshold rd f t y x (l.m.loc.mem a0) = needed rd f t y x (wordAt c l.m p) := by
    unfold needed
    rw [hw0]
    rfl
  have hwo : wordsOf l.m.loc (p * c.n) = wordAt c l.m p := rfl
  rw [hthr] at fin
  rw [hthr, hwo] at b2 b3 c2 m2
  have hlt : ∀ i < c.n, (i < j ↔ runSum rd f t y x (wordAt c l.m p) i < needed rd f t y x (wordAt c l.m p)) := by
    intro i hi
    refine ⟨b2 i, ?_⟩
    intro hc
    by_contra hji
    exact absurd (lt_of_le_of_lt (runSum_mono R f t y x _ (not_lt.1 hji)) hc) (not_lt.2 (b3 (by omega)))
  have hge : needed rd f t y x (wordAt c l.m p) ≤ runSum rd f t y x (wordAt c l.m p) j ↔
      needed rd f t y x (wordAt c l.m p) ≤ runSum rd f t y x (wordAt c l.m p) c.n := by
    refine ⟨fun hc => hc.trans (runSum_mono R f t y x _ b1), ?_⟩
    intro hc
    rcases Nat.lt_or_ge j c.n with g | g
    · exact b3 g
    · rw [show j = c.n by omega]; exact hc
  have hsum : runSum rd f t y x (wordAt c l.m p) j < needed rd f t y x (wordAt c l.m p) →
      runSum rd f t y x (wordAt c l.m p) j = runSum rd f t y x (wordAt c l.m p) c.n := by
    intro hc
    rcases Nat.lt_or_ge j c.n with g | g
    · exact absurd hc (not_lt.2 (b3 g))
    · rw [show j = c.n by omega]
  have hmask : l'.mask y x = fg := by rw [c3]; exact if_pos ⟨rfl, rfl⟩
  refine ⟨⟨k1, ?_⟩, ?_, fun q => wordsOf s2 (q * c.n), ?_, ?_, ?_⟩
  · rw [hmask, c2]
    by_cases hc : needed rd f t y x (wordAt c l.m p) ≤ runSum rd f t y x (wordAt c l.m p) j
    · exact ⟨fun _ => Or.inl (hge.1 hc), fun _ => Or.inl hc⟩
    · unfold LabelBG Spec.Background
      rw [hsum (not_le.1 hc)]
      exact Iff.rfl
  · intro y' x' hne
    rw [c3]
    refine if_neg ?_
    rintro ⟨rfl, rfl⟩
    exact hne rfl
  · -- the words of the pixel
    have hadr : ∀ i, ∃ a m, i < c.n → l.m.loc.dict (p * c.n + i) = some a ∧ m < c.n ∧ s1.dict (p * c.n + m) = some a := by
      intro i
      by_cases hi : i < c.n
      · obtain ⟨a, -, ha⟩ := h.loc.addr hp hi
        obtain ⟨m, m1, m2⟩ := (c1.perm a).2 ⟨i, hi, ha⟩
        exact ⟨a, m, fun _ => ⟨ha, m1, m2⟩⟩
      · exact ⟨0, 0, fun hc => absurd hc hi⟩
    choose ad σ hσ using hadr
    have hbefore : ∀ i < c.n, wordAt c l.m p i = some (l.m.loc.mem (ad i)) := by
      intro i hi
      unfold wordAt
      rw [h.loc.ok.addr (h.loc.lt hp hi) (hσ i hi).1]
      rfl
    refine ⟨σ, fun i hi => (hσ i hi).2.1, ?_, ?_, ?_, ?_⟩
    · intro i hi i' hi' hs
      have h1 := (hσ i hi).2.2
      rw [hs, (hσ i' hi').2.2] at h1
      have h2 := Option.some.inj h1
      have h3 := (hσ i hi).1
      rw [← h2] at h3
      have := h.loc.ok.inj _ _ _ (h.loc.lt hp hi) (h.loc.lt hp hi') h3 (hσ i' hi').1
      omega
    · intro i hi
      obtain ⟨q1, q2, q3⟩ := hσ i hi
      refine ⟨_, s2.mem (ad i), hbefore i hi, ?_, ?_⟩
      · show wordsOf s2 (p * c.n) (σ i) = _
        unfold wordsOf
        rw [t2.full.ok.addr (t2.full.lt hp q2) (by rw [d2]; exact q3)]
        rfl
      · have hm := m2 (σ i) q2 (ad i) q3
        have hold := c1.memr i hi (ad i) q1
        have hcond : (σ i = c.n - 1 ∧ runSum rd f t y x (wordAt c l.m p) j < needed rd f t y x (wordAt c l.m p) ∧ f.border y x = false ∧
              runSum rd f t y x (wordAt c l.m p) j < initWeight rd f) ↔
            (σ i = c.n - 1 ∧ runSum rd f t y x (wordAt c l.m p) c.n < needed rd f t y x (wordAt c l.m p) ∧ f.border y x = false ∧
              runSum rd f t y x (wordAt c l.m p) c.n < newWeight rd f) := by
          constructor
          · rintro ⟨g1, g2, g3, g4⟩
            have g5 := hsum g2
            rw [g5] at g2 g4
            exact ⟨g1, g2, g3, g4⟩
          · rintro ⟨g1, g2, g3, g4⟩
            have g5 : runSum rd f t y x (wordAt c l.m p) j < needed rd f t y x (wordAt c l.m p) := lt_of_le_of_lt (runSum_mono R f t y x _ b1) g2
            rw [← hsum g5] at g2 g4
            exact ⟨g1, g2, g3, g4⟩
        by_cases hx : σ i = c.n - 1 ∧ runSum rd f t y x (wordAt c l.m p) j < needed rd f t y x (wordAt c l.m p) ∧ f.border y x = false ∧
              runSum rd f t y x (wordAt c l.m p) j < initWeight rd f
        · rw [if_pos (hcond.1 hx), hm, if_pos hx]; rfl
        · rw [if_neg (fun hc => hx (hcond.2 hc)), hm, if_neg hx]
          by_cases hij : i < j
          · rw [if_pos ((hlt i hi).1 hij)]
            rw [if_pos hij] at hold
            exact seen_visited hold
          · rw [if_neg (fun hc => hij ((hlt i hi).2 hc))]
            rw [if_neg hij] at hold
            exact hold
    · intro i hi hs i' hi' w w' hw hw'
      rw [hbefore i hi] at hw
      rw [hbefore i' hi'] at hw'
      have := Option.some.inj hw; subst this
      have := Option.some.inj hw'; subst this
      rcases c1.low with ⟨g, -⟩ | ⟨a, -, g2, -, g4⟩
      · have := S.words; omega
      · have h1 := (hσ i hi).2.2
        rw [hs, g2] at h1
        have h2 := Option.some.inj h1
        have := g4 (σ i') (hσ i' hi').2.1 (ad i') (hσ i' hi').2.2
        rw [h2] at this
        exact this
    · intro i hi hs w w' hw hw'
      obtain ⟨a, d, g1, g2, g3⟩ := c1.top S.words
      have h1 := (hσ i hi).2.2
      rw [hs, g2] at h1
      have h2 := Option.some.inj h1
      have h3 := (hσ 0 S.words).1
      rw [g1] at h3
      have h4 := Option.some.inj h3
      rw [hbefore i hi] at hw'
      rw [hbefore 0 S.words] at hw
      rw [← Option.some.inj hw, ← Option.some.inj hw', ← h2, ← h4]
      exact g3
  · intro q hq hqp i hi
    show wordsOf s2 (q * c.n) i = wordsOf l.m.loc (q * c.n) i
    rw [t2.words t1.full hq hi hqp, t1.words h.loc hq hi hqp]
  · rcases fin with g | ⟨q, p', hit, j', hp', hn, hw, t3, sp⟩
    · left
      intro q _ i _
      show wordsOf l'.m.loc (q * c.n) i = _
      rw [g]
    · right
      have hp'l : p' < px.length := (List.getElem?_eq_some_iff.1 hp').1
      refine ⟨q, p', k2, hp', hn, ?_, ?_, hit, j', sp.upto, sp.before, sp.stop, ?_⟩
      · rw [hmask]; exact hw
      · intro r hr hrp i hi
        exact t3.words t2.full hr hi hrp
      · intro i hi
        obtain ⟨a, a1, a2⟩ := t2.full.addr hp'l hi
        have a3 : l'.m.loc.addr (p' * c.n + i) = some a := t3.full.ok.addr (t3.full.lt hp'l hi) (by rw [sp.dict]; exact a2)
        refine ⟨s2.mem a, l'.m.loc.mem a, ?_, ?_, ?_, ?_, ?_⟩
        · show wordsOf s2 (p' * c.n) i = _
          unfold wordsOf; rw [a1]; rfl
        · unfold wordAt; rw [a3]; rfl
        · intro hij; exact (sp.hits i hij a a2).1
        · intro hij hh hnn
          have := (sp.hits i hij a a2).2 hh hnn
          rw [c3]
          exact this
        · obtain ⟨g1, g2⟩ := sp.sum i hi a a2
          by_cases hx : i = c.n - 1 ∧ gain rd t f.off (wordsOf s2 (p' * c.n)) hit j' < newWeight rd f
          · dsimp only; rw [if_pos hx]; exact g1 hx
          · dsimp only; rw [if_neg hx]
            obtain ⟨g3, g4, g5⟩ := g2 hx
            by_cases hij : i < j' ∧ hit i = true
            · rw [if_pos hij]
              exact shared_reinforced (g4 hij.1 hij.2)
            · rw [if_neg hij]
              by_cases hji : i < j'
              · exact g5 hji (by simpa using fun hc => hij ⟨hji, hc⟩)
              · exact g3 (by omega)

theorem indexed_at (px : List (Nat × Nat)) {p : Nat} {q : Nat × Nat} (h : px[p]? = some q) : (indexed px)[p]? = some (p, q) := by
  unfold indexed
  rw [List.getElem?_map, List.getElem?_zipIdx, h]
  simp

/-- A frame is a succession of pixel steps. -/
theorem frame_steps_spec {rd : ℚ → ℚ} (R : IEEE.Rounds rd) {c : Cfg} {ng : Nat} {px : List (Nat × Nat)} (S : Setup c ng px) (rnd : Nat → Nat) (f : Frame F) (hf : Callable f) (t : Nat)
    (m : Mdl F) (h : Live c ng px.length m) :
    ∃ (l' : Loop F) (ls : Nat → Loop F), applyFrame rd c ng rnd px f t m = some l' ∧ ls 0 = ⟨m, fun _ _ => false⟩ ∧ l'.m.loc = (ls px.length).m.loc ∧ l'.mask = (ls px.length).mask ∧
      ∀ p y x, px[p]? = some (y, x) → PixelStep rd c ng px rnd f t p y x (ls p) (ls (p + 1)) := by
  have hex : ∀ p, ∃ l, p ≤ px.length → ((indexed px).take p).foldlM (pixel rd c ng rnd px f t) ⟨m, fun _ _ => false⟩ = some l ∧ Live c ng px.length l.m := by
    intro p
    induction p with
    | zero => exact ⟨⟨m, fun _ _ => false⟩, fun _ => ⟨rfl, h⟩⟩
    | succ p ih =>
      obtain ⟨l, hl⟩ := ih
      by_cases hp : p + 1 ≤ px.length
      · obtain ⟨h1, h2⟩ := hl (by omega)
        have hpx : px[p]? = some px[p] := List.getElem?_eq_getElem (by omega)
        obtain ⟨l', e, h3, -⟩ := pixel_step R S rnd f hf t l (y := px[p].1) (x := px[p].2) hpx h2
        refine ⟨l', fun _ => ⟨?_, h3⟩⟩
        rw [List.take_add_one, indexed_at px hpx, List.foldlM_append, h1]
        simp only [Option.bind_eq_bind, Option.bind_some, Option.toList_some, List.foldlM_cons, List.foldlM_nil]
        rw [show ((p, px[p]) : Nat × Nat × Nat) = (p, px[p].1, px[p].2) from rfl, e]; rfl
      · exact ⟨l, fun hc => absurd hc hp⟩
  choose ls hls using hex
  have h0 : ls 0 = ⟨m, fun _ _ => false⟩ := by
    have := (hls 0 (by omega)).1
    exact (Option.some.inj this).symm
  have hend := hls px.length le_rfl
  rw [List.take_of_length_le (by rw [indexed_length])] at hend
  have hstep : ∀ p y x, px[p]? = some (y, x) → PixelStep rd c ng px rnd f t p y x (ls p) (ls (p + 1)) := by
    intro p y x hpx
    have hp : p < px.length := (List.getElem?_eq_some_iff.1 hpx).1
    obtain ⟨h1, h2⟩ := hls p (by omega)
    obtain ⟨h3, -⟩ := hls (p + 1) (by omega)
    obtain ⟨l', e, -, hs⟩ := pixel_step R S rnd f hf t (ls p) hpx h2
    rw [List.take_add_one, indexed_at px hpx, List.foldlM_append, h1] at h3
    simp only [Option.bind_eq_bind, Option.bind_some, Option.toList_some, List.foldlM_cons, List.foldlM_nil] at h3
    rw [e] at h3
    have : l' = ls (p + 1) := Option.some.inj h3
    rw [← this]; exact hs
  obtain ⟨g, e2, hg⟩ := gTick_spec rd f (decide (t % (gRate f * 32) = 0)) (decide (t % gRate f = 0)) hend.2.glo
  unfold applyFrame
  rw [hend.1]
  dsimp only
  rw [e2]
  dsimp only
  by_cases ht : t % gRate f = 0
  · rw [if_pos ht]
    obtain ⟨r, e3, -, -⟩ := sortRanks_spec S hg (ls px.length).m.ranks hend.2.ranks
    rw [e3]
    exact ⟨_, ls, rfl, h0, rfl, rfl, hstep⟩
  · rw [if_neg ht]
    exact ⟨_, ls, rfl, h0, rfl, rfl, hstep⟩

end Litiv.Pawcs
