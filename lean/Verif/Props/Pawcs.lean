import Verif.Lemmas.PawcsStep

/-!
# Properties of the word dictionaries of PAWCS
-/

namespace Litiv.Pawcs
open Consensus Consensus.Spec Spec

variable {F : Type}

/-! ## A small instance -/

/-- A 3 x 3 image with one relevant pixel and two words. -/
def tiny : Cfg := ⟨3, 3, 2, 0, 1⟩

/-- A 3 x 4 image with two relevant pixels and two words. -/
def tiny2 : Cfg := ⟨3, 4, 2, 0, 1⟩

theorem tiny_setup (ng : Nat) (h : 0 < ng) : Setup tiny ng [(1, 1)] :=
  ⟨by decide, by decide, by decide, by decide, h, by simp [Consensus.Spec.Inner, tiny], by simp⟩

theorem tiny2_setup (ng : Nat) (h : 0 < ng) : Setup tiny2 ng [(1, 1), (1, 2)] :=
  ⟨by decide, by decide, by decide, by decide, h, by simp [Consensus.Spec.Inner, tiny2], by simp⟩

/-- A uniform image; words are close when they are equal; jitter adds one. -/
def tinyInit : Refresh Nat := ⟨1, 0, false, 1000, fun _ _ => 5, fun _ _ => 0, fun _ _ f g => f == g, fun _ _ f g => f == g.feat, fun _ _ _ f => f + 1, fun _ => 0⟩

/-- A frame in which every pixel has the feature `v`, with update rate `rate`. -/
def tinyFrame (v rate : Nat) (byRef : Bool) : Frame Nat where
  off := 1000
  boot := true
  moving := false
  cooldown := 0
  cur := fun _ _ => v
  R := fun _ _ => 2
  near := fun _ _ g => g == v
  illum := fun _ _ _ => false
  irate := fun _ _ _ => 8
  flat := fun _ _ => true
  border := fun _ _ => false
  lastFG := fun _ _ => false
  rate := fun _ _ => rate
  gnear := fun _ _ g => g.feat == v
  gnew := fun _ _ => 0
  nnear := fun _ _ g => g == v
  nflat := fun _ => false
  nupd := fun _ _ _ _ => none
  byRef := byRef
  decay := id
  total := fun _ => 1

theorem tinyFrame_callable (v rate : Nat) (b : Bool) (h : 0 < rate) (h' : rate < 2 ^ 63) : Callable (tinyFrame v rate b) := by
  intro y x
  exact ⟨h, by show rate < _; omega, by show rate ≠ _; omega, fun _ => (by norm_num : 0 < 8)⟩

/-! ## The dictionaries are complete, for every history -/

/-- C121: initialization of a new object reads and writes no word outside of the lists, and leaves complete dictionaries. -/
theorem start_complete (rd : ℚ → ℚ) {c : Cfg} {ng : Nat} (zero : F) {px : List (Nat × Nat)} (S : Setup c ng px) (rnd : Nat → Nat) (r : Refresh F) (k : Nat) :
    ∃ m, start rd c ng zero rnd px r k = some m ∧ Complete c ng px.length m := by
  obtain ⟨m, e, h, -⟩ := start_spec rd zero S rnd r k
  exact ⟨m, e, h.complete S⟩

example : ∃ m, start id tiny2 3 0 (fun k => k * 7919) [(1, 1), (1, 2)] tinyInit 0 = some m ∧ Complete tiny2 3 2 m :=
  start_complete id 0 (tiny2_setup 3 (by norm_num)) _ _ _

/-- C121: after every history of frames (with usable update rates) and refreshes the dictionaries are complete, and no access was outside. -/
theorem session_complete (rd : ℚ → ℚ) {c : Cfg} {ng : Nat} (zero : F) {px : List (Nat × Nat)} (S : Setup c ng px) (rnd : Nat → Nat) (r : Refresh F)
    (ops : List (Op F)) (hops : ∀ f, Op.frame f ∈ ops → Callable f) :
    ∃ m t, session rd c ng zero rnd px r ops = some (m, t) ∧ Complete c ng px.length m := by
  obtain ⟨m, t, e, h, -⟩ := session_spec rd zero S rnd r ops hops
  exact ⟨m, t, e, h.complete S⟩

example : ∃ m t, session id tiny2 3 0 (fun k => k * 7919) [(1, 1), (1, 2)] tinyInit [.frame (tinyFrame 5 2 true), .refresh tinyInit, .frame (tinyFrame 9 3 false)] = some (m, t) ∧
    Complete tiny2 3 2 m :=
  session_complete id 0 (tiny2_setup 3 (by norm_num)) _ _ _ (by
    intro f hf
    simp at hf
    rcases hf with rfl | rfl
    · exact tinyFrame_callable _ _ _ (by norm_num) (by norm_num)
    · exact tinyFrame_callable _ _ _ (by norm_num) (by norm_num))

/-- C121 needs the condition on the rates: with the update rate 2^63, which a learning rate override gives, its double wraps to zero and a
remainder by zero is computed. -/
theorem override_refuted : ∃ f : Frame Nat, (∀ y x, 0 < f.rate y x ∧ f.rate y x < 2 ^ 64) ∧
    session id tiny 1 0 (fun _ => 0) [(1, 1)] tinyInit [.frame f] = none := by
  refine ⟨{ tinyFrame 5 (2 ^ 63) true with gnear := fun _ _ _ => false }, fun y x => ⟨?_, ?_⟩, ?_⟩
  · show 0 < 2 ^ 63; norm_num
  · show 2 ^ 63 < 2 ^ 64; norm_num
  · decide +kernel

/-- C127, refuted: initializing an object again on a same-size image can dereference a location map that is not allocated: the slots keep
the pointers of the previous model, so the words they refer to are not set up. -/
theorem restart_refuted : ∃ m, start id tiny 2 0 (fun _ => 0) [(1, 1)] tinyInit 0 = some m ∧ Complete tiny 2 1 m ∧
    restart id tiny 2 0 (fun _ => 0) [(1, 1)] tinyInit m = none := by
  obtain ⟨m, e, h⟩ := start_complete id (0 : Nat) (tiny_setup 2 (by norm_num)) (fun _ => 0) tinyInit 0
  refine ⟨m, e, h, ?_⟩
  have : (start id tiny 2 0 (fun _ => 0) [(1, 1)] tinyInit 0).bind (restart id tiny 2 0 (fun _ => 0) [(1, 1)] tinyInit) = none := by decide +kernel
  rw [e] at this
  exact this

/-! ## The words -/

/-- C122: after initialization each word of a pixel was seen at least once, is dated zero, has a feature that comes from within three
pixels, and is at most as heavy as the first word of the pixel. -/
theorem start_words {rd : ℚ → ℚ} (R : IEEE.Rounds rd) {c : Cfg} {ng : Nat} (zero : F) {px : List (Nat × Nat)} (S : Setup c ng px) (rnd : Nat → Nat) (r : Refresh F)
    (k : Nat) (m : Mdl F) (e : start rd c ng zero rnd px r k = some m) :
    ∀ p y x, px[p]? = some (y, x) → ∀ i < c.n, ∃ w w0, wordAt c m p i = some w ∧ wordAt c m p 0 = some w0 ∧ 1 ≤ w.occ ∧ w.first = 0 ∧ w.last = 0 ∧
      Derived c r y x w.feat ∧ weightOf rd 0 1000 w ≤ weightOf rd 0 1000 w0 := by
  obtain ⟨m', e', h, h2, h3⟩ := start_spec rd zero S rnd r k
  rw [e] at e'
  have := Option.some.inj e'; subst this
  intro p y x hpx i hi
  have hp : p < px.length := (List.getElem?_eq_some_iff.1 hpx).1
  have hP := h2 (fun p w => 1 ≤ w.occ ∧ w.first = 0 ∧ w.last = 0 ∧ ∀ q, px[p]? = some q → Derived c r q.1 q.2 w.feat) (by
    intro p q hq
    refine ⟨?_, ?_, ?_, ?_⟩
    · rintro w ⟨h1, h2, h3, h4⟩
      refine ⟨?_, h2, h3, h4⟩
      show 1 ≤ w.occ - ⌊(0 : ℚ) * (w.occ : ℚ)⌋.toNat
      simpa using h1
    · rintro w ⟨h1, h2, h3, h4⟩
      exact ⟨by show 1 ≤ w.occ + 1; omega, h2, rfl, h4⟩
    · intro q' h1 h2 _
      refine ⟨le_rfl, rfl, rfl, ?_⟩
      intro q'' hq''
      rw [hq] at hq''
      have := Option.some.inj hq''; subst this
      exact Derived.seen q' h1 h2
    · rintro w i k _ ⟨h1, h2, h3, h4⟩
      refine ⟨scaled_pos _ _ _, rfl, rfl, ?_⟩
      intro q' hq'
      rw [hq] at hq'
      have := Option.some.inj hq'; subst this
      exact Derived.jitter k _ (h4 q hq))
  obtain ⟨a, a1, a2⟩ := h.live.loc.addr hp hi
  obtain ⟨a0, b1, b2⟩ := h.live.loc.addr hp S.words
  obtain ⟨g1, g2, g3, g4⟩ := hP p hp i hi a a2
  refine ⟨m.loc.mem a, m.loc.mem a0, ?_, ?_, g1, g2, g3, g4 (y, x) hpx, ?_⟩
  · unfold wordAt; rw [a1]; rfl
  · unfold wordAt; rw [b1]; rfl
  · rw [Nat.add_zero] at b2
    exact h3 R p hp a0 b2 i hi a a2

example : ∃ m, start IEEE.float32 tiny 1 0 (fun _ => 0) [(1, 1)] tinyInit 0 = some m ∧ ∃ w, wordAt tiny m 0 1 = some w ∧ 1 ≤ w.occ := by
  obtain ⟨m, e, -⟩ := start_complete IEEE.float32 (0 : Nat) (tiny_setup 1 (by norm_num)) (fun _ => 0) tinyInit 0
  obtain ⟨w, w0, h1, h2, h3, -⟩ := start_words IEEE.float32_rounds 0 (tiny_setup 1 (by norm_num)) _ _ _ m e 0 1 1 rfl 1 (by decide)
  exact ⟨m, e, w, h1, h3⟩

/-- C122: after every history each word was first seen no later than last seen, and last seen no later than now; and its feature was
observed near the pixel, or comes from such a feature by jitter or updates. -/
theorem session_words (rd : ℚ → ℚ) {c : Cfg} {ng : Nat} (zero : F) {px : List (Nat × Nat)} (S : Setup c ng px) (rnd : Nat → Nat) (r : Refresh F)
    (ops : List (Op F)) (hops : ∀ f, Op.frame f ∈ ops → Callable f) (m : Mdl F) (t : Nat) (e : session rd c ng zero rnd px r ops = some (m, t)) :
    t ≤ ops.length ∧ ∀ p q, px[p]? = some q → ∀ i < c.n, ∃ w, wordAt c m p i = some w ∧ w.first ≤ w.last ∧ w.last ≤ t ∧ Known c px r ops q w.feat := by
  obtain ⟨m', t', e', h, ht, hP⟩ := session_spec rd zero S rnd r ops hops
  rw [e] at e'
  have := Option.some.inj e'
  have hm : m = m' := congrArg Prod.fst this
  have htt : t = t' := congrArg Prod.snd this
  subst hm; subst htt
  refine ⟨ht, ?_⟩
  intro p q hpx i hi
  have hp : p < px.length := (List.getElem?_eq_some_iff.1 hpx).1
  have key : ∀ p < px.length, Blk (fun w => w.first ≤ w.last ∧ w.last ≤ t ∧ ∀ q, px[p]? = some q → Known c px r ops q w.feat) c.n (p * c.n) m.loc := by
    refine hP (fun t p w => w.first ≤ w.last ∧ w.last ≤ t ∧ ∀ q, px[p]? = some q → Known c px r ops q w.feat) ?_ ?_ ?_ ?_
    · intro p q hq
      refine ⟨fun w hw => hw, ?_, ?_, ?_⟩
      · rintro w ⟨h1, h2, h3⟩
        exact ⟨by show w.first ≤ 0; omega, le_rfl, h3⟩
      · intro q' h1 h2 _
        refine ⟨le_rfl, le_rfl, ?_⟩
        intro q'' hq''
        rw [hq] at hq''
        have := Option.some.inj hq''; subst this
        exact Known.init q' h1 h2
      · rintro w i k _ ⟨h1, h2, h3⟩
        refine ⟨le_rfl, le_rfl, ?_⟩
        intro q' hq'
        rw [hq] at hq'
        have := Option.some.inj hq'; subst this
        exact Known.jitter0 k _ (h3 q hq)
    · intro f t hf
      refine ⟨?_, ?_, ?_⟩
      · rintro rnd p y x i w w' hpx ⟨h1, h2, h3⟩ hs
        obtain ⟨v1, v2, v3, v4⟩ := seen_visited hs
        refine ⟨?_, ?_, ?_⟩
        · rw [v1, v2]
          split_ifs <;> omega
        · rw [v2]
          split_ifs <;> omega
        · intro q hq
          rcases v4 with g | ⟨-, -, g⟩
          · rw [g]; exact h3 q hq
          · rw [g]
            rw [hpx] at hq
            have := Option.some.inj hq; subst this
            exact Known.frame f hf y x (List.mem_of_getElem? hpx) (near_self _ _)
      · intro p q y x hpx hmem hn
        refine ⟨le_rfl, le_rfl, ?_⟩
        intro q' hq'
        rw [hpx] at hq'
        have := Option.some.inj hq'; subst this
        exact Known.frame f hf y x hmem hn
      · rintro p q y x w w' hpx hmem hn ⟨h1, h2, h3⟩ hs
        obtain ⟨v1, v2, v3, v4, v5⟩ := shared_reinforced hs
        refine ⟨?_, ?_, ?_⟩
        · cases hb : f.byRef with
          | false => rw [v1 hb]; exact h1
          | true => rw [v2, v3 hb]; omega
        · cases hb : f.byRef with
          | false => rw [v1 hb]; exact h2
          | true => rw [v3 hb]
        · intro q' hq'
          have hk := h3 q' hq'
          rw [hpx] at hq'
          have := Option.some.inj hq'; subst this
          rcases v5 with g | ⟨-, g⟩
          · rw [g]; exact hk
          · exact Known.update f hf y x hmem hn _ _ hk g
    · rintro t p w ⟨h1, h2, h3⟩
      exact ⟨h1, by omega, h3⟩
    · intro r' t p q hr hq
      refine ⟨fun w hw => hw, ?_, ?_, ?_⟩
      · rintro w ⟨h1, h2, h3⟩
        exact ⟨by show w.first ≤ t; omega, le_rfl, h3⟩
      · intro q' h1 h2 _
        refine ⟨le_rfl, le_rfl, ?_⟩
        intro q'' hq''
        rw [hq] at hq''
        have := Option.some.inj hq''; subst this
        exact Known.refresh r' hr q' h1 h2
      · rintro w i k _ ⟨h1, h2, h3⟩
        refine ⟨le_rfl, le_rfl, ?_⟩
        intro q' hq'
        rw [hq] at hq'
        have := Option.some.inj hq'; subst this
        exact Known.jitter r' hr k _ (h3 q hq)
  obtain ⟨a, a1, a2⟩ := h.live.loc.addr hp hi
  obtain ⟨g1, g2, g3⟩ := key p hp i hi a a2
  refine ⟨m.loc.mem a, ?_, g1, g2, g3 q hpx⟩
  unfold wordAt; rw [a1]; rfl

example (m : Mdl Nat) (t : Nat) (e : session id tiny2 3 0 (fun k => k * 7919) [(1, 1), (1, 2)] tinyInit [.frame (tinyFrame 5 2 true)] = some (m, t)) : t ≤ 1 :=
  (session_words id 0 (tiny2_setup 3 (by norm_num)) _ _ _ (by
    intro f hf
    simp at hf
    rw [hf]
    exact tinyFrame_callable _ _ _ (by norm_num) (by norm_num)) m t e).1

/-! ## Frames -/

/-- C123, C124, C125: after every history, a frame is the succession of one step per relevant pixel, in order, each of which labels its pixel
background exactly if `Background` holds, changes the words of the pixel as `Own` says, and passes the observation on to at most one
neighbour as `Passed` says. Pixels that are not relevant stay background. -/
theorem frame_steps {rd : ℚ → ℚ} (R : IEEE.Rounds rd) {c : Cfg} {ng : Nat} (zero : F) {px : List (Nat × Nat)} (S : Setup c ng px) (rnd : Nat → Nat) (r : Refresh F)
    (ops : List (Op F)) (hops : ∀ f, Op.frame f ∈ ops → Callable f) (m : Mdl F) (t : Nat) (e : session rd c ng zero rnd px r ops = some (m, t))
    (f : Frame F) (hf : Callable f) :
    ∃ (l' : Loop F) (ls : Nat → Loop F), applyFrame rd c ng rnd px f (t + 1) m = some l' ∧ ls 0 = ⟨m, fun _ _ => false⟩ ∧
      l'.m.loc = (ls px.length).m.loc ∧ l'.mask = (ls px.length).mask ∧ (∀ y x, (y, x) ∉ px → l'.mask y x = false) ∧
      ∀ p y x, px[p]? = some (y, x) → PixelStep rd c ng px rnd f (t + 1) p y x (ls p) (ls (p + 1)) := by
  obtain ⟨m', t', e', h, -⟩ := session_spec rd zero S rnd r ops hops
  rw [e] at e'
  have := Option.some.inj e'
  have hm : m = m' := congrArg Prod.fst this
  subst hm
  obtain ⟨l', ls, e1, h1, h2, h3, h4⟩ := frame_steps_spec R S rnd f hf (t + 1) m h.live
  obtain ⟨l'', e2, -, h5, -⟩ := applyFrame_spec rd S rnd f hf (t + 1) m h.live
  rw [e1] at e2
  have := Option.some.inj e2; subst this
  exact ⟨l', ls, e1, h1, h2, h3, h5, h4⟩

example : ∃ l' : Loop Nat, (session IEEE.float32 tiny2 3 0 (fun k => k * 7919) [(1, 1), (1, 2)] tinyInit []).bind
    (fun s => applyFrame IEEE.float32 tiny2 3 (fun k => k * 7919) [(1, 1), (1, 2)] (tinyFrame 5 2 true) (s.2 + 1) s.1) = some l' ∧ l'.mask 0 0 = false := by
  obtain ⟨m, t, e, -⟩ := session_complete IEEE.float32 (0 : Nat) (tiny2_setup 3 (by norm_num)) (fun k => k * 7919) tinyInit [] (by simp)
  obtain ⟨l', ls, h1, h2, h3, h4, h5, h6⟩ := frame_steps IEEE.float32_rounds (0 : Nat) (tiny2_setup 3 (by norm_num)) (fun k => k * 7919) tinyInit [] (by simp) m t e
    (tinyFrame 5 2 true) (tinyFrame_callable _ _ _ (by norm_num) (by norm_num))
  refine ⟨l', ?_, h5 0 0 (by simp)⟩
  rw [e]
  exact h1

/-- C123: if the first word of a pixel matches and the distance factor is at least one half, the pixel is background. -/
theorem first_word_background {rd : ℚ → ℚ} (R : IEEE.Rounds rd) {c : Cfg} {ng : Nat} {px : List (Nat × Nat)} (S : Setup c ng px) (rnd : Nat → Nat)
    (f : Frame F) (t p y x : Nat) (l l' : Loop F) (h : PixelStep rd c ng px rnd f t p y x l l') (w : Word F) (hw : wordAt c l.m p 0 = some w)
    (hn : f.near y x w.feat = true) (hR : 1 / 2 ≤ f.R y x) : l'.mask y x = false := by
  obtain ⟨k, hk⟩ := h.label
  refine hk.2 (Or.inl ?_)
  refine le_trans ?_ (runSum_mono R f t y x _ (show 1 ≤ c.n from S.words))
  unfold needed runSum
  rw [hw]
  dsimp only
  rw [if_pos hn]
  have h0 := weight_nonneg R t f.off w
  have h1 : (1 : ℚ) ≤ rd (f.R y x * 2) := by
    have := R.nat 1 (by norm_num)
    rw [← show rd 1 = 1 by simpa using this]
    exact R.mono _ _ (by linarith)
  refine R.mono _ _ ?_
  show weightOf rd t f.off w / rd (f.R y x * 2) ≤ 0 + weightOf rd t f.off w
  rw [zero_add]
  exact div_le_self h0 h1

example (ng : Nat) (hg : 0 < ng) (rnd : Nat → Nat) (t : Nat) (l l' : Loop Nat) (w : Word Nat) (h : PixelStep IEEE.float32 tiny ng [(1, 1)] rnd (tinyFrame 5 2 true) t 0 1 1 l l')
    (hw : wordAt tiny l.m 0 0 = some w) (h5 : w.feat = 5) : l'.mask 1 1 = false :=
  first_word_background IEEE.float32_rounds (tiny_setup ng hg) rnd _ t 0 1 1 l l' h w hw (by rw [h5]; rfl) (by norm_num [tinyFrame])

/-- C125, refuted for one channel: when the words of a neighbour are copied (as the code for one channel does), the words that match are not
reinforced: at most the last word of the neighbour changes. -/
theorem one_channel_lost (rd : ℚ → ℚ) (n : Nat) (f : Frame F) (hf : f.byRef = false) (t y x : Nat) (q : Nat × Nat) (qfg : Bool) (thr : ℚ)
    (before after : Nat → Option (Word F)) (h : Passed rd n f t y x q qfg thr before after) : ∀ i, i + 1 < n → after i = before i := by
  intro i hi
  obtain ⟨hit, j, -, -, -, h5⟩ := h
  obtain ⟨w, w', a1, a2, -, -, a3⟩ := h5 i (by omega)
  rw [if_neg (by omega)] at a3
  rw [a1, a2]
  split_ifs at a3 with h2
  · rw [a3.copy hf]
  · rw [a3]

/-- C125: with three channels a word of the neighbour that matches, and is reached, is dated and reinforced. -/
theorem three_channel_kept (rd : ℚ → ℚ) (n : Nat) (f : Frame F) (hf : f.byRef = true) (t y x : Nat) (q : Nat × Nat) (qfg : Bool) (thr : ℚ) (hthr : 0 < thr)
    (before after : Nat → Option (Word F)) (h : Passed rd n f t y x q qfg thr before after) (hn : 1 < n) (w : Word F) (hw : before 0 = some w)
    (hm : f.nnear y x w.feat = true) :
    ∃ w', after 0 = some w' ∧ w'.last = t ∧ (weightOf rd t f.off w < 1 → w'.occ = w.occ + bonus f y x * (if f.nflat w.feat then 2 else 1)) := by
  obtain ⟨hit, j, -, h3, h4, h5⟩ := h
  have hj : 0 < j := by
    by_contra hc
    have : j = 0 := by omega
    subst this
    have := h4 (by omega)
    exact absurd this (not_le.2 hthr)
  obtain ⟨v, w', a1, a2, a3, -, a5⟩ := h5 0 (by omega)
  rw [hw] at a1
  have := Option.some.inj a1; subst this
  rw [if_neg (by omega), if_pos ⟨hj, a3 hj hm⟩] at a5
  refine ⟨w', a2, a5.last hf, ?_⟩
  intro hlt
  rw [a5.occ hf, if_pos hlt]

/-- The difference shows: the same frame after the same history, with the words of the neighbour copied and updated in place. -/
theorem one_channel_refuted : ∃ (f : Frame Nat), Callable f ∧ f.byRef = false ∧ Callable { f with byRef := true } ∧
    ((session id tiny2 1 0 (fun _ => 0) [(1, 1), (1, 2)] tinyInit [.frame f]).map fun s => ((s.1.loc.mem 0).occ, (s.1.loc.mem 2).occ)) ≠
    ((session id tiny2 1 0 (fun _ => 0) [(1, 1), (1, 2)] tinyInit [.frame { f with byRef := true }]).map fun s => ((s.1.loc.mem 0).occ, (s.1.loc.mem 2).occ)) := by
  refine ⟨tinyFrame 5 1 false, tinyFrame_callable _ _ _ (by norm_num) (by norm_num), rfl, tinyFrame_callable 5 1 true (by norm_num) (by norm_num), ?_⟩
  decide +kernel

/-- C126: after a frame whose number is a multiple of the update rate of the global words, the word that each pixel ranks last has the
smallest value there. -/
theorem frame_ranks (rd : ℚ → ℚ) {c : Cfg} {ng : Nat} (zero : F) {px : List (Nat × Nat)} (S : Setup c ng px) (rnd : Nat → Nat) (r : Refresh F)
    (ops : List (Op F)) (hops : ∀ f, Op.frame f ∈ ops → Callable f) (m : Mdl F) (t : Nat) (e : session rd c ng zero rnd px r ops = some (m, t))
    (f : Frame F) (hf : Callable f) (ht : (t + 1) % (if f.boot then 8 else 16) = 0) (l' : Loop F) (e' : applyFrame rd c ng rnd px f (t + 1) m = some l') :
    ∀ p y x, px[p]? = some (y, x) → ∀ j < ng, ∃ v u, (l'.m.glo.mem (l'.m.ranks p j)).map = some v ∧ (l'.m.glo.mem (l'.m.ranks p (ng - 1))).map = some u ∧
      u (y / 2 * (c.w / 2) + x / 2) ≤ v (y / 2 * (c.w / 2) + x / 2) := by
  obtain ⟨m', t', e0, h, -⟩ := session_spec rd zero S rnd r ops hops
  rw [e] at e0
  have := Option.some.inj e0
  have hm : m = m' := congrArg Prod.fst this
  subst hm
  obtain ⟨l, e1, h1, -⟩ := loop_spec rd S rnd f hf (t + 1) m h.live
  obtain ⟨g, e2, hg⟩ := gTick_spec rd f (decide ((t + 1) % (gRate f * 32) = 0)) (decide ((t + 1) % gRate f = 0)) h1.glo
  obtain ⟨rk, e3, hr, hs⟩ := sortRanks_spec S hg l.m.ranks h1.ranks
  unfold applyFrame at e'
  rw [e1] at e'
  dsimp only at e'
  rw [e2] at e'
  dsimp only at e'
  rw [if_pos (show (t + 1) % gRate f = 0 from ht), e3] at e'
  have := Option.some.inj e'; subst this
  intro p y x hpx j hj
  have hp : p < px.length := (List.getElem?_eq_some_iff.1 hpx).1
  have hi := lookup_lt S (S.inner _ (List.mem_of_getElem? hpx))
  have hv : ∀ j < ng, ∃ v, (g.mem (rk p j)).map = some v ∧ ranked c g (lookup c y x) (rk p) j = some (v (lookup c y x)) := by
    intro j hj
    have hlt := (hr p hp).range j hj
    obtain ⟨v, hv⟩ := Option.isSome_iff_exists.1 (hg.maps _ hlt)
    refine ⟨v, hv, ?_⟩
    unfold ranked
    rw [if_pos (by rw [hg.cap]; exact hlt), hv]
    exact if_pos hi
  obtain ⟨v, v1, v2⟩ := hv j hj
  obtain ⟨u, u1, u2⟩ := hv (ng - 1) (by have := S.globals; omega)
  exact ⟨v, u, v1, u1, hs p (y, x) hpx j hj _ _ v2 u2⟩

example : ∃ m : Mdl Nat, session id tiny 2 0 (fun k => k) [(1, 1)] tinyInit (List.replicate 7 (.frame (tinyFrame 5 2 true))) = some (m, 7) ∧
    (7 + 1) % (if (tinyFrame 5 2 true).boot then 8 else 16) = 0 ∧ ∃ l', applyFrame id tiny 2 (fun k => k) [(1, 1)] (tinyFrame 5 2 true) 8 m = some l' := by
  have hc : ∀ f : Frame Nat, Op.frame f ∈ List.replicate 7 (Op.frame (tinyFrame 5 2 true)) → Callable f := by
    intro f hf
    have := List.eq_of_mem_replicate hf
    injection this with this
    rw [this]
    exact tinyFrame_callable _ _ _ (by norm_num) (by norm_num)
  obtain ⟨m, t, e, h, -⟩ := session_spec id (0 : Nat) (tiny_setup 2 (by norm_num)) (fun k => k) tinyInit _ hc
  have h7 : (session id tiny 2 0 (fun k => k) [(1, 1)] tinyInit (List.replicate 7 (.frame (tinyFrame 5 2 true)))).map Prod.snd = some 7 := by decide +kernel
  rw [e] at h7
  have : t = 7 := Option.some.inj h7
  subst this
  obtain ⟨l', e', -⟩ := applyFrame_spec id (tiny_setup 2 (by norm_num)) (fun k => k) (tinyFrame 5 2 true) (tinyFrame_callable _ _ _ (by norm_num) (by norm_num)) 8 m h.live
  exact ⟨m, e, rfl, l', e'⟩

/-! ## The global words -/

theorem bump_raised {rd : ℚ → ℚ} {c : Cfg} {i : Nat} {v : ℚ} {g g' : GWord F} (h : bump rd c i v g = some g') : Raised rd i v g g' := by
  unfold bump mapAt at h
  cases hm : g.map with
  | none => rw [hm] at h; exact absurd h (by simp)
  | some f =>
    rw [hm] at h
    dsimp only at h
    by_cases hi : i < c.h / 2 * (c.w / 2)
    · rw [if_pos hi] at h
      dsimp only at h
      by_cases hv : f i < v
      · rw [if_pos hv] at h
        have := Option.some.inj h; subst this
        refine ⟨rfl, rfl, f, _, hm, rfl, ?_, ?_, ?_⟩
        · intro j hj; exact if_neg hj
        · rw [if_pos hv]; exact if_pos rfl
        · rw [if_pos hv]
      · rw [if_neg hv] at h
        have := Option.some.inj h; subst this
        exact ⟨rfl, rfl, f, f, hm, hm, fun _ _ => rfl, by rw [if_neg hv], by rw [if_neg hv]⟩
    · rw [if_neg hi] at h; exact absurd h (by simp)

theorem gSearch_first {near : GWord F → Bool} {g : Store (GWord F)} {l : Nat → Nat} : ∀ (rem j : Nat) (o : Option Nat), gSearch near g l rem j = some o →
    (o = none ∧ ∀ m, j ≤ m → m < j + rem → near (g.mem (l m)) = false) ∨
    ∃ m, o = some (l m) ∧ j ≤ m ∧ m < j + rem ∧ near (g.mem (l m)) = true ∧ ∀ m', j ≤ m' → m' < m → near (g.mem (l m')) = false
  | 0, j, o, h => by
    left
    exact ⟨(Option.some.inj h).symm, fun m h1 h2 => absurd h1 (by omega)⟩
  | rem + 1, j, o, h => by
    unfold gSearch at h
    split_ifs at h with h1 h2
    · exact Or.inr ⟨j, (Option.some.inj h).symm, le_rfl, by omega, h2, fun m' a b => absurd a (by omega)⟩
    · rcases gSearch_first rem (j + 1) o h with ⟨e, k⟩ | ⟨m, e, k1, k2, k3, k4⟩
      · refine Or.inl ⟨e, fun m a b => ?_⟩
        by_cases hm : m = j
        · rw [hm]; simpa using h2
        · exact k m (by omega) (by omega)
      · refine Or.inr ⟨m, e, by omega, by omega, k3, fun m' a b => ?_⟩
        by_cases hm : m' = j
        · rw [hm]; simpa using h2
        · exact k4 m' (by omega) b

/-- C124: when a background pixel whose matching words weigh `sum` updates the global words, at most one of them changes, and only if the random
number is a multiple of the update rate: the first close word by rank is raised at the location of the pixel; if no word is close, the word in the last
slot may be replaced by one for the observation, present only at this location. -/
theorem global_update (rd : ℚ → ℚ) (c : Cfg) (rnd : Nat → Nat) (ng : Nat) (f : Frame F) (p y x : Nat) (sum : ℚ) (m m' : Mdl F)
    (e : gUpdate rd c rnd ng f p y x sum m = some m') :
    m'.loc = m.loc ∧ m'.ranks = m.ranks ∧ m'.glo.dict = m.glo.dict ∧
    (m'.glo.mem = m.glo.mem ∨ rnd m.k % f.rate y x = 0 ∧
      ((∃ j < ng, f.gnear y x (m.glo.mem (m.ranks p j)) = true ∧ (∀ j' < j, f.gnear y x (m.glo.mem (m.ranks p j')) = false) ∧
          Raised rd (y / 2 * (c.w / 2) + x / 2) sum (m.glo.mem (m.ranks p j)) (m'.glo.mem (m.ranks p j)) ∧
          ∀ a, a ≠ m.ranks p j → m'.glo.mem a = m.glo.mem a) ∨
        (∀ j < ng, f.gnear y x (m.glo.mem (m.ranks p j)) = false) ∧ ∃ a, m.glo.dict (ng - 1) = some a ∧
          Raised rd (y / 2 * (c.w / 2) + x / 2) sum ⟨0, some fun _ => 0, f.gnew y x, f.cur y x⟩ (m'.glo.mem a) ∧ ∀ a', a' ≠ a → m'.glo.mem a' = m.glo.mem a')) := by
  unfold gUpdate at e
  by_cases h0 : f.rate y x = 0
  · rw [if_pos h0] at e; exact absurd e (by simp)
  rw [if_neg h0] at e
  by_cases h1 : rnd m.k % f.rate y x = 0
  · rw [if_pos h1] at e
    cases hg : gSearch (f.gnear y x) m.glo (m.ranks p) ng 0 with
    | none => rw [hg] at e; exact absurd e (by simp)
    | some o =>
      rw [hg] at e
      rcases gSearch_first ng 0 o hg with ⟨rfl, k⟩ | ⟨j, rfl, -, k2, k3, k4⟩
      · dsimp only at e
        by_cases h2 : f.rate y x * 2 % 2 ^ 64 = 0
        · rw [if_pos h2] at e; exact absurd e (by simp)
        rw [if_neg h2] at e
        by_cases h3 : rnd (m.k + 1) % (f.rate y x * 2 % 2 ^ 64) = 0
        · rw [if_pos h3] at e
          cases ha : m.glo.addr (ng - 1) with
          | none => rw [ha] at e; exact absurd e (by simp)
          | some d =>
            rw [ha] at e
            dsimp only at e
            obtain ⟨w, hw, rfl⟩ := Option.map_eq_some_iff.1 e
            refine ⟨rfl, rfl, rfl, Or.inr ⟨h1, Or.inr ⟨fun j hj => k j (by omega) (by omega), d, ?_, ?_, ?_⟩⟩⟩
            · unfold Store.addr Store.slot at ha
              split_ifs at ha
              cases hd : m.glo.dict (ng - 1) with
              | none => rw [hd] at ha; exact absurd ha (by simp)
              | some b =>
                rw [hd] at ha
                dsimp only at ha
                split_ifs at ha
                exact ha
            · have hr := bump_raised hw
              show Raised _ _ _ _ (if d = d then w else _)
              rw [if_pos rfl]
              cases hmm : (m.glo.mem d).map with
              | none =>
                rw [hmm] at hr
                obtain ⟨f1, -, hf, -⟩ := hr.map
                exact absurd hf (by simp)
              | some fm => rw [hmm] at hr; exact hr
            · intro a' ha'; exact if_neg ha'
        · rw [if_neg h3] at e
          have := Option.some.inj e; subst this
          exact ⟨rfl, rfl, rfl, Or.inl rfl⟩
      · dsimp only at e
        obtain ⟨w, hw, rfl⟩ := Option.map_eq_some_iff.1 e
        refine ⟨rfl, rfl, rfl, Or.inr ⟨h1, Or.inl ⟨j, by omega, k3, fun j' hj' => k4 j' (by omega) hj', ?_, fun a ha => if_neg ha⟩⟩⟩
        show Raised _ _ _ _ (if m.ranks p j = m.ranks p j then w else _)
        rw [if_pos rfl]
        exact bump_raised hw
  · rw [if_neg h1] at e
    have := Option.some.inj e; subst this
    exact ⟨rfl, rfl, rfl, Or.inl rfl⟩

/-- A global word is raised at the location of a pixel. -/
example : ∃ m' : Mdl Nat, gUpdate id ⟨4, 4, 2, 1, 2⟩ (fun _ => 0) 1 (tinyFrame 5 2 true) 0 1 1 3
    ⟨⟨fun _ => ⟨0, 0, 1, 5⟩, 0, 0, fun _ => none, 0⟩, ⟨fun _ => ⟨0, some fun _ => 0, 0, 5⟩, 1, 1, fun _ => some 0, 1⟩, fun _ _ => 0, 0⟩ = some m' ∧ (m'.glo.mem 0).weight = 3 := by
  exact ⟨_, rfl, by decide +kernel⟩

end Litiv.Pawcs
