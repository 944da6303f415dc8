import Verif.Lemmas.Pawcs

/-!
# Lemmas on `refreshModel` of PAWCS
-/

namespace Litiv.Pawcs
open Consensus Consensus.Spec Spec

variable {W F : Type}

/-- Invariant of the local dictionaries while they are filled. -/
structure LInv (np n : Nat) (s : Store W) : Prop where
  ok : Ok s
  slots : s.slots = np * n
  pre : ∀ p < np, Pre n (p * n) s.dict

theorem blk_le {p np n : Nat} (h : p < np) : p * n + n ≤ np * n := by
  have := Nat.mul_le_mul_right n (show p + 1 ≤ np from h)
  rwa [Nat.succ_mul] at this

theorem blk_out {p q n : Nat} (h : q ≠ p) (i : Nat) (hi : i < n) : q * n + i < p * n ∨ p * n + n ≤ q * n + i := by
  rcases Nat.lt_or_gt_of_ne h with g | g
  · left
    have := blk_le (n := n) g
    omega
  · right
    have := blk_le (n := n) g
    omega

theorem LInv.of_only {np n p : Nat} {s s' : Store W} (h : LInv np n s) (ok : Ok s') (ho : Only n (p * n) s s')
    (hpre : Pre n (p * n) s'.dict) : LInv np n s' := by
  refine ⟨ok, ho.slots.trans h.slots, ?_⟩
  intro q hq
  by_cases e : q = p
  · rw [e]; exact hpre
  · intro i j hij hj hd
    rw [ho.dict _ (blk_out e j hj)] at hd
    rw [ho.dict _ (blk_out e i (by omega))]
    exact h.pre q hq i j hij hj hd

theorem Blk.mono {P Q : W → Prop} {n b : Nat} {s : Store W} (h : Blk P n b s) (hPQ : ∀ w, P w → Q w) : Blk Q n b s :=
  fun l hl a ha => hPQ _ (h l hl a ha)

/-- One sample. -/
theorem sample_spec (rd : ℚ → ℚ) {np n p : Nat} (r : Refresh F) (t y x : Nat) (f : F) {s : Store (Word F)} (h : LInv np n s) (hn : 0 < n) (hp : p < np) :
    ∃ s', sample rd r t n (p * n) y x f s = some s' ∧ LInv np n s' ∧ Only n (p * n) s s' ∧ s'.dict (p * n) ≠ none ∧
      (∀ P : Word F → Prop, Blk P n (p * n) s → (∀ w, P w → P { w with occ := w.occ + 1, last := t }) → P ⟨t, t, r.base, f⟩ → Blk P n (p * n) s') ∧
      (∀ Q : Word F → Prop, Blk Q n (p * n) s → Srt (weight rd t r.off) n (p * n) s →
        (∀ w, Q w → weight rd t r.off w ≤ weight rd t r.off { w with occ := w.occ + 1, last := t }) → Srt (weight rd t r.off) n (p * n) s') := by
  have hb : p * n + n ≤ s.slots := by rw [h.slots]; exact blk_le hp
  obtain ⟨s1, i, a, e1, e2, e3⟩ := enter_spec (wt := weight rd t r.off) (near := fun w => r.near y x f w.feat)
    (hit := fun w => { w with occ := w.occ + 1, last := t }) (fresh := ⟨t, t, r.base, f⟩) h.ok hn hb (h.pre p hp)
  obtain ⟨s', f1, f2, f3, f4, f5, f6, f7⟩ := e3 (s1.mem a)
  have hput : s1.put a (s1.mem a) = s1 := by
    unfold Store.put
    have : (fun b => if b = a then s1.mem a else s1.mem b) = s1.mem := by
      funext b; split_ifs with g
      · rw [g]
      · rfl
    rw [this]
  rw [hput] at f1
  refine ⟨s', ?_, h.of_only f2 f4 f3, f4, f5, ?_, ?_⟩
  · unfold sample
    rw [e1]
    exact f1
  · intro P hP hh hf
    obtain ⟨g1, g2⟩ := f6 P hP hh hf
    exact g2 g1
  · intro Q hQ hS hh
    exact f7 Q hQ hS hh le_rfl

/-- The reduction of the occurrences. -/
theorem decr_spec {np n p : Nat} (r : Refresh F) {s : Store (Word F)} (h : LInv np n s) (hp : p < np) :
    ∃ s', decr r n (p * n) s = some s' ∧ LInv np n s' ∧ Only n (p * n) s s' ∧ s'.dict = s.dict ∧ (r.frac ≤ 0 → s' = s) ∧
      (∀ P : Word F → Prop, Blk P n (p * n) s → (∀ w, P w → P { w with occ := w.occ - ⌊r.frac * (w.occ : ℚ)⌋.toNat }) → Blk P n (p * n) s') := by
  unfold decr
  by_cases h0 : 0 < r.frac
  swap
  · rw [if_neg h0]
    exact ⟨s, rfl, h, Only.refl, rfl, fun _ => rfl, fun P hP _ => hP⟩
  rw [if_pos h0]
  have hb : p * n + n ≤ s.slots := by rw [h.slots]; exact blk_le hp
  obtain ⟨s', e, h1⟩ := foldlM_inv (decrStep r.frac (p * n)) (List.range n)
    (fun _ s' => Ok s' ∧ Only n (p * n) s s' ∧ s'.dict = s.dict ∧
      (∀ P : Word F → Prop, Blk P n (p * n) s → (∀ w, P w → P { w with occ := w.occ - ⌊r.frac * (w.occ : ℚ)⌋.toNat }) → Blk P n (p * n) s'))
    (by
      rintro pre i post s1 hl ⟨g1, g2, g3, g4⟩
      have hi : i < n := List.mem_range.1 (by rw [hl]; simp)
      have hsl : p * n + i < s1.slots := by rw [g2.slots]; omega
      unfold decrStep
      rw [slot_of hsl]
      cases hd : s1.dict (p * n + i) with
      | none => exact ⟨s1, rfl, g1, g2, g3, g4⟩
      | some a =>
        dsimp only
        rw [if_pos (g1.lt_cap hsl hd)]
        refine ⟨_, rfl, g1.put _ _, ⟨g2.slots, g2.cap, g2.dict, ?_⟩, g3, ?_⟩
        · intro l hl ho d hd'
          have hne : d ≠ a := by
            rintro rfl
            have := g1.inj l (p * n + i) d (by rw [g2.slots]; exact hl) hsl (by rw [g2.dict l ho]; exact hd') hd
            omega
          exact (if_neg hne).trans (g2.mem l hl ho d hd')
        · intro P hP hh l hl d hd'
          show P (if d = a then _ else s1.mem d)
          split_ifs with g
          · exact hh _ (g4 P hP hh i hi a hd)
          · exact g4 P hP hh l hl d hd')
    s ⟨h.ok, Only.refl, rfl, fun P hP _ => hP⟩
  obtain ⟨g1, g2, g3, g4⟩ := h1
  refine ⟨s', e, h.of_only g1 g2 ?_, g2, g3, fun hc => absurd hc (not_le.2 h0), g4⟩
  rw [g3]; exact h.pre p hp

/-- One iteration of the resampling. -/
theorem sampleIter_spec (rd : ℚ → ℚ) {c : Cfg} {ng : Nat} {px : List (Nat × Nat)} (S : Setup c ng px) {np p : Nat} (rnd : Nat → Nat) (r : Refresh F)
    (t y x : Nat) (hi : Inner c.b c.h c.w (y, x)) (hp : p < np) (st : Store (Word F) × Nat) (j : Nat) (h : LInv np c.n st.1) :
    ∃ st', sampleIter rd c rnd r t (p * c.n) y x st j = some st' ∧ LInv np c.n st'.1 ∧ Only c.n (p * c.n) st.1 st'.1 ∧
      (st.1.dict (p * c.n) ≠ none ∨ (∀ y x, r.force = true ∨ r.dil y x = 0) → st'.1.dict (p * c.n) ≠ none) ∧
      (∀ P : Word F → Prop, Blk P c.n (p * c.n) st.1 → (∀ w, P w → P { w with occ := w.occ + 1, last := t }) →
        (∀ q, Inner c.b c.h c.w q → Near 3 (y, x) q → (r.force = true ∨ r.dil q.1 q.2 = 0) → P ⟨t, t, r.base, r.last q.1 q.2⟩) → Blk P c.n (p * c.n) st'.1) ∧
      (∀ Q : Word F → Prop, Blk Q c.n (p * c.n) st.1 → Srt (weight rd t r.off) c.n (p * c.n) st.1 →
        (∀ w, Q w → weight rd t r.off w ≤ weight rd t r.off { w with occ := w.occ + 1, last := t }) → Srt (weight rd t r.off) c.n (p * c.n) st'.1) := by
  obtain ⟨q, e, hq, hnear⟩ := samplePx_spec c S.rows S.cols (rnd st.2) y x
  unfold samplePx at e
  unfold sampleIter
  rw [e]
  dsimp only
  by_cases hm : r.force = true ∨ r.dil q.1 q.2 = 0
  · rw [if_pos hm]
    obtain ⟨s', g1, g2, g3, g4, g5, g6⟩ := sample_spec rd r t y x (r.last q.1 q.2) h S.words hp
    rw [g1]
    exact ⟨_, rfl, g2, g3, fun _ => g4, fun P hP hh hf => g5 P hP hh (hf q hq (hnear hi) hm), g6⟩
  · rw [if_neg hm]
    refine ⟨_, rfl, h, Only.refl, ?_, fun P hP _ _ => hP, fun Q _ hS _ => hS⟩
    rintro (g | g)
    · exact g
    · exact absurd (g q.1 q.2) hm

/-- The derived words. -/
theorem fill_spec {np n p : Nat} (rnd : Nat → Nat) (r : Refresh F) (t y x : Nat) (hp : p < np) (hn : 0 < n) (st : Store (Word F) × Nat) (h : LInv np n st.1)
    (h0 : st.1.dict (p * n) ≠ none) :
    ∃ st', (List.range' 1 (n - 1)).foldlM (fillStep rnd r t n (p * n) y x) st = some st' ∧ LInv np n st'.1 ∧ Only n (p * n) st.1 st'.1 ∧
      (∀ i < n, st'.1.dict (p * n + i) ≠ none) ∧ (∀ l, st.1.dict l ≠ none → st'.1.dict l = st.1.dict l) ∧
      (∀ a, a < st.1.iter → st'.1.mem a = st.1.mem a) ∧
      (∀ P : Word F → Prop, Blk P n (p * n) st.1 → (∀ w i k, i < n → P w → P ⟨t, t, scaled n i w.occ, r.jitter y x k w.feat⟩) → Blk P n (p * n) st'.1) := by
  have hb : p * n + n ≤ st.1.slots := by rw [h.slots]; exact blk_le hp
  obtain ⟨st', e, h1⟩ := foldlM_inv (fillStep rnd r t n (p * n) y x) (List.range' 1 (n - 1))
    (fun pre st' => Ok st'.1 ∧ Only n (p * n) st.1 st'.1 ∧ (∀ i ≤ pre.length, st'.1.dict (p * n + i) ≠ none) ∧
      (∀ i, pre.length < i → st'.1.dict (p * n + i) = st.1.dict (p * n + i)) ∧
      (∀ l, st.1.dict l ≠ none → st'.1.dict l = st.1.dict l) ∧
      (st.1.iter ≤ st'.1.iter ∧ ∀ a, a < st.1.iter → st'.1.mem a = st.1.mem a) ∧
      (∀ P : Word F → Prop, Blk P n (p * n) st.1 → (∀ w i k, i < n → P w → P ⟨t, t, scaled n i w.occ, r.jitter y x k w.feat⟩) → Blk P n (p * n) st'.1))
    (by
      rintro pre i post s1 hl ⟨g1, g2, g3, g4, g5, g6, g7⟩
      have hlen : pre.length < n - 1 := by
        have := congrArg List.length hl
        simp at this; omega
      have hi : i = pre.length + 1 := by
        have h2 : (List.range' 1 (n - 1))[pre.length]? = some i := by rw [hl]; simp
        rw [List.getElem?_range' (by omega)] at h2
        have := Option.some.inj h2
        omega
      have hin : i < n := by omega
      have hsl : p * n + i < s1.1.slots := by rw [g2.slots]; omega
      unfold fillStep
      rw [slot_of hsl]
      have hlen' : (pre ++ [i]).length = pre.length + 1 := by simp
      cases hd : s1.1.dict (p * n + i) with
      | some d =>
        dsimp only
        refine ⟨s1, rfl, g1, g2, ?_, ?_, g5, g6, g7⟩
        · intro m hm
          rw [hlen'] at hm
          by_cases e : m = i
          · rw [e, hd]; simp
          · exact g3 m (by omega)
        · intro m hm
          exact g4 m (by rw [hlen'] at hm; omega)
      | none =>
        dsimp only
        have hr : rnd s1.2 % i < i := Nat.mod_lt _ (by omega)
        obtain ⟨a, ha⟩ := Option.ne_none_iff_exists'.1 (g3 (rnd s1.2 % i) (by omega))
        rw [g1.addr (by rw [g2.slots]; omega) ha]
        dsimp only
        obtain ⟨s', e1, e2, e3, e4, e5, e6, e7⟩ := g1.take (j := p * n + i) hsl hd
          ⟨t, t, scaled n i (s1.1.mem a).occ, r.jitter y x (rnd (s1.2 + 1)) (s1.1.mem a).feat⟩
        rw [e1]
        have hold : ∀ l, s1.1.dict l ≠ none → s'.dict l = s1.1.dict l := by
          intro l hl
          rw [e6, if_neg]
          rintro rfl; exact hl hd
        have hmem : ∀ l, l < s1.1.slots → ∀ d, s1.1.dict l = some d → s'.mem d = s1.1.mem d := by
          intro l hl d hd'
          rw [e7, if_neg]
          have := (g1.range d).2 ⟨l, hl, hd'⟩
          omega
        refine ⟨_, rfl, e2, g2.trans ⟨e3, e4, ?_, fun l hl _ d hd' => hmem l hl d hd'⟩, ?_, ?_, ?_, ⟨?_, ?_⟩, ?_⟩
        · intro l hl
          show s'.dict l = _
          rw [e6, if_neg (by omega)]
        · intro m hm
          rw [hlen'] at hm
          show s'.dict _ ≠ none
          rw [e6]
          split_ifs
          · simp
          · exact g3 m (by omega)
        · intro m hm
          rw [hlen'] at hm
          show s'.dict _ = _
          rw [e6, if_neg (by omega)]
          exact g4 m (by omega)
        · intro l hl
          show s'.dict l = _
          rw [hold l (by rw [g5 l hl]; exact hl)]
          exact g5 l hl
        · show st.1.iter ≤ s'.iter
          rw [e5]; have := g6.1; omega
        · intro d hd'
          show s'.mem d = _
          rw [e7, if_neg (by have := g6.1; omega)]
          exact g6.2 d hd'
        · intro P hP hh l hl d hd'
          show P (s'.mem d)
          have hd' : s'.dict (p * n + l) = some d := hd'
          by_cases g : l = i
          · rw [g, e6, if_pos rfl] at hd'
            rw [← Option.some.inj hd', e7, if_pos rfl]
            exact hh _ i _ hin (g7 P hP hh (rnd s1.2 % i) (by omega) a ha)
          · rw [e6, if_neg (by omega)] at hd'
            rw [hmem _ (by rw [g2.slots]; omega) d hd']
            exact g7 P hP hh l hl d hd')
    st ⟨h.ok, Only.refl, by
      intro i hi
      have : i = 0 := by simpa using hi
      rw [this, Nat.add_zero]; exact h0, fun _ _ => rfl, fun _ _ => rfl, ⟨le_rfl, fun _ _ => rfl⟩, fun P hP _ => hP⟩
  obtain ⟨g1, g2, g3, g4, g5, g6, g7⟩ := h1
  have hfull : ∀ i < n, st'.1.dict (p * n + i) ≠ none := by
    intro i hi
    refine g3 i ?_
    simp; omega
  exact ⟨st', e, h.of_only g1 g2 (fun i j hij hj _ => hfull i (by omega)), g2, hfull, g5, g6.2, g7⟩

/-! ## Pixels -/

/-- Slot 0 of the block has a word of largest weight. -/
def Best (wt : W → ℚ) (n b : Nat) (s : Store W) : Prop :=
  ∀ a0, s.dict b = some a0 → ∀ l < n, ∀ a, s.dict (b + l) = some a → wt (s.mem a) ≤ wt (s.mem a0)

/-- What must be kept by the changes that a refresh makes to the words of a pixel. -/
structure Closed (c : Cfg) (r : Refresh F) (t y x : Nat) (P : Word F → Prop) : Prop where
  decr : ∀ w, P w → P { w with occ := w.occ - ⌊r.frac * (w.occ : ℚ)⌋.toNat }
  hit : ∀ w, P w → P { w with occ := w.occ + 1, last := t }
  fresh : ∀ q, Inner c.b c.h c.w q → Near 3 (y, x) q → (r.force = true ∨ r.dil q.1 q.2 = 0) → P ⟨t, t, r.base, r.last q.1 q.2⟩
  jitter : ∀ w i k, i < c.n → P w → P ⟨t, t, scaled c.n i w.occ, r.jitter y x k w.feat⟩

theorem weight_tt (rd : ℚ → ℚ) (t off : Nat) (w : Word F) (h1 : w.first = t) (h2 : w.last = t) : weight rd t off w = rd (rd (w.occ : ℚ) / rd (off : ℚ)) := by
  unfold weight
  rw [h1, h2]
  congr 3
  push_cast
  simp

theorem Rounds_zero {rd : ℚ → ℚ} (h : IEEE.Rounds rd) : rd 0 = 0 := by
  have := h.nat 0 (by norm_num)
  simpa using this

theorem Rounds_nonneg {rd : ℚ → ℚ} (h : IEEE.Rounds rd) {q : ℚ} (hq : 0 ≤ q) : 0 ≤ rd q := by
  have := h.mono _ _ hq
  rwa [Rounds_zero h] at this

theorem scaled_le {n i o : Nat} (hi : i < n) (ho : 1 ≤ o) : scaled n i o ≤ o := by
  unfold scaled
  refine max_le ?_ ho
  have hn : (0 : ℚ) < n := by exact_mod_cast (by omega : 0 < n)
  have h1 : (o : ℚ) * (((n - i : Nat) : ℚ) / n) ≤ o := by
    have : (((n - i : Nat) : ℚ) / n) ≤ 1 := by
      rw [div_le_one hn]
      exact_mod_cast Nat.sub_le n i
    have ho' : (0 : ℚ) ≤ o := by positivity
    nlinarith
  have h2 := Int.floor_le_floor h1
  rw [Int.floor_natCast] at h2
  omega

theorem scaled_pos (n i o : Nat) : 1 ≤ scaled n i o := le_max_right _ _

theorem fold_spec (rd : ℚ → ℚ) {c : Cfg} {ng : Nat} {px : List (Nat × Nat)} (S : Setup c ng px) {np p : Nat} (rnd : Nat → Nat) (r : Refresh F)
    (t y x : Nat) (hi : Inner c.b c.h c.w (y, x)) (hp : p < np) (l : List Nat) (st : Store (Word F) × Nat) (h : LInv np c.n st.1) :
    ∃ st', l.foldlM (sampleIter rd c rnd r t (p * c.n) y x) st = some st' ∧ LInv np c.n st'.1 ∧ Only c.n (p * c.n) st.1 st'.1 ∧
      (st.1.dict (p * c.n) ≠ none ∨ ((∀ y x, r.force = true ∨ r.dil y x = 0) ∧ l ≠ []) → st'.1.dict (p * c.n) ≠ none) ∧
      (∀ P : Word F → Prop, Blk P c.n (p * c.n) st.1 → Closed c r t y x P → Blk P c.n (p * c.n) st'.1) ∧
      (∀ Q : Word F → Prop, Blk Q c.n (p * c.n) st.1 → Closed c r t y x Q → Srt (weight rd t r.off) c.n (p * c.n) st.1 →
        (∀ w, Q w → weight rd t r.off w ≤ weight rd t r.off { w with occ := w.occ + 1, last := t }) → Srt (weight rd t r.off) c.n (p * c.n) st'.1) := by
  refine foldlM_inv (sampleIter rd c rnd r t (p * c.n) y x) l
    (fun pre st' => LInv np c.n st'.1 ∧ Only c.n (p * c.n) st.1 st'.1 ∧
      (st.1.dict (p * c.n) ≠ none ∨ ((∀ y x, r.force = true ∨ r.dil y x = 0) ∧ pre ≠ []) → st'.1.dict (p * c.n) ≠ none) ∧
      (∀ P : Word F → Prop, Blk P c.n (p * c.n) st.1 → Closed c r t y x P → Blk P c.n (p * c.n) st'.1) ∧
      (∀ Q : Word F → Prop, Blk Q c.n (p * c.n) st.1 → Closed c r t y x Q → Srt (weight rd t r.off) c.n (p * c.n) st.1 →
        (∀ w, Q w → weight rd t r.off w ≤ weight rd t r.off { w with occ := w.occ + 1, last := t }) → Srt (weight rd t r.off) c.n (p * c.n) st'.1))
    ?_ st ⟨h, Only.refl, ?_, fun P hP _ => hP, fun Q _ _ hS _ => hS⟩
  · rintro pre j post s1 hl ⟨g1, g2, g3, g4, g5⟩
    obtain ⟨s2, e, f1, f2, f3, f4, f5⟩ := sampleIter_spec rd S rnd r t y x hi hp s1 j g1
    refine ⟨s2, e, f1, g2.trans f2, ?_, ?_, ?_⟩
    · rintro (k | ⟨k, -⟩)
      · exact f3 (Or.inl (g3 (Or.inl k)))
      · exact f3 (Or.inr k)
    · intro P hP hc
      exact f4 P (g4 P hP hc) hc.hit hc.fresh
    · intro Q hQ hc hS hh
      exact f5 Q (g4 Q hQ hc) (g5 Q hQ hc hS hh) hh
  · rintro (k | ⟨-, k⟩)
    · exact k
    · exact absurd rfl k

/-- One pixel of a refresh. -/
theorem refreshPx_spec (rd : ℚ → ℚ) {c : Cfg} {ng : Nat} {px : List (Nat × Nat)} (S : Setup c ng px) {np p : Nat} (rnd : Nat → Nat) (r : Refresh F)
    (t y x : Nat) (hi : Inner c.b c.h c.w (y, x)) (hp : p < np) (st : Store (Word F) × Nat) (h : LInv np c.n st.1)
    (h0 : st.1.dict (p * c.n) ≠ none ∨ ∀ y x, r.force = true ∨ r.dil y x = 0) :
    ∃ st', refreshPx rd c rnd r t st (p, y, x) = some st' ∧ LInv np c.n st'.1 ∧ Only c.n (p * c.n) st.1 st'.1 ∧
      ((r.force = true ∨ r.dil y x = 0) → ∀ i < c.n, st'.1.dict (p * c.n + i) ≠ none) ∧
      (¬(r.force = true ∨ r.dil y x = 0) → st' = st) ∧
      (∀ P : Word F → Prop, Blk P c.n (p * c.n) st.1 → Closed c r t y x P → Blk P c.n (p * c.n) st'.1) ∧
      (IEEE.Rounds rd → r.frac ≤ 0 → 1 ≤ r.base → (∀ i < c.n, st.1.dict (p * c.n + i) = none) → (r.force = true ∨ r.dil y x = 0) →
        Best (weight rd t r.off) c.n (p * c.n) st'.1) := by
  unfold refreshPx
  dsimp only
  by_cases hm : r.force = true ∨ r.dil y x = 0
  swap
  · rw [if_neg hm]
    exact ⟨st, rfl, h, Only.refl, fun k => absurd k hm, fun _ => rfl, fun P hP _ => hP, fun _ _ _ _ k => absurd k hm⟩
  rw [if_pos hm]
  obtain ⟨s1, e1, a1, a2, a3, a4, a5⟩ := decr_spec r h hp
  rw [e1]
  dsimp only
  obtain ⟨s2, e2, b1, b2, b3, b4, b5⟩ := fold_spec rd S rnd r t y x hi hp (List.range 98) (s1, st.2) a1
  rw [e2]
  dsimp only
  have hz : s2.1.dict (p * c.n) ≠ none := by
    refine b3 ?_
    rcases h0 with k | k
    · left; show s1.dict _ ≠ none; rw [a3]; exact k
    · right; exact ⟨k, by simp [List.range_succ]⟩
  obtain ⟨s3, e3, c1, c2, c3, c4, c5, c6⟩ := fill_spec rnd r t y x hp S.words s2 b1 hz
  refine ⟨s3, e3, c1, (a2.trans b2).trans c2, fun _ => c3, fun k => absurd hm k, ?_, ?_⟩
  · intro P hP hc
    exact c6 P (b4 P (a5 P hP hc.decr) hc) hc.jitter
  · intro R hf hb hnone _ a0 ha0
    have hs1 : s1 = st.1 := a4 hf
    let Q : Word F → Prop := fun w => w.first = t ∧ w.last = t ∧ 1 ≤ w.occ
    have hQ0 : Blk Q c.n (p * c.n) s1 := by
      intro l hl a ha
      rw [hs1, hnone l hl] at ha
      exact absurd ha (by simp)
    have hS0 : Srt (weight rd t r.off) c.n (p * c.n) s1 := by
      intro i j a d hij hj ha _
      rw [hs1, hnone i (by omega)] at ha
      exact absurd ha (by simp)
    have hdec : ∀ o : Nat, o - ⌊r.frac * (o : ℚ)⌋.toNat = o := by
      intro o
      have : ⌊r.frac * (o : ℚ)⌋ ≤ 0 := by
        have h1 : r.frac * (o : ℚ) ≤ 0 := mul_nonpos_of_nonpos_of_nonneg hf (by positivity)
        have := Int.floor_le_floor h1
        simpa using this
      have : ⌊r.frac * (o : ℚ)⌋.toNat = 0 := Int.toNat_of_nonpos this
      omega
    have hcQ : Closed c r t y x Q := by
      refine ⟨?_, ?_, ?_, ?_⟩
      · rintro w ⟨q1, q2, q3⟩
        refine ⟨q1, q2, ?_⟩
        dsimp only
        rw [hdec]; exact q3
      · rintro w ⟨q1, q2, q3⟩
        exact ⟨q1, rfl, by dsimp only; omega⟩
      · intro q _ _ _; exact ⟨rfl, rfl, hb⟩
      · intro w i k _ _; exact ⟨rfl, rfl, scaled_pos _ _ _⟩
    have hmono : ∀ o o' : Nat, o ≤ o' → rd (rd (o : ℚ) / rd (r.off : ℚ)) ≤ rd (rd (o' : ℚ) / rd (r.off : ℚ)) := by
      intro o o' ho
      refine R.mono _ _ (div_le_div_of_nonneg_right (R.mono _ _ (by exact_mod_cast ho)) (Rounds_nonneg R (by positivity)))
    have hhit : ∀ w, Q w → weight rd t r.off w ≤ weight rd t r.off { w with occ := w.occ + 1, last := t } := by
      rintro w ⟨q1, q2, q3⟩
      rw [weight_tt rd t r.off w q1 q2, weight_tt rd t r.off { w with occ := w.occ + 1, last := t } q1 rfl]
      exact hmono _ _ (Nat.le_succ _)
    have hS2 := b5 Q hQ0 hcQ hS0 hhit
    have hQ2 := b4 Q hQ0 hcQ
    have ha0' : s2.1.dict (p * c.n) = some a0 := by rw [← c4 _ hz]; exact ha0
    have hb0 : p * c.n < s2.1.slots := by
      rw [b1.slots]; have := blk_le (n := c.n) hp; have := S.words; omega
    have hm0 : s3.1.mem a0 = s2.1.mem a0 := c5 a0 ((b1.ok.range a0).2 ⟨_, hb0, ha0'⟩)
    let W0 := weight rd t r.off (s2.1.mem a0)
    have := c6 (fun w => Q w ∧ weight rd t r.off w ≤ W0) (by
      intro l hl a ha
      refine ⟨hQ2 l hl a ha, ?_⟩
      rcases Nat.eq_zero_or_pos l with g | g
      · subst g
        rw [Nat.add_zero, ha0'] at ha
        rw [← Option.some.inj ha]
      · exact hS2 0 l a0 a g hl ha0' ha) (by
      rintro w i k hin ⟨⟨q1, q2, q3⟩, q4⟩
      refine ⟨⟨rfl, rfl, scaled_pos _ _ _⟩, le_trans ?_ q4⟩
      rw [weight_tt rd t r.off w q1 q2, weight_tt rd t r.off _ rfl rfl]
      exact hmono _ _ (scaled_le hin q3))
    intro l hl a ha
    rw [hm0]
    exact (this l hl a ha).2

theorem indexed_get (px : List (Nat × Nat)) {pre post : List (Nat × Nat × Nat)} {i : Nat × Nat × Nat} (h : indexed px = pre ++ i :: post) :
    i.1 = pre.length ∧ px[i.1]? = some i.2 ∧ i.1 < px.length := by
  have h1 : (indexed px)[pre.length]? = some i := by rw [h]; simp
  unfold indexed at h1
  rw [List.getElem?_map, List.getElem?_zipIdx] at h1
  cases hx : px[pre.length]? with
  | none => rw [hx] at h1; exact absurd h1 (by simp)
  | some q =>
    rw [hx] at h1
    have h2 : i = (pre.length, q) := by simpa using h1.symm
    have h3 := (List.getElem?_eq_some_iff.1 hx).1
    subst h2
    exact ⟨rfl, hx, h3⟩

theorem indexed_length (px : List (Nat × Nat)) : (indexed px).length = px.length := by simp [indexed]

/-- The local pass of a refresh. -/
theorem refreshLocal_spec (rd : ℚ → ℚ) {c : Cfg} {ng : Nat} {px : List (Nat × Nat)} (S : Setup c ng px) (rnd : Nat → Nat) (r : Refresh F)
    (t : Nat) (st : Store (Word F) × Nat) (h : LInv px.length c.n st.1)
    (h0 : (∀ j < px.length * c.n, st.1.dict j ≠ none) ∨ ∀ y x, r.force = true ∨ r.dil y x = 0) :
    ∃ st', (indexed px).foldlM (refreshPx rd c rnd r t) st = some st' ∧ LInv px.length c.n st'.1 ∧
      (∀ p < px.length, ∀ i < c.n, st'.1.dict (p * c.n + i) ≠ none) ∧
      (∀ P : Nat → Word F → Prop, (∀ p < px.length, Blk (P p) c.n (p * c.n) st.1) → (∀ p q, px[p]? = some q → Closed c r t q.1 q.2 (P p)) →
        ∀ p < px.length, Blk (P p) c.n (p * c.n) st'.1) ∧
      (IEEE.Rounds rd → r.frac ≤ 0 → 1 ≤ r.base → (∀ j, st.1.dict j = none) → (∀ y x, r.force = true ∨ r.dil y x = 0) →
        ∀ p < px.length, Best (weight rd t r.off) c.n (p * c.n) st'.1) := by
  obtain ⟨st', e, h1⟩ := foldlM_inv (refreshPx rd c rnd r t) (indexed px)
    (fun pre st' => LInv px.length c.n st'.1 ∧
      (∀ p < px.length, p < pre.length ∨ (∀ j < px.length * c.n, st.1.dict j ≠ none) → ∀ i < c.n, st'.1.dict (p * c.n + i) ≠ none) ∧
      (∀ p < px.length, pre.length ≤ p → ∀ i < c.n, st'.1.dict (p * c.n + i) = st.1.dict (p * c.n + i)) ∧
      (∀ P : Nat → Word F → Prop, (∀ p < px.length, Blk (P p) c.n (p * c.n) st.1) → (∀ p q, px[p]? = some q → Closed c r t q.1 q.2 (P p)) →
        ∀ p < px.length, Blk (P p) c.n (p * c.n) st'.1) ∧
      (IEEE.Rounds rd → r.frac ≤ 0 → 1 ≤ r.base → (∀ j, st.1.dict j = none) → (∀ y x, r.force = true ∨ r.dil y x = 0) →
        ∀ p < px.length, p < pre.length → Best (weight rd t r.off) c.n (p * c.n) st'.1))
    (by
      rintro pre ⟨p, y, x⟩ post s1 hl ⟨g1, g2, g3, g4, g5⟩
      obtain ⟨i1, i2, i3⟩ := indexed_get px hl
      dsimp only at i1 i2 i3
      have hin := S.inner _ (List.mem_of_getElem? i2)
      obtain ⟨s2, e, f1, f2, f3, f4, f5, f6⟩ := refreshPx_spec rd S rnd r t y x hin i3 s1 g1 (by
        rcases h0 with k | k
        · left
          have := g2 p i3 (Or.inr k) 0 S.words
          rwa [Nat.add_zero] at this
        · exact Or.inr k)
      have hoth : ∀ q, q ≠ p → ∀ i < c.n, s2.1.dict (q * c.n + i) = s1.1.dict (q * c.n + i) := fun q hq i hi => f2.dict _ (blk_out hq i hi)
      have hmo : ∀ q < px.length, q ≠ p → ∀ i < c.n, ∀ a, s1.1.dict (q * c.n + i) = some a → s2.1.mem a = s1.1.mem a := by
        intro q hq hqp i hi a ha
        refine f2.mem _ ?_ (blk_out hqp i hi) a ha
        rw [g1.slots]
        have := blk_le (n := c.n) hq
        omega
      have hlen : (pre ++ [(p, y, x)]).length = pre.length + 1 := by simp
      have hblk : ∀ (P : Word F → Prop) q, q < px.length → q ≠ p → Blk P c.n (q * c.n) s1.1 → Blk P c.n (q * c.n) s2.1 := by
        intro P q hq hqp hP l hl a ha
        rw [hoth q hqp l hl] at ha
        rw [hmo q hq hqp l hl a ha]
        exact hP l hl a ha
      refine ⟨s2, e, f1, ?_, ?_, ?_, ?_⟩
      · intro q hq hc i hi
        by_cases hqp : q = p
        · subst hqp
          by_cases hm : r.force = true ∨ r.dil y x = 0
          · exact f3 hm i hi
          · rw [f4 hm]
            rcases h0 with k | k
            · exact g2 q hq (Or.inr k) i hi
            · exact absurd (k y x) hm
        · rw [hoth q hqp i hi]
          refine g2 q hq ?_ i hi
          rcases hc with k | k
          · left; rw [hlen] at k; omega
          · exact Or.inr k
      · intro q hq hc i hi
        rw [hlen] at hc
        rw [hoth q (by omega) i hi]
        exact g3 q hq (by omega) i hi
      · intro P hP hcl q hq
        by_cases hqp : q = p
        · subst hqp
          exact f5 (P q) (g4 P hP hcl q hq) (hcl q (y, x) i2)
        · exact hblk (P q) q hq hqp (g4 P hP hcl q hq)
      · intro R hf hb hnone hm q hq hc
        rw [hlen] at hc
        by_cases hqp : q = p
        · subst hqp
          refine f6 R hf hb ?_ (hm y x)
          intro i hi
          rw [g3 q hq (by omega) i hi]
          exact hnone _
        · have hbest := g5 R hf hb hnone hm q hq (by omega)
          intro a0 ha0 l hl a ha
          have ha0' := hoth q hqp 0 S.words
          rw [Nat.add_zero] at ha0'
          rw [ha0'] at ha0
          rw [hoth q hqp l hl] at ha
          rw [hmo q hq hqp l hl a ha, hmo q hq hqp 0 S.words a0 (by rw [Nat.add_zero]; exact ha0)]
          exact hbest a0 ha0 l hl a ha)
    st ⟨h, by
      intro p hp hc i hi
      rcases hc with k | k
      · exact absurd k (by simp)
      · refine k _ ?_
        have := blk_le (n := c.n) hp
        omega, fun _ _ _ _ _ => rfl, fun P hP _ => hP, fun _ _ _ _ _ p _ k => absurd k (by simp)⟩
  obtain ⟨g1, g2, g3, g4, g5⟩ := h1
  rw [indexed_length] at g2 g5
  exact ⟨st', e, g1, fun p hp i hi => g2 p hp (Or.inl hp) i hi, g4, fun R hf hb hn hm p hp => g5 R hf hb hn hm p hp hp⟩

/-! ## Global words -/

/-- Invariant of the global dictionary while it is filled. -/
structure GInv (ng : Nat) (g : Store (GWord F)) : Prop where
  ok : Ok g
  slots : g.slots = ng
  pre : Pre ng 0 g.dict
  maps : Blk (fun w => w.map.isSome = true) ng 0 g

theorem lookup_lt {c : Cfg} {ng : Nat} {px : List (Nat × Nat)} (S : Setup c ng px) {y x : Nat} (hi : Inner c.b c.h c.w (y, x)) :
    lookup c y x < c.h / 2 * (c.w / 2) := by
  obtain ⟨h1, h2, h3, h4⟩ := hi
  have hb := S.border
  dsimp only at h1 h2 h3 h4
  unfold lookup
  have hy : y / 2 + 1 ≤ c.h / 2 := by omega
  have hx : x / 2 < c.w / 2 := by omega
  have := Nat.mul_le_mul_right (c.w / 2) hy
  rw [Nat.add_mul, Nat.one_mul] at this
  omega

theorem bump_spec (rd : ℚ → ℚ) {c : Cfg} {i : Nat} (hi : i < c.h / 2 * (c.w / 2)) (v : ℚ) (g : GWord F) (hg : g.map.isSome = true) :
    ∃ w, bump rd c i v g = some w ∧ w.map.isSome = true ∧ w.feat = g.feat ∧ w.bits = g.bits := by
  obtain ⟨f, hf⟩ := Option.isSome_iff_exists.1 hg
  unfold bump mapAt
  rw [hf]
  dsimp only
  rw [if_pos hi]
  dsimp only
  split_ifs
  · exact ⟨_, rfl, rfl, rfl, rfl⟩
  · exact ⟨_, rfl, hg, rfl, rfl⟩

theorem gSample_spec (rd : ℚ → ℚ) {c : Cfg} {ng : Nat} {px : List (Nat × Nat)} (S : Setup c ng px) (r : Refresh F) (t : Nat)
    {loc : Store (Word F)} (hl : LInv px.length c.n loc) (hf : ∀ p < px.length, ∀ i < c.n, loc.dict (p * c.n + i) ≠ none)
    {g : Store (GWord F)} (h : GInv ng g) {p y x : Nat} (hp : p < px.length) (hi : Inner c.b c.h c.w (y, x)) :
    ∃ g', gSample rd c r t ng loc g (p, y, x) = some g' ∧ GInv ng g' ∧ g'.dict 0 ≠ none := by
  unfold gSample
  dsimp only
  obtain ⟨a, ha⟩ := Option.ne_none_iff_exists'.1 (hf p hp 0 S.words)
  rw [Nat.add_zero] at ha
  have hsl : p * c.n < loc.slots := by
    rw [hl.slots]; have := blk_le (n := c.n) hp; have := S.words; omega
  rw [hl.ok.addr hsl ha]
  dsimp only
  have hb : 0 + ng ≤ g.slots := by rw [h.slots]; omega
  obtain ⟨s1, i, d, e1, e2, e3⟩ := enter_spec (wt := GWord.weight) (near := r.gnear y x (loc.mem a).feat) (hit := id)
    (fresh := freshG r (loc.mem a).feat) h.ok S.globals hb h.pre
  rw [e1]
  dsimp only
  rw [Nat.zero_add] at e2
  rw [e2]
  dsimp only
  have hm1 : (s1.mem d).map.isSome = true := by
    obtain ⟨_, -, -, -, -, -, k, -⟩ := e3 (s1.mem d)
    exact (k _ h.maps (fun v hv => hv) rfl).1
  obtain ⟨w, w1, w2, -⟩ := bump_spec rd (lookup_lt S hi) (weight rd t r.off (loc.mem a)) (s1.mem d) hm1
  rw [w1]
  dsimp only
  obtain ⟨s', f1, f2, f3, f4, f5, f6, -⟩ := e3 w
  exact ⟨s', f1, ⟨f2, f4.slots.trans h.slots, f3, (f6 _ h.maps (fun v hv => hv) rfl).2 w2⟩, f5⟩

theorem gPass_spec (rd : ℚ → ℚ) {c : Cfg} {ng : Nat} {px : List (Nat × Nat)} (S : Setup c ng px) (r : Refresh F) (t inc : Nat)
    {loc : Store (Word F)} (hl : LInv px.length c.n loc) (hf : ∀ p < px.length, ∀ i < c.n, loc.dict (p * c.n + i) ≠ none)
    {g : Store (GWord F)} (h : GInv ng g) :
    ∃ g', gPass rd c r t ng inc loc px g = some g' ∧ GInv ng g' ∧ (g.dict 0 ≠ none → g'.dict 0 ≠ none) := by
  unfold gPass
  refine foldlM_inv _ (indexed px) (fun _ g' => GInv ng g' ∧ (g.dict 0 ≠ none → g'.dict 0 ≠ none)) ?_ g ⟨h, id⟩
  rintro pre ⟨p, y, x⟩ post g1 hpx ⟨h1, h2⟩
  obtain ⟨i1, i2, i3⟩ := indexed_get px hpx
  dsimp only at i1 i2 i3
  dsimp only
  split_ifs
  · obtain ⟨g', e, k1, k2⟩ := gSample_spec rd S r t hl hf h1 i3 (S.inner _ (List.mem_of_getElem? i2))
    exact ⟨g', e, k1, fun _ => k2⟩
  · exact ⟨g1, rfl, h1, h2⟩

theorem gFill_spec {ng : Nat} (zero : F) {g : Store (GWord F)} (h : GInv ng g) :
    ∃ g', (List.range ng).foldlM (gFillStep zero) g = some g' ∧ GInv ng g' ∧ (∀ j < ng, g'.dict j ≠ none) ∧
      (∀ j, g.dict j ≠ none → g'.dict j = g.dict j) := by
  obtain ⟨g', e, k1, k2, k3, k4⟩ := foldlM_inv (gFillStep zero) (List.range ng)
    (fun pre g' => Ok g' ∧ g'.slots = ng ∧ Blk (fun w => w.map.isSome = true) ng 0 g' ∧
      (∀ j < pre.length, g'.dict j ≠ none) ∧ (∀ j, g.dict j ≠ none → g'.dict j = g.dict j))
    (by
      rintro pre j post g1 hl ⟨k1, k2, k3, k4, k5⟩
      have hj : j < ng := List.mem_range.1 (by rw [hl]; simp)
      have hjp : j = pre.length := by
        have h2 : (List.range ng)[pre.length]? = some j := by rw [hl]; simp
        have hlen : pre.length < ng := by
          have := congrArg List.length hl
          simp at this; omega
        rw [List.getElem?_range hlen] at h2
        exact (Option.some.inj h2).symm
      have hlen' : (pre ++ [j]).length = pre.length + 1 := by simp
      unfold gFillStep
      rw [slot_of (by rw [k2]; exact hj)]
      cases hd : g1.dict j with
      | some a =>
        refine ⟨g1, rfl, k1, k2, k3, ?_, k5⟩
        intro m hm
        rw [hlen'] at hm
        by_cases e : m = j
        · rw [e, hd]; simp
        · exact k4 m (by omega)
      | none =>
        dsimp only
        obtain ⟨s', e1, e2, e3, e4, e5, e6, e7⟩ := k1.take (j := j) (by rw [k2]; exact hj) hd ⟨0, some fun _ => 0, 0, zero⟩
        refine ⟨s', e1, e2, e3.trans k2, ?_, ?_, ?_⟩
        · intro l hl' a ha
          rw [e7]
          split_ifs with g2
          · rfl
          · rw [e6] at ha
            split_ifs at ha with g3
            · exact absurd (Option.some.inj ha).symm g2
            · exact k3 l hl' a ha
        · intro m hm
          rw [hlen'] at hm
          rw [e6]
          split_ifs
          · simp
          · exact k4 m (by omega)
        · intro m hm
          rw [e6, if_neg]
          · exact k5 m hm
          · rintro rfl
            rw [k5 m hm] at hd
            exact hm hd)
    g ⟨h.ok, h.slots, h.maps, fun j hj => absurd hj (by simp), fun _ _ => rfl⟩
  rw [List.length_range] at k4
  refine ⟨g', e, ⟨k1, k2, fun i j hij hj _ => ?_, k3⟩, k4.1, k4.2⟩
  rw [Nat.zero_add]
  exact k4.1 i (by omega)

/-- The ranks of a pixel: each global word once. -/
structure RankOk (ng : Nat) (l : Nat → Nat) : Prop where
  range : ∀ j < ng, l j < ng
  inj : ∀ j < ng, ∀ j' < ng, l j = l j' → j = j'

theorem RankOk.swap {ng : Nat} {l : Nat → Nat} (h : RankOk ng l) {j i : Nat} (hj : j < ng) (hi : i < ng) :
    RankOk ng (fun m => if m = j then l i else if m = i then l j else l m) := by
  have e : (fun m => if m = j then l i else if m = i then l j else l m) = fun m => l (tr j i m) := by
    funext m; unfold tr; split_ifs <;> rfl
  rw [e]
  refine ⟨fun m hm => h.range _ (tr_lt hj hi hm), ?_⟩
  intro m hm m' hm' k
  have := h.inj _ (tr_lt hj hi hm) _ (tr_lt hj hi hm') k
  have := congrArg (tr j i) this
  rwa [tr_tr, tr_tr] at this

/-- The global dictionary as used by the pixels: full. -/
structure GFull (ng : Nat) (g : Store (GWord F)) : Prop where
  ok : Ok g
  slots : g.slots = ng
  full : ∀ j < ng, g.dict j ≠ none
  maps : ∀ a < ng, (g.mem a).map.isSome = true

theorem GFull.cap {ng : Nat} {g : Store (GWord F)} (h : GFull ng g) : g.cap = ng := h.ok.fits.symm.trans h.slots

theorem GInv.toFull {ng : Nat} {g : Store (GWord F)} (h : GInv ng g) (hf : ∀ j < ng, g.dict j ≠ none) : GFull ng g := by
  refine ⟨h.ok, h.slots, hf, ?_⟩
  intro a ha
  have hit := h.ok.iter_full (by rw [h.slots]; exact hf)
  obtain ⟨j, hj, hd⟩ := (h.ok.range a).1 (by rw [hit, h.slots]; exact ha)
  rw [h.slots] at hj
  exact h.maps j hj a (by rw [Nat.zero_add]; exact hd)

theorem GFull.toInv {ng : Nat} {g : Store (GWord F)} (h : GFull ng g) : GInv ng g := by
  refine ⟨h.ok, h.slots, fun i j hij hj _ => by rw [Nat.zero_add]; exact h.full i (by omega), ?_⟩
  intro l hl a ha
  rw [Nat.zero_add] at ha
  refine h.maps a ?_
  have := h.ok.lt_cap (by rw [h.slots]; exact hl) ha
  rw [h.cap] at this
  exact this

theorem GFull.addr {ng : Nat} {g : Store (GWord F)} (h : GFull ng g) {j : Nat} (hj : j < ng) : ∃ a, g.addr j = some a ∧ g.dict j = some a ∧ a < ng := by
  obtain ⟨a, ha⟩ := Option.ne_none_iff_exists'.1 (h.full j hj)
  have hs : j < g.slots := by rw [h.slots]; exact hj
  exact ⟨a, h.ok.addr hs ha, ha, by have := h.ok.lt_cap hs ha; rwa [h.cap] at this⟩

theorem ranked_spec {c : Cfg} {ng : Nat} {g : Store (GWord F)} (h : GFull ng g) {i : Nat} (hi : i < c.h / 2 * (c.w / 2)) {l : Nat → Nat} {j : Nat}
    (hl : l j < ng) : ∃ v, ranked c g i l j = some v := by
  unfold ranked
  rw [h.cap, if_pos hl]
  obtain ⟨f, hf⟩ := Option.isSome_iff_exists.1 (h.maps _ hl)
  unfold mapAt
  rw [hf]
  exact ⟨_, if_pos hi⟩

theorem ranked_congr {c : Cfg} {g : Store (GWord F)} {i : Nat} {l l' : Nat → Nat} {j j' : Nat} (h : l j = l' j') : ranked c g i l j = ranked c g i l' j' := by
  unfold ranked; rw [h]

theorem rankPass_spec {c : Cfg} {ng : Nat} {g : Store (GWord F)} (h : GFull ng g) {i : Nat} (hi : i < c.h / 2 * (c.w / 2)) :
    ∀ (rem j : Nat) (v : ℚ) (l : Nat → Nat), 1 ≤ j → j + rem = ng → RankOk ng l → ranked c g i l (j - 1) = some v →
      (∀ m < j, ∀ u, ranked c g i l m = some u → v ≤ u) →
      ∃ l', rankPass c g i rem j v l = some l' ∧ RankOk ng l' ∧ ∀ m < ng, ∀ u u', ranked c g i l' m = some u → ranked c g i l' (ng - 1) = some u' → u' ≤ u
  | 0, j, v, l, h1, h2, hl, hv, hm => by
    refine ⟨l, rfl, hl, ?_⟩
    intro m hm' u u' hu hu'
    have : j = ng := by omega
    subst this
    rw [hv] at hu'
    rw [← Option.some.inj hu']
    exact hm m hm' u hu
  | rem + 1, j, v, l, h1, h2, hl, hv, hm => by
    obtain ⟨u, hu⟩ := ranked_spec (c := c) h hi (l := l) (j := j) (hl.range j (by omega))
    unfold rankPass
    rw [hu]
    dsimp only
    by_cases huv : u > v
    · rw [if_pos huv]
      refine rankPass_spec h hi rem (j + 1) v _ (by omega) (by omega) (hl.swap (by omega) (by omega)) ?_ ?_
      · rw [← hv, Nat.add_sub_cancel]
        exact ranked_congr (if_pos rfl)
      · intro m hm' u' hu'
        by_cases e1 : m = j
        · rw [e1] at hu'
          have hu' := (ranked_congr (l' := l) (j' := j - 1) (if_pos rfl)).symm.trans hu'
          rw [hv] at hu'
          rw [Option.some.inj hu']
        · by_cases e2 : m = j - 1
          · rw [e2] at hu'
            have hu' := (ranked_congr (l' := l) (j' := j) ((if_neg (by omega)).trans (if_pos rfl))).symm.trans hu'
            rw [hu] at hu'
            rw [← Option.some.inj hu']
            exact le_of_lt huv
          · refine hm m (by omega) u' ?_
            rw [← hu']
            exact (ranked_congr ((if_neg e1).trans (if_neg e2))).symm
    · rw [if_neg huv]
      refine rankPass_spec h hi rem (j + 1) u _ (by omega) (by omega) hl (by rw [Nat.add_sub_cancel]; exact hu) ?_
      intro m hm' u' hu'
      by_cases e1 : m = j
      · rw [e1, hu] at hu'
        rw [Option.some.inj hu']
      · exact le_trans (not_lt.1 huv) (hm m (by omega) u' hu')

/-- The sort of the global words for each pixel: the ranks stay complete, and the word with the smallest value at the pixel
comes last. -/
theorem sortRanks_spec {c : Cfg} {ng : Nat} {px : List (Nat × Nat)} (S : Setup c ng px) {g : Store (GWord F)} (h : GFull ng g) (l : Ranks)
    (hl : ∀ p < px.length, RankOk ng (l p)) :
    ∃ l', sortRanks c ng g px l = some l' ∧ (∀ p < px.length, RankOk ng (l' p)) ∧
      (∀ p q, px[p]? = some q → ∀ m < ng, ∀ u u', ranked c g (lookup c q.1 q.2) (l' p) m = some u →
        ranked c g (lookup c q.1 q.2) (l' p) (ng - 1) = some u' → u' ≤ u) := by
  unfold sortRanks
  obtain ⟨l', e, h1, h2⟩ := foldlM_inv (fun l (i : Nat × Nat × Nat) =>
    match ranked c g (lookup c i.2.1 i.2.2) (l i.1) 0 with
    | none => none
    | some v => (rankPass c g (lookup c i.2.1 i.2.2) (ng - 1) 1 v (l i.1)).map fun m => fun q => if q = i.1 then m else l q) (indexed px)
    (fun pre l' => (∀ p < px.length, RankOk ng (l' p)) ∧
      (∀ p q, p < pre.length → px[p]? = some q → ∀ m < ng, ∀ u u', ranked c g (lookup c q.1 q.2) (l' p) m = some u →
        ranked c g (lookup c q.1 q.2) (l' p) (ng - 1) = some u' → u' ≤ u))
    (by
      rintro pre ⟨p, y, x⟩ post l1 hpx ⟨k1, k2⟩
      obtain ⟨i1, i2, i3⟩ := indexed_get px hpx
      dsimp only at i1 i2 i3
      have hin := S.inner _ (List.mem_of_getElem? i2)
      have hlk := lookup_lt S hin
      have hg := S.globals
      obtain ⟨v, hv⟩ := ranked_spec (c := c) h hlk (l := l1 p) (j := 0) ((k1 p i3).range 0 hg)
      dsimp only
      rw [hv]
      dsimp only
      obtain ⟨l2, e2, f1, f2⟩ := rankPass_spec (c := c) h hlk (ng - 1) 1 v (l1 p) le_rfl (by omega) (k1 p i3) hv (by
        intro m hm u hu
        have : m = 0 := by omega
        rw [this, hv] at hu
        rw [Option.some.inj hu])
      rw [e2]
      have hlen : (pre ++ [(p, y, x)]).length = pre.length + 1 := by simp
      refine ⟨_, rfl, ?_, ?_⟩
      · intro q hq
        dsimp only
        split_ifs
        · exact f1
        · exact k1 q hq
      · intro q z hq hz m hm u u' hu hu'
        dsimp only at hu hu'
        by_cases e : q = p
        · subst e
          rw [if_pos rfl] at hu hu'
          rw [i2] at hz
          have hz := Option.some.inj hz
          subst hz
          exact f2 m hm u u' hu hu'
        · rw [if_neg e] at hu hu'
          rw [hlen] at hq
          exact k2 q z (by omega) hz m hm u u' hu hu')
    l ⟨hl, fun p q hp => absurd hp (by simp)⟩
  refine ⟨l', e, h1, ?_⟩
  intro p q hpq
  refine h2 p q ?_ hpq
  rw [indexed_length]
  exact (List.getElem?_eq_some_iff.1 hpq).1

/-! ## `refreshModel` -/

/-- The state of the model between calls. -/
structure Good (c : Cfg) (ng np : Nat) (m : Mdl F) : Prop where
  loc : Ok m.loc
  slots : m.loc.slots = np * c.n
  full : ∀ p < np, ∀ i < c.n, m.loc.dict (p * c.n + i) ≠ none
  glo : GFull ng m.glo
  ranks : ∀ p < np, RankOk ng (m.ranks p)

theorem Good.linv {c : Cfg} {ng np : Nat} {m : Mdl F} (h : Good c ng np m) : LInv np c.n m.loc :=
  ⟨h.loc, h.slots, fun p hp i j hij hj _ => h.full p hp i (by omega)⟩

theorem slots_full {n np : Nat} (hn : 0 < n) {d : Nat → Option Nat} (h : ∀ p < np, ∀ i < n, d (p * n + i) ≠ none) (j : Nat) (hj : j < np * n) : d j ≠ none := by
  have h1 : j / n < np := (Nat.div_lt_iff_lt_mul hn).2 hj
  have h2 := h (j / n) h1 (j % n) (Nat.mod_lt _ hn)
  rwa [Nat.div_add_mod' j n] at h2

theorem refreshModel_spec (rd : ℚ → ℚ) {c : Cfg} {ng : Nat} (zero : F) {px : List (Nat × Nat)} (S : Setup c ng px) (rnd : Nat → Nat) (r : Refresh F)
    (t : Nat) (m : Mdl F) (hl : LInv px.length c.n m.loc) (hg : GInv ng m.glo) (hr : ∀ p < px.length, RankOk ng (m.ranks p))
    (h0 : (∀ j < px.length * c.n, m.loc.dict j ≠ none) ∨ ∀ y x, r.force = true ∨ r.dil y x = 0) :
    ∃ m', refreshModel rd c ng zero rnd px r t m = some m' ∧ Good c ng px.length m' ∧
      (∀ P : Nat → Word F → Prop, (∀ p < px.length, Blk (P p) c.n (p * c.n) m.loc) → (∀ p q, px[p]? = some q → Closed c r t q.1 q.2 (P p)) →
        ∀ p < px.length, Blk (P p) c.n (p * c.n) m'.loc) ∧
      (IEEE.Rounds rd → r.frac ≤ 0 → 1 ≤ r.base → (∀ j, m.loc.dict j = none) → (∀ y x, r.force = true ∨ r.dil y x = 0) →
        ∀ p < px.length, Best (weight rd t r.off) c.n (p * c.n) m'.loc) ∧
      (∀ p q, px[p]? = some q → ∀ j < ng, ∀ u u', ranked c m'.glo (lookup c q.1 q.2) (m'.ranks p) j = some u →
        ranked c m'.glo (lookup c q.1 q.2) (m'.ranks p) (ng - 1) = some u' → u' ≤ u) := by
  obtain ⟨⟨loc, k⟩, e1, a1, a2, a3, a4⟩ := refreshLocal_spec rd S rnd r t (m.loc, m.k) hl h0
  dsimp only at a1 a2 a3 a4
  obtain ⟨g1, e2, b1, -⟩ := gPass_spec rd S r t (max (c.h * c.w / ng) 1) a1 a2 hg
  obtain ⟨g2, e3, b2, -⟩ := gPass_spec rd S r t (max (max (c.h * c.w / ng) 1 / 3) 1) a1 a2 b1
  obtain ⟨g3, e4, b3, b4, -⟩ := gFill_spec zero b2
  have hfull := b3.toFull b4
  obtain ⟨l', e5, d1, d2⟩ := sortRanks_spec S hfull m.ranks hr
  refine ⟨⟨loc, g3, l', k⟩, ?_, ⟨a1.ok, a1.slots, a2, hfull, d1⟩, a3, a4, d2⟩
  unfold refreshModel
  rw [e1]
  dsimp only
  rw [e2]
  dsimp only
  rw [e3]
  dsimp only
  rw [e4]
  dsimp only
  rw [e5]
  rfl

end Litiv.Pawcs
