import Verif.Model.PawcsBg
import Verif.Lemmas.BgImage
import Verif.Lemmas.PawcsStep

/-!
# Lemmas on the background image of PAWCS
-/

namespace Litiv.Pawcs
open Consensus Consensus.Spec Spec

variable {F : Type}

/-- Some word of the block has occurrences. -/
def Any (n b : Nat) (s : Store (Word F)) : Prop := ∃ l < n, ∃ a, s.dict (b + l) = some a ∧ 1 ≤ (s.mem a).occ

/-- After a sample with a positive base count some word has occurrences. -/
theorem sample_any (rd : ℚ → ℚ) {np n p : Nat} (r : Refresh F) (t y x : Nat) (f : F) {s s' : Store (Word F)} (h : LInv np n s) (hn : 0 < n) (hp : p < np)
    (hbase : 1 ≤ r.base) (e : sample rd r t n (p * n) y x f s = some s') : Any n (p * n) s' := by
  have hb : p * n + n ≤ s.slots := by rw [h.slots]; exact blk_le hp
  obtain ⟨s1, i, e1, hi, ok1, kept, hpx, -, -, a, ha, -, hcase⟩ := place_spec (near := fun w : Word F => r.near y x f w.feat)
    (hit := fun w => { w with occ := w.occ + 1, last := t }) (fresh := ⟨t, t, r.base, f⟩) h.ok hn hb (h.pre p hp)
  unfold sample at e
  rw [e1] at e
  dsimp only at e
  obtain ⟨s2, f1, -, f3, -, -, -, -, -, f9, -⟩ := bubble_spec (wt := weight rd t r.off) (n := n) (b := p * n) i s1 ok1 hi
    (by rw [kept.slots]; exact hb) hpx (by rw [ha]; simp)
  rw [f1] at e
  cases Option.some.inj e
  obtain ⟨l, hl, hd⟩ := (f9 a).2 ⟨i, hi, ha⟩
  refine ⟨l, hl, a, hd, ?_⟩
  rw [f3]
  rcases hcase with ⟨c1, -⟩ | ⟨c1, -⟩
  · rw [c1]; dsimp only; omega
  · rw [c1]; exact hbase

/-- The reduction of the counts by less than everything. -/
theorem decr_any {np n p : Nat} (r : Refresh F) (hf : r.frac < 1) {s s' : Store (Word F)} (h : LInv np n s) (hp : p < np)
    (e : decr r n (p * n) s = some s') (ha : Any n (p * n) s) : Any n (p * n) s' := by
  obtain ⟨s1, e1, -, -, hd, h0, -⟩ := decr_spec r h hp
  rw [e] at e1
  cases Option.some.inj e1
  by_cases hz : 0 < r.frac
  swap
  · rw [h0 (not_lt.1 hz)]; exact ha
  have hpos : ∀ o : Nat, 1 ≤ o → 1 ≤ o - ⌊r.frac * (o : ℚ)⌋.toNat := by
    intro o ho
    have h1 : r.frac * (o : ℚ) < o := by
      have : (0 : ℚ) < o := by exact_mod_cast ho
      nlinarith
    have h2 : ⌊r.frac * (o : ℚ)⌋ < o := Int.floor_lt.2 (by push_cast; exact h1)
    omega
  have key : ∀ (l : List Nat) (s s' : Store (Word F)), l.foldlM (decrStep r.frac (p * n)) s = some s' → ∀ a, 1 ≤ (s.mem a).occ → 1 ≤ (s'.mem a).occ := by
    intro l
    induction l with
    | nil => intro s s' e a h; cases Option.some.inj e; exact h
    | cons i l ih =>
      intro s s' e a h
      rw [List.foldlM_cons] at e
      cases hs : decrStep r.frac (p * n) s i with
      | none => rw [hs] at e; exact absurd e (by simp)
      | some s1 =>
        rw [hs] at e
        refine ih s1 s' e a ?_
        unfold decrStep at hs
        cases hsl : s.slot (p * n + i) with
        | none => rw [hsl] at hs; exact absurd hs (by simp)
        | some o =>
          rw [hsl] at hs
          cases o with
          | none => cases Option.some.inj hs; exact h
          | some d =>
            dsimp only at hs
            by_cases hc : d < s.cap
            · rw [if_pos hc] at hs
              cases Option.some.inj hs
              show 1 ≤ (if a = d then _ else s.mem a).occ
              split_ifs with g
              · rw [g] at h; exact hpos _ h
              · exact h
            · rw [if_neg hc] at hs; exact absurd hs (by simp)
  unfold decr at e
  rw [if_pos hz] at e
  obtain ⟨l, hl, a, h1, h2⟩ := ha
  exact ⟨l, hl, a, by rw [hd]; exact h1, key _ _ _ e a h2⟩

/-- One pixel of a refresh. -/
theorem refreshPx_any (rd : ℚ → ℚ) {c : Cfg} {ng : Nat} {px : List (Nat × Nat)} (S : Setup c ng px) {np p : Nat} (rnd : Nat → Nat) (r : Refresh F)
    (t y x : Nat) (hi : Inner c.b c.h c.w (y, x)) (hp : p < np) (st st' : Store (Word F) × Nat) (h : LInv np c.n st.1)
    (h0 : st.1.dict (p * c.n) ≠ none) (hbase : 1 ≤ r.base) (hfr : r.frac < 1 ∨ r.force = true)
    (e : refreshPx rd c rnd r t st (p, y, x) = some st') (ha : Any c.n (p * c.n) st.1) : Any c.n (p * c.n) st'.1 := by
  unfold refreshPx at e
  dsimp only at e
  by_cases hm : r.force = true ∨ r.dil y x = 0
  swap
  · rw [if_neg hm] at e
    cases Option.some.inj e; exact ha
  rw [if_pos hm] at e
  obtain ⟨s1, e1, a1, a2, a3, a4, a5⟩ := decr_spec r h hp
  rw [e1] at e
  dsimp only at e
  have hd1 : r.force = true ∨ Any c.n (p * c.n) s1 := by
    rcases hfr with g | g
    · exact Or.inr (decr_any r g h hp e1 ha)
    · exact Or.inl g
  obtain ⟨s2, e2, b1, b2, b3⟩ := foldlM_inv (sampleIter rd c rnd r t (p * c.n) y x) (List.range 98)
    (fun pre s2 => LInv np c.n s2.1 ∧ s2.1.dict (p * c.n) ≠ none ∧ ((pre ≠ [] ∧ r.force = true) ∨ Any c.n (p * c.n) s1 → Any c.n (p * c.n) s2.1))
    (by
      rintro pre j post s2 hl ⟨g1, g2, g3⟩
      obtain ⟨s3, f, f1, f2, f3, -⟩ := sampleIter_spec rd S rnd r t y x hi hp s2 j g1
      refine ⟨s3, f, f1, f3 (Or.inl g2), ?_⟩
      intro hc
      unfold sampleIter at f
      obtain ⟨q, e, hq, -⟩ := samplePx_spec c S.rows S.cols (rnd s2.2) y x
      unfold samplePx at e
      rw [e] at f
      dsimp only at f
      by_cases hm : r.force = true ∨ r.dil q.1 q.2 = 0
      · rw [if_pos hm] at f
        cases hs : sample rd r t c.n (p * c.n) y x (r.last q.1 q.2) s2.1 with
        | none => rw [hs] at f; exact absurd f (by simp)
        | some s4 =>
          rw [hs] at f
          cases Option.some.inj f
          exact sample_any rd r t y x _ g1 S.words hp hbase hs
      · rw [if_neg hm] at f
        cases Option.some.inj f
        refine g3 ?_
        rcases hc with ⟨-, hc⟩ | hc
        · exact absurd (Or.inl hc) hm
        · exact Or.inr hc)
    (s1, st.2) ⟨a1, by show s1.dict _ ≠ none; rw [a3]; exact h0, by
      rintro (⟨g, -⟩ | g)
      · exact absurd rfl g
      · exact g⟩
  rw [e2] at e
  dsimp only at e
  obtain ⟨s3, e3, c1, c2, c3, c4, c5, c6⟩ := fill_spec rnd r t y x hp S.words s2 b1 b2
  rw [e3] at e
  cases Option.some.inj e
  obtain ⟨l, hl, a, h1, h2⟩ := b3 (by
    rcases hd1 with g | g
    · exact Or.inl ⟨by simp [List.range_succ], g⟩
    · exact Or.inr g)
  refine ⟨l, hl, a, by rw [c4 _ (by rw [h1]; simp)]; exact h1, ?_⟩
  rw [c5 a ((b1.ok.range a).2 ⟨_, by rw [b1.slots]; have := blk_le (n := c.n) hp; omega, h1⟩)]
  exact h2

/-- A refresh. -/
theorem refresh_any (rd : ℚ → ℚ) {c : Cfg} {ng : Nat} (zero : F) {px : List (Nat × Nat)} (S : Setup c ng px) (rnd : Nat → Nat) (r : Refresh F)
    (t : Nat) (m m' : Mdl F) (h : Good c ng px.length m) (hbase : 1 ≤ r.base) (hfr : r.frac < 1 ∨ r.force = true)
    (e : refreshModel rd c ng zero rnd px r t m = some m') (ha : ∀ p < px.length, Any c.n (p * c.n) m.loc) :
    ∀ p < px.length, Any c.n (p * c.n) m'.loc := by
  obtain ⟨⟨loc, k⟩, e1, h1, h2, h3⟩ := foldlM_inv (refreshPx rd c rnd r t) (indexed px)
    (fun _ st => LInv px.length c.n st.1 ∧ (∀ p < px.length, ∀ i < c.n, st.1.dict (p * c.n + i) ≠ none) ∧ ∀ p < px.length, Any c.n (p * c.n) st.1)
    (by
      rintro pre ⟨p, y, x⟩ post s1 hl ⟨g1, g2, g3⟩
      obtain ⟨i1, i2, i3⟩ := indexed_get px hl
      dsimp only at i1 i2 i3
      have hin := S.inner _ (List.mem_of_getElem? i2)
      have hz : s1.1.dict (p * c.n) ≠ none := by have := g2 p i3 0 S.words; rwa [Nat.add_zero] at this
      obtain ⟨s2, e, f1, f2, f3, f4, -⟩ := refreshPx_spec rd S rnd r t y x hin i3 s1 g1 (Or.inl hz)
      refine ⟨s2, e, f1, ?_, ?_⟩
      · intro q hq i hi
        by_cases hqp : q = p
        · subst hqp
          by_cases hm : r.force = true ∨ r.dil y x = 0
          · exact f3 hm i hi
          · rw [f4 hm]; exact g2 q hq i hi
        · rw [f2.dict _ (blk_out hqp i hi)]; exact g2 q hq i hi
      · intro q hq
        by_cases hqp : q = p
        · subst hqp
          exact refreshPx_any rd S rnd r t y x hin i3 s1 s2 g1 hz hbase hfr e (g3 q hq)
        · obtain ⟨l, hl, a, d1, d2⟩ := g3 q hq
          refine ⟨l, hl, a, by rw [f2.dict _ (blk_out hqp l hl)]; exact d1, ?_⟩
          rw [f2.mem _ (by rw [g1.slots]; have := blk_le (n := c.n) hq; omega) (blk_out hqp l hl) a d1]
          exact d2)
    (m.loc, m.k) ⟨h.linv, h.full, ha⟩
  unfold refreshModel at e
  rw [e1] at e
  dsimp only at e
  cases q1 : gPass rd c r t ng (max (c.h * c.w / ng) 1) loc px m.glo with
  | none => rw [q1] at e; exact absurd e (by simp)
  | some g1 =>
    rw [q1] at e
    dsimp only at e
    cases q2 : gPass rd c r t ng (max (max (c.h * c.w / ng) 1 / 3) 1) loc px g1 with
    | none => rw [q2] at e; exact absurd e (by simp)
    | some g2 =>
      rw [q2] at e
      dsimp only at e
      cases q3 : (List.range ng).foldlM (gFillStep zero) g2 with
      | none => rw [q3] at e; exact absurd e (by simp)
      | some g3 =>
        rw [q3] at e
        dsimp only at e
        cases q4 : sortRanks c ng g3 px m.ranks with
        | none => rw [q4] at e; exact absurd e (by simp)
        | some l =>
          rw [q4] at e
          cases Option.some.inj e
          exact h3

/-- Some word of pixel `p` has occurrences. -/
def AnyAt (c : Cfg) (m : Mdl F) (p : Nat) : Prop := ∃ i < c.n, ∃ w, wordAt c m p i = some w ∧ 1 ≤ w.occ

theorem anyAt_iff {c : Cfg} {ng np : Nat} {m : Mdl F} (h : Good c ng np m) {p : Nat} (hp : p < np) : AnyAt c m p ↔ Any c.n (p * c.n) m.loc := by
  have hb := blk_le (n := c.n) hp
  constructor
  · rintro ⟨i, hi, w, h1, h2⟩
    unfold wordAt at h1
    cases ha : m.loc.addr (p * c.n + i) with
    | none => rw [ha] at h1; exact absurd h1 (by simp)
    | some a =>
      rw [ha] at h1
      cases Option.some.inj h1
      exact ⟨i, hi, a, ((addr_eq _ _ _).1 ha).2.1, h2⟩
  · rintro ⟨i, hi, a, h1, h2⟩
    refine ⟨i, hi, m.loc.mem a, ?_, h2⟩
    unfold wordAt
    rw [h.loc.addr (by rw [h.slots]; omega) h1]
    rfl

theorem bonus_pos (f : Frame F) (y x : Nat) : 1 ≤ bonus f y x := by
  unfold bonus; split_ifs <;> omega

theorem own_any {rd : ℚ → ℚ} {rnd : Nat → Nat} {n : Nat} {f : Frame F} {t y x : Nat} {before after : Nat → Option (Word F)}
    (h : Own rd rnd n f t y x before after) (ha : ∃ i < n, ∃ w, before i = some w ∧ 1 ≤ w.occ) : ∃ i < n, ∃ w, after i = some w ∧ 1 ≤ w.occ := by
  obtain ⟨σ, s1, -, s3, -⟩ := h
  obtain ⟨i, hi, w, h1, h2⟩ := ha
  obtain ⟨w0, w', e1, e2, e3⟩ := s3 i hi
  rw [h1] at e1
  cases Option.some.inj e1
  refine ⟨σ i, s1 i hi, w', e2, ?_⟩
  split at e3
  · rw [e3]; exact bonus_pos f y x
  · split at e3
    · rw [e3.occ]; split_ifs <;> omega
    · rw [e3]; exact h2

theorem passed_any {rd : ℚ → ℚ} {n : Nat} {f : Frame F} {t y x : Nat} {q : Nat × Nat} {qfg : Bool} {thr : ℚ} {before after : Nat → Option (Word F)}
    (h : Passed rd n f t y x q qfg thr before after) (ha : ∃ i < n, ∃ w, before i = some w ∧ 1 ≤ w.occ) : ∃ i < n, ∃ w, after i = some w ∧ 1 ≤ w.occ := by
  obtain ⟨hit, j, -, -, -, s4⟩ := h
  obtain ⟨i, hi, w, h1, h2⟩ := ha
  obtain ⟨w0, w', e1, e2, -, -, e3⟩ := s4 i hi
  rw [h1] at e1
  cases Option.some.inj e1
  refine ⟨i, hi, w', e2, ?_⟩
  split at e3
  · rw [e3]; exact bonus_pos f y x
  · split at e3
    · cases hr : f.byRef with
      | false => rw [e3.copy hr]; exact h2
      | true => rw [e3.occ hr]; split_ifs <;> omega
    · rw [e3]; exact h2

/-- A frame. -/
theorem frame_any {rd : ℚ → ℚ} (R : IEEE.Rounds rd) {c : Cfg} {ng : Nat} {px : List (Nat × Nat)} (S : Setup c ng px) (rnd : Nat → Nat) (f : Frame F) (hf : Callable f) (t : Nat)
    (m : Mdl F) (h : Good c ng px.length m) (ha : ∀ p < px.length, AnyAt c m p) (l' : Loop F) (e : applyFrame rd c ng rnd px f t m = some l') :
    ∀ p < px.length, AnyAt c l'.m p := by
  obtain ⟨l1, ls, e1, h1, h2, -, h4⟩ := frame_steps_spec R S rnd f hf t m h.live
  rw [e] at e1
  cases Option.some.inj e1
  have key : ∀ k ≤ px.length, ∀ p < px.length, AnyAt c (ls k).m p := by
    intro k
    induction k with
    | zero => intro _ p hp; rw [h1]; exact ha p hp
    | succ k ih =>
      intro hk p hp
      have ih := ih (by omega)
      obtain ⟨⟨y, x⟩, hq⟩ : ∃ q, px[k]? = some q := ⟨_, List.getElem?_eq_getElem (by omega)⟩
      obtain ⟨mid, m1, m2, m3⟩ := (h4 k y x hq).words
      have hmid : ∀ p < px.length, ∃ i < c.n, ∃ w, mid p i = some w ∧ 1 ≤ w.occ := by
        intro p hp
        by_cases hpk : p = k
        · subst hpk; exact own_any m1 (ih p hp)
        · obtain ⟨i, hi, w, g1, g2⟩ := ih p hp
          exact ⟨i, hi, w, by rw [m2 p hp hpk i hi]; exact g1, g2⟩
      rcases m3 with m3 | ⟨q, p', k', d1, -, -, d2, d3⟩
      · obtain ⟨i, hi, w, g1, g2⟩ := hmid p hp
        exact ⟨i, hi, w, by rw [m3 p hp i hi]; exact g1, g2⟩
      · by_cases hpp : p = p'
        · subst hpp
          exact passed_any d3 (hmid p hp)
        · obtain ⟨i, hi, w, g1, g2⟩ := hmid p hp
          exact ⟨i, hi, w, by rw [d2 p hp hpp i hi]; exact g1, g2⟩
  intro p hp
  obtain ⟨i, hi, w, g1, g2⟩ := key px.length le_rfl p hp
  refine ⟨i, hi, w, ?_, g2⟩
  unfold wordAt at g1 ⊢
  rw [h2]; exact g1

/-- Histories whose refreshes keep or renew the counts. -/
theorem session_any {rd : ℚ → ℚ} (R : IEEE.Rounds rd) {c : Cfg} {ng : Nat} (zero : F) {px : List (Nat × Nat)} (S : Setup c ng px) (rnd : Nat → Nat) (r : Refresh F)
    (ops : List (Op F)) (hops : ∀ f, Op.frame f ∈ ops → Callable f) (hr : ∀ r, Op.refresh r ∈ ops → 1 ≤ r.base ∧ (r.frac < 1 ∨ r.force = true))
    (m : Mdl F) (t : Nat) (e : session rd c ng zero rnd px r ops = some (m, t)) :
    Good c ng px.length m ∧ ∀ p < px.length, AnyAt c m p := by
  obtain ⟨m0, e0, a1, a2, -⟩ := start_spec rd zero S rnd r 0
  unfold session at e
  rw [e0] at e
  dsimp only at e
  have h0 : ∀ p < px.length, AnyAt c m0 p := by
    intro p hp
    rw [anyAt_iff a1 hp]
    have hz := a1.full p hp 0 S.words
    obtain ⟨a, ha⟩ := Option.ne_none_iff_exists'.1 hz
    refine ⟨0, S.words, a, ha, a2 (fun _ w => 1 ≤ w.occ) ?_ p hp 0 S.words a ha⟩
    intro p q _
    refine ⟨?_, ?_, ?_, ?_⟩
    · intro w h1
      show 1 ≤ w.occ - ⌊(0 : ℚ) * (w.occ : ℚ)⌋.toNat
      simpa using h1
    · intro w _; show 1 ≤ w.occ + 1; omega
    · intro q' _ _ _; exact le_rfl
    · intro w i k _ _; exact scaled_pos _ _ _
  obtain ⟨⟨m', t'⟩, e', g1, g2⟩ := foldlM_inv (call rd c ng zero rnd px) ops
    (fun _ st => Good c ng px.length st.1 ∧ ∀ p < px.length, AnyAt c st.1 p)
    (by
      rintro pre o post ⟨m1, t1⟩ hl ⟨k1, k2⟩
      have ho : o ∈ ops := by rw [hl]; simp
      dsimp only at k1 k2
      cases o with
      | frame f =>
        obtain ⟨l', e1, f1, -⟩ := applyFrame_spec rd S rnd f (hops f ho) (t1 + 1) m1 k1.live
        unfold call
        dsimp only
        rw [e1]
        exact ⟨_, rfl, f1.good, frame_any R S rnd f (hops f ho) (t1 + 1) m1 k1 k2 l' e1⟩
      | refresh r' =>
        obtain ⟨m', e1, f1, -⟩ := refreshModel_spec rd zero S rnd r' t1 m1 k1.linv k1.glo.toInv k1.ranks (Or.inl (slots_full S.words k1.full))
        unfold call
        dsimp only
        rw [e1]
        refine ⟨_, rfl, f1, fun p hp => ?_⟩
        rw [anyAt_iff f1 hp]
        exact refresh_any rd zero S rnd r' t1 m1 m' k1 (hr r' ho).1 (hr r' ho).2 e1 (fun p hp => (anyAt_iff k1 hp).1 (k2 p hp)) p hp)
    (m0, 0) ⟨a1, h0⟩
  rw [e] at e'
  have := Option.some.inj e'
  have hm : m = m' := congrArg Prod.fst this
  subst hm
  exact ⟨g1, g2⟩

end Litiv.Pawcs

/-! ## The weighted mean in `float` arithmetic -/

namespace Litiv.PawcsFeed
open IEEE

/-- Relative error. -/
theorem float32_rel (x : ℚ) (hx : 0 ≤ x) : |float32 x - x| ≤ x / 2 ^ 24 := by
  rcases hx.eq_or_lt with rfl | h
  · unfold float32; rw [fl_zero]; simp
  have h1 := BgImage.fl_error_le 24 (Lut.ilog x + 1) x hx (lt_ilog x h)
  refine le_trans h1 ?_
  have h2 := Lut.ilog_le x h
  rw [show Lut.ilog x + 1 - 1 - ((24 : Nat) : Int) = Lut.ilog x - 24 by push_cast; ring, zpow_sub₀ (by norm_num)]
  refine div_le_div_of_nonneg_right h2 ?_ |>.trans (le_of_eq ?_)
  · positivity
  · norm_num

variable {F : Type}

/-- The exact sums. -/
def sums (wv : List (ℚ × ℚ)) : ℚ × ℚ := ((wv.map fun e => e.1 * e.2).sum, (wv.map fun e => e.2).sum)

/-- Running `float` sums of values and weights. -/
def run (wv : List (ℚ × ℚ)) : ℚ × ℚ := wv.foldl (fun s e => (float32 (s.1 + float32 (e.1 * e.2)), float32 (s.2 + e.2))) (0, 0)

/-- One step of a running sum: `s` accumulated within `k`, `p` an exact term rounded once (or not at all) to `p'`. -/
theorem sum_step {u k S C P P' C' : ℚ} (hu : 0 ≤ u) (hk : u ≤ k) (hk1 : k + u < 1) (hS : 0 ≤ S) (hP : 0 ≤ P)
    (h1 : (1 - k) * S ≤ C) (h2 : (1 - k) * C ≤ S) (hp : |P' - P| ≤ P * u) (hp0 : 0 ≤ P') (hC : 0 ≤ C) (hc : |C' - (C + P')| ≤ (C + P') * u) :
    (1 - (k + u)) * (S + P) ≤ C' ∧ (1 - (k + u)) * C' ≤ S + P ∧ 0 ≤ C' := by
  have a := abs_le.1 hp
  have b := abs_le.1 hc
  have hC' : C' ≤ (1 + u) * (C + P') := by linarith
  have hC'' : (1 - u) * (C + P') ≤ C' := by linarith
  have hP' : P' ≤ (1 + u) * P := by linarith
  have hP'' : (1 - u) * P ≤ P' := by linarith
  have hu1 : u < 1 := by linarith
  refine ⟨?_, ?_, ?_⟩
  · have g1 : (1 - (k + u)) * S ≤ (1 - u) * C := by
      have : (1 - u) * ((1 - k) * S) ≤ (1 - u) * C := mul_le_mul_of_nonneg_left h1 (by linarith)
      have hku : 0 ≤ k * u := mul_nonneg (by linarith) hu
      nlinarith [mul_nonneg hku hS]
    have g2 : (1 - (k + u)) * P ≤ (1 - u) * P' := by
      have : (1 - u) * ((1 - u) * P) ≤ (1 - u) * P' := mul_le_mul_of_nonneg_left hP'' (by linarith)
      nlinarith [mul_nonneg (mul_nonneg hu hu) hP, mul_nonneg (sub_nonneg.2 hk) hP]
    nlinarith
  · have hpos : 0 ≤ 1 - (k + u) := by linarith
    have g0 : (1 - (k + u)) * C' ≤ (1 - (k + u)) * ((1 + u) * (C + P')) := mul_le_mul_of_nonneg_left hC' hpos
    have hf : (1 - (k + u)) * (1 + u) ≤ 1 - k := by nlinarith [mul_nonneg (show (0 : ℚ) ≤ k + u by linarith) hu]
    have g1 : (1 - (k + u)) * (1 + u) * C ≤ S := le_trans (mul_le_mul_of_nonneg_right hf hC) h2
    have hf2 : (1 - (k + u)) * (1 + u) * (1 + u) ≤ 1 := by
      have : (1 - (k + u)) * (1 + u) * (1 + u) ≤ (1 - k) * (1 + u) := mul_le_mul_of_nonneg_right hf (by linarith)
      nlinarith [mul_nonneg (show (0 : ℚ) ≤ k by linarith) hu]
    have g2 : (1 - (k + u)) * (1 + u) * P' ≤ P := by
      have h3 : (1 - (k + u)) * (1 + u) * P' ≤ (1 - (k + u)) * (1 + u) * ((1 + u) * P) :=
        mul_le_mul_of_nonneg_left hP' (mul_nonneg hpos (by linarith))
      have h4 : (1 - (k + u)) * (1 + u) * (1 + u) * P ≤ 1 * P := mul_le_mul_of_nonneg_right hf2 hP
      linarith
    linarith
  · have : 0 ≤ (1 - u) * (C + P') := mul_nonneg (by linarith) (by linarith)
    linarith

theorem run_spec (wv : List (ℚ × ℚ)) (hv : ∀ e ∈ wv, 0 ≤ e.1 ∧ 0 ≤ e.2) (hl : (wv.length + 1 : ℚ) / 2 ^ 24 < 1) :
    ((1 - (wv.length + 1) / 2 ^ 24) * (sums wv).1 ≤ (run wv).1 ∧ (1 - (wv.length + 1) / 2 ^ 24) * (run wv).1 ≤ (sums wv).1 ∧ 0 ≤ (run wv).1) ∧
    ((1 - (wv.length + 1) / 2 ^ 24) * (sums wv).2 ≤ (run wv).2 ∧ (1 - (wv.length + 1) / 2 ^ 24) * (run wv).2 ≤ (sums wv).2 ∧ 0 ≤ (run wv).2) := by
  induction wv using List.reverseRecOn with
  | nil => simp [sums, run]
  | append_singleton wv e ih =>
    rw [List.length_append, List.length_singleton] at hl
    push_cast at hl
    have hlen : (0 : ℚ) ≤ wv.length := Nat.cast_nonneg _
    obtain ⟨⟨a1, a2, a3⟩, ⟨b1, b2, b3⟩⟩ := ih (fun e he => hv e (List.mem_append_left _ he)) (by
      refine lt_of_le_of_lt (div_le_div_of_nonneg_right ?_ (by norm_num)) hl
      linarith)
    obtain ⟨e1, e2⟩ := hv e (by simp)
    have hr : run (wv ++ [e]) = (float32 ((run wv).1 + float32 (e.1 * e.2)), float32 ((run wv).2 + e.2)) := by
      unfold run; rw [List.foldl_append]; rfl
    have hs : sums (wv ++ [e]) = ((sums wv).1 + e.1 * e.2, (sums wv).2 + e.2) := by
      unfold sums; simp
    have hs1 : 0 ≤ (sums wv).1 := List.sum_nonneg (by
      intro q hq
      obtain ⟨d, hd, rfl⟩ := List.mem_map.1 hq
      obtain ⟨d1, d2⟩ := hv d (List.mem_append_left _ hd)
      exact mul_nonneg d1 d2)
    have hs2 : 0 ≤ (sums wv).2 := List.sum_nonneg (by
      intro q hq
      obtain ⟨d, hd, rfl⟩ := List.mem_map.1 hq
      exact (hv d (List.mem_append_left _ hd)).2)
    have hk : (((wv ++ [e]).length : ℚ) + 1) / 2 ^ 24 = (wv.length + 1) / 2 ^ 24 + 1 / 2 ^ 24 := by
      rw [List.length_append, List.length_singleton]; push_cast; ring
    have hu : (1 : ℚ) / 2 ^ 24 ≤ (wv.length + 1) / 2 ^ 24 := div_le_div_of_nonneg_right (by linarith) (by norm_num)
    have hk1 : ((wv.length : ℚ) + 1) / 2 ^ 24 + 1 / 2 ^ 24 < 1 := by
      rw [← add_div]; exact hl
    have hp := mul_nonneg e1 e2
    have r1 := float32_rel (e.1 * e.2) hp
    have n1 : 0 ≤ float32 (e.1 * e.2) := fl_nonneg 24 (by norm_num) _ hp
    have r2 := float32_rel ((run wv).1 + float32 (e.1 * e.2)) (add_nonneg a3 n1)
    have r3 := float32_rel ((run wv).2 + e.2) (add_nonneg b3 e2)
    rw [div_eq_mul_one_div] at r1 r2 r3
    rw [hk, hr, hs]
    refine ⟨sum_step (by norm_num) hu hk1 hs1 hp a1 a2 r1 n1 a3 r2, sum_step (P' := e.2) (by norm_num) hu hk1 hs2 e2 b1 b2 ?_ e2 b3 r3⟩
    rw [sub_self, abs_zero]; exact mul_nonneg e2 (by norm_num)

/-- The quotient of two sums known up to a relative error, rounded, lies within half of the bounds. -/
theorem quot_half {u k lo hi S W C V f B : ℚ} (hu : 0 < u) (hk : 0 < k) (hB : 1 ≤ B) (heps : (2 * k + u) * (2 * B) < 1) (hlo : 0 ≤ lo)
    (hlohi : lo ≤ hi) (hhi : hi ≤ B - 1) (hW : 0 < W) (hS1 : lo * W ≤ S) (hS2 : S ≤ hi * W)
    (a1 : (1 - k) * S ≤ C) (a2 : (1 - k) * C ≤ S) (hC : 0 ≤ C) (b1 : (1 - k) * W ≤ V) (b2 : (1 - k) * V ≤ W) (hV : 0 < V)
    (hf : |f - C / V| ≤ C / V * u) : lo - 1 / 2 < f ∧ f < hi + 1 / 2 := by
  have heps1 : 2 * k + u < 1 / 2 := by nlinarith
  have hk2 : 0 ≤ 1 - k := by linarith
  have hhi0 : 0 ≤ hi := le_trans hlo hlohi
  have hq0 : 0 ≤ C / V := div_nonneg hC hV.le
  have u0 : (1 - k) * ((1 - k) * (C / V)) ≤ hi := by
    rw [← mul_div_assoc, ← mul_div_assoc, div_le_iff₀ hV]
    have e1 : (1 - k) * ((1 - k) * C) ≤ (1 - k) * S := mul_le_mul_of_nonneg_left a2 hk2
    have e2 : (1 - k) * S ≤ (1 - k) * (hi * W) := mul_le_mul_of_nonneg_left hS2 hk2
    have e3 : hi * ((1 - k) * W) ≤ hi * V := mul_le_mul_of_nonneg_left b1 hhi0
    linarith
  have l0 : (1 - k) * ((1 - k) * lo) ≤ C / V := by
    rw [le_div_iff₀ hV]
    have e1 : (1 - k) * lo * ((1 - k) * V) ≤ (1 - k) * lo * W := mul_le_mul_of_nonneg_left b2 (mul_nonneg hk2 hlo)
    have e2 : (1 - k) * (lo * W) ≤ (1 - k) * S := mul_le_mul_of_nonneg_left hS1 hk2
    linarith
  generalize C / V = q at *
  have hkk : 0 ≤ k * k := mul_nonneg hk.le hk.le
  have u1 : (1 - 2 * k) * q ≤ hi := by
    have := mul_nonneg hkk hq0
    linarith
  have l1 : (1 - 2 * k) * lo ≤ q := by
    have := mul_nonneg hkk hlo
    linarith
  obtain ⟨f1, f2⟩ := abs_le.1 hf
  have hku : 0 ≤ k * u := mul_nonneg hk.le hu.le
  have huu : 0 ≤ u * u := mul_nonneg hu.le hu.le
  have u2 : (1 - (2 * k + u)) * f ≤ hi := by
    have h2 : (1 - (2 * k + u)) * f ≤ (1 - (2 * k + u)) * ((1 + u) * q) := mul_le_mul_of_nonneg_left (by linarith) (by linarith)
    have h3 : (1 - (2 * k + u)) * (1 + u) ≤ 1 - 2 * k := by linarith
    have h4 := mul_le_mul_of_nonneg_right h3 hq0
    linarith
  have l2 : (1 - (2 * k + u)) * lo ≤ f := by
    have h2 : (1 - u) * ((1 - 2 * k) * lo) ≤ (1 - u) * q := mul_le_mul_of_nonneg_left l1 (by linarith)
    have := mul_nonneg hku hlo
    linarith
  have hε : 0 < 2 * k + u := by linarith
  generalize 2 * k + u = ε at *
  have hεB : ε * B < 1 / 2 := by linarith
  have hεhi : ε * hi ≤ ε * (B - 1) := mul_le_mul_of_nonneg_left hhi hε.le
  have hεlo : ε * lo ≤ ε * hi := mul_le_mul_of_nonneg_left hlohi hε.le
  constructor
  · linarith
  · by_contra hc
    have := mul_le_mul_of_nonneg_left (not_lt.1 hc) (show (0 : ℚ) ≤ 1 - ε by linarith)
    linarith

/-- The quotient of the sums. -/
theorem run_quotient (bits : Nat) (wv : List (ℚ × ℚ)) (lo hi : Nat) (hv : ∀ e ∈ wv, (lo : ℚ) ≤ e.1 ∧ e.1 ≤ hi ∧ 0 ≤ e.2) (hhi : hi ≤ 2 ^ bits - 1)
    (hpos : ∃ e ∈ wv, 0 < e.2) (hl : (2 * wv.length + 3) * 2 ^ (bits + 1) < 2 ^ 24) :
    0 < (run wv).2 ∧ lo ≤ BgImage.convert bits (float32 ((run wv).1 / (run wv).2)) ∧ BgImage.convert bits (float32 ((run wv).1 / (run wv).2)) ≤ hi := by
  have hlo0 : (0 : ℚ) ≤ lo := Nat.cast_nonneg _
  have hlen : (0 : ℚ) ≤ wv.length := Nat.cast_nonneg _
  have hq : (2 * (wv.length : ℚ) + 3) * 2 ^ (bits + 1) < 2 ^ 24 := by exact_mod_cast hl
  have hB : (1 : ℚ) ≤ 2 ^ bits := one_le_pow₀ (by norm_num)
  rw [pow_succ] at hq
  have heps : (2 * ((wv.length + 1 : ℚ) / 2 ^ 24) + 1 / 2 ^ 24) * (2 * 2 ^ bits) < 1 := by
    have : (2 * ((wv.length + 1 : ℚ) / 2 ^ 24) + 1 / 2 ^ 24) * (2 * 2 ^ bits) = ((2 * (wv.length : ℚ) + 3) * (2 ^ bits * 2)) / 2 ^ 24 := by ring
    rw [this, div_lt_one (by norm_num)]; exact hq
  have hk0 : (0 : ℚ) < (wv.length + 1) / 2 ^ 24 := div_pos (by linarith) (by norm_num)
  have hk1 : (wv.length + 1 : ℚ) / 2 ^ 24 < 1 := by
    rw [div_lt_one (by norm_num)]
    nlinarith
  obtain ⟨⟨a1, a2, a3⟩, ⟨b1, b2, b3⟩⟩ := run_spec wv (fun e he => ⟨le_trans hlo0 (hv e he).1, (hv e he).2.2⟩) hk1
  -- exact sums
  have hW : 0 < (sums wv).2 := by
    obtain ⟨e, he, hp⟩ := hpos
    have : e.2 ≤ (sums wv).2 := List.single_le_sum (by
      intro q hq
      obtain ⟨d, hd, rfl⟩ := List.mem_map.1 hq
      exact (hv d hd).2.2) _ (List.mem_map.2 ⟨e, he, rfl⟩)
    linarith
  have hS : lo * (sums wv).2 ≤ (sums wv).1 ∧ (sums wv).1 ≤ hi * (sums wv).2 := by
    clear a1 a2 a3 b1 b2 b3 hW hpos hl heps hk0 hk1 hq hlen
    unfold sums
    dsimp only
    induction wv with
    | nil => simp
    | cons e wv ih =>
      obtain ⟨i1, i2⟩ := ih fun e he => hv e (List.mem_cons_of_mem _ he)
      obtain ⟨h1, h2, h3⟩ := hv e List.mem_cons_self
      simp only [List.map_cons, List.sum_cons]
      constructor <;> nlinarith
  have hrW : 0 < (run wv).2 := lt_of_lt_of_le (mul_pos (by linarith) hW) b1
  refine ⟨hrW, ?_⟩
  have hhiq : (hi : ℚ) ≤ 2 ^ bits - 1 := by
    have : hi + 1 ≤ 2 ^ bits := by have := Nat.one_le_two_pow (n := bits); omega
    have : ((hi + 1 : Nat) : ℚ) ≤ ((2 ^ bits : Nat) : ℚ) := by exact_mod_cast this
    push_cast at this; linarith
  have hloq : (lo : ℚ) ≤ hi := by
    obtain ⟨e, he, -⟩ := hpos
    exact le_trans (hv e he).1 (hv e he).2.1
  have hr := float32_rel ((run wv).1 / (run wv).2) (div_nonneg a3 hrW.le)
  rw [div_eq_mul_one_div ((run wv).1 / (run wv).2) (2 ^ 24)] at hr
  obtain ⟨l3, u3⟩ := quot_half (by norm_num) hk0 hB heps hlo0 hloq hhiq hW hS.1 hS.2 a1 a2 a3 b1 b2 hrW hr
  generalize float32 ((run wv).1 / (run wv).2) = q at *
  have hm : ∃ x : ℚ, (lo : ℚ) ≤ x ∧ x ≤ hi ∧ |q - x| < 1 / 2 := by
    by_cases c1 : q < lo
    · exact ⟨lo, le_rfl, hloq, abs_lt.2 ⟨by linarith, by linarith⟩⟩
    · by_cases c2 : (hi : ℚ) < q
      · exact ⟨hi, hloq, le_rfl, abs_lt.2 ⟨by linarith, by linarith⟩⟩
      · exact ⟨q, not_lt.1 c1, not_lt.1 c2, by rw [sub_self, abs_zero]; norm_num⟩
  obtain ⟨x, x1, x2, x3⟩ := hm
  obtain ⟨c1, c2, -⟩ := BgImage.convert_between bits lo hi (q) x x1 x2 hhi x3
  exact ⟨c1, c2⟩

/-- The sums of the model. -/
theorem bgSums_run (t off : Nat) (val : F → Nat) (words : Nat → Option (Pawcs.Word F)) (n : Nat) (h : ∀ i < n, ∃ w, words i = some w) :
    ∃ ws : List (Pawcs.Word F), ws.length = n ∧ (∀ w ∈ ws, ∃ i < n, words i = some w) ∧ (∀ i < n, ∀ w, words i = some w → w ∈ ws) ∧
      bgSums float32 t off val words n = some (run (ws.map fun w => ((val w.feat : ℚ), Pawcs.weight float32 t off w))) := by
  induction n with
  | zero => exact ⟨[], rfl, by simp, by simp, rfl⟩
  | succ n ih =>
    obtain ⟨ws, h1, h2, h3, h4⟩ := ih fun i hi => h i (by omega)
    obtain ⟨w, hw⟩ := h n (by omega)
    refine ⟨ws ++ [w], by simp [h1], ?_, ?_, ?_⟩
    · intro v hv
      rcases List.mem_append.1 hv with hv | hv
      · obtain ⟨i, hi, e⟩ := h2 v hv
        exact ⟨i, by omega, e⟩
      · rw [List.mem_singleton.1 hv]; exact ⟨n, by omega, hw⟩
    · intro i hi v hv
      by_cases hin : i = n
      · subst hin
        rw [hw] at hv
        cases Option.some.inj hv
        simp
      · exact List.mem_append_left _ (h3 i (by omega) v hv)
    · unfold bgSums
      rw [h4, hw]
      dsimp only
      unfold run
      rw [List.map_append, List.foldl_append]
      rfl

theorem weight_pos (t off : Nat) (hoff : 0 < off) (w : Pawcs.Word F) : 0 ≤ Pawcs.weight float32 t off w ∧ (1 ≤ w.occ → 0 < Pawcs.weight float32 t off w) := by
  have hn : ∀ q : ℚ, 0 ≤ q → 0 ≤ float32 q := fun q h => fl_nonneg 24 (by norm_num) q h
  have hp : ∀ q : ℚ, 0 < q → 0 < float32 q := fun q h => lt_of_lt_of_le (zpow_pos (by norm_num) _) (fl_bounds 24 (by norm_num) q h).1
  unfold Pawcs.weight
  refine ⟨hn _ (div_nonneg (hn _ (Nat.cast_nonneg _)) (hn _ (Nat.cast_nonneg _))), fun h => hp _ (div_pos (hp _ ?_) (hp _ ?_))⟩
  · exact_mod_cast h
  · have : 0 < (w.last - w.first) + (t - w.last) * 2 + off := by omega
    exact_mod_cast this

end Litiv.PawcsFeed
