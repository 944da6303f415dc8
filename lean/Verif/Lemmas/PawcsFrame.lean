import Verif.Lemmas.PawcsInit

/-!
# Lemmas on the pixel loop of PAWCS
-/

namespace Litiv.Pawcs
open Consensus Consensus.Spec Spec

variable {W F : Type}

/-- The first `i` words of a block have been visited: they were changed as `R` says, and moved so that the lightest is last. -/
structure Sifted (R : Nat → W → W → Prop) (wt : Nat → ℚ) (b : Nat) (s0 s : Store W) (i : Nat) (lw : Option ℚ) : Prop where
  ok : Ok s
  slots : s.slots = s0.slots
  cap : s.cap = s0.cap
  iter : s.iter = s0.iter
  out : ∀ l, l < b ∨ b + i ≤ l → s.dict l = s0.dict l
  full : ∀ l < i, s.dict (b + l) ≠ none
  perm : ∀ a, (∃ l < i, s.dict (b + l) = some a) ↔ ∃ l < i, s0.dict (b + l) = some a
  memo : ∀ a, (∀ l < i, s0.dict (b + l) ≠ some a) → s.mem a = s0.mem a
  memr : ∀ l < i, ∀ a, s0.dict (b + l) = some a → R l (s0.mem a) (s.mem a)
  low : (i = 0 ∧ lw = none) ∨ ∃ a, 0 < i ∧ s.dict (b + (i - 1)) = some a ∧ lw = some (wt a) ∧ ∀ l < i, ∀ d, s.dict (b + l) = some d → wt a ≤ wt d
  top : 0 < i → ∃ a d, s0.dict (b + 0) = some a ∧ s.dict (b + 0) = some d ∧ wt a ≤ wt d

theorem Sifted.start {R : Nat → W → W → Prop} {wt : Nat → ℚ} {b : Nat} {s0 : Store W} (h : Ok s0) : Sifted R wt b s0 s0 0 none :=
  ⟨h, rfl, rfl, rfl, fun _ _ => rfl, fun l hl => absurd hl (by omega), fun a => Iff.rfl, fun _ _ => rfl, fun l hl => absurd hl (by omega), Or.inl ⟨rfl, rfl⟩,
    fun hi => absurd hi (by omega)⟩

theorem Sifted.mono {R R' : Nat → W → W → Prop} {wt : Nat → ℚ} {b : Nat} {s0 s : Store W} {i : Nat} {lw : Option ℚ} (h : Sifted R wt b s0 s i lw)
    (hR : ∀ l < i, ∀ w w', R l w w' → R' l w w') : Sifted R' wt b s0 s i lw :=
  ⟨h.ok, h.slots, h.cap, h.iter, h.out, h.full, h.perm, h.memo, fun l hl a ha => hR l hl _ _ (h.memr l hl a ha), h.low, h.top⟩

theorem Sifted.step {R : Nat → W → W → Prop} {wt : Nat → ℚ} {b : Nat} {s0 s : Store W} {i : Nat} {lw : Option ℚ} (h : Sifted R wt b s0 s i lw)
    (h0 : Ok s0) (hb : b + i < s0.slots) {a : Nat} (ha : s0.dict (b + i) = some a) :
    s.mem a = s0.mem a ∧ ∀ w, R i (s0.mem a) w → Sifted R wt b s0 (sift b i (wt a) lw (s.put a w)).1 (i + 1) (sift b i (wt a) lw (s.put a w)).2 := by
  have hnew : ∀ l < i, s0.dict (b + l) ≠ some a := by
    intro l hl hd
    have := h0.inj (b + l) (b + i) a (by omega) hb hd ha
    omega
  have hda : s.dict (b + i) = some a := (h.out (b + i) (Or.inr le_rfl)).trans ha
  refine ⟨h.memo a hnew, ?_⟩
  intro w hw
  have hmem : ∀ d, (s.put a w).mem d = if d = a then w else s.mem d := fun _ => rfl
  have hmemo : ∀ d, (∀ l < i + 1, s0.dict (b + l) ≠ some d) → (s.put a w).mem d = s0.mem d := by
    intro d hd
    rw [hmem, if_neg (by rintro rfl; exact hd i (by omega) ha)]
    exact h.memo d fun l hl => hd l (by omega)
  have hmemr : ∀ l < i + 1, ∀ d, s0.dict (b + l) = some d → R l (s0.mem d) ((s.put a w).mem d) := by
    intro l hl d hd
    by_cases e : l = i
    · subst e
      rw [ha] at hd
      have := Option.some.inj hd
      subst this
      rw [hmem, if_pos rfl]; exact hw
    · rw [hmem, if_neg (by rintro rfl; exact hnew l (by omega) hd)]
      exact h.memr l (by omega) d hd
  have hperm : ∀ d, (∃ l < i + 1, s.dict (b + l) = some d) ↔ ∃ l < i + 1, s0.dict (b + l) = some d := by
    intro d
    constructor
    · rintro ⟨l, hl, hd⟩
      by_cases e : l = i
      · rw [e, hda] at hd; exact ⟨i, by omega, ha.trans hd⟩
      · obtain ⟨m, hm, hd'⟩ := (h.perm d).1 ⟨l, by omega, hd⟩
        exact ⟨m, by omega, hd'⟩
    · rintro ⟨l, hl, hd⟩
      by_cases e : l = i
      · rw [e, ha] at hd; exact ⟨i, by omega, hda.trans hd⟩
      · obtain ⟨m, hm, hd'⟩ := (h.perm d).2 ⟨l, by omega, hd⟩
        exact ⟨m, by omega, hd'⟩
  have hfull : ∀ l < i + 1, s.dict (b + l) ≠ none := by
    intro l hl
    by_cases e : l = i
    · rw [e, hda]; simp
    · exact h.full l (by omega)
  have stay : ∀ v, (∀ l < i + 1, ∀ d, s.dict (b + l) = some d → wt a ≤ wt d) → v = some (wt a) → Sifted R wt b s0 (s.put a w) (i + 1) v := by
    intro v hv he
    refine ⟨h.ok.put a w, h.slots, h.cap, h.iter, fun l hl => h.out l (by omega), hfull, hperm, hmemo, hmemr, Or.inr ⟨a, by omega, ?_, he, hv⟩, ?_⟩
    · exact hda
    · intro _
      rcases Nat.eq_zero_or_pos i with hi | hi
      · rw [hi] at ha hda
        exact ⟨a, a, ha, hda, le_rfl⟩
      · exact h.top hi
  unfold sift
  rcases h.low with ⟨hi0, hlw⟩ | ⟨e, hi0, hde, hlw, hmin⟩
  · rw [hlw]
    dsimp only
    refine stay _ ?_ rfl
    intro l hl d hd
    have : l = i := by omega
    rw [this, hda] at hd
    rw [Option.some.inj hd]
  · rw [hlw]
    dsimp only
    by_cases hgt : wt a > wt e
    · rw [if_pos hgt]
      have hdi : ((s.put a w).swap (b + i) (b + (i - 1))).dict (b + i) = some e := by
        rw [swap_dict, if_pos rfl]; exact hde
      have hdi1 : ((s.put a w).swap (b + i) (b + (i - 1))).dict (b + (i - 1)) = some a := by
        rw [swap_dict, if_neg (by omega), if_pos rfl]; exact hda
      have hdo : ∀ l, l ≠ b + i → l ≠ b + (i - 1) → ((s.put a w).swap (b + i) (b + (i - 1))).dict l = s.dict l := by
        intro l h1 h2
        rw [swap_dict, if_neg h1, if_neg h2]; rfl
      have hset : ∀ d, (∃ l < i + 1, ((s.put a w).swap (b + i) (b + (i - 1))).dict (b + l) = some d) ↔ ∃ l < i + 1, s.dict (b + l) = some d := by
        intro d
        constructor
        · rintro ⟨l, hl, hd⟩
          by_cases e1 : l = i
          · rw [e1, hdi] at hd; exact ⟨i - 1, by omega, hde.trans hd⟩
          by_cases e2 : l = i - 1
          · rw [e2, hdi1] at hd; exact ⟨i, by omega, hda.trans hd⟩
          rw [hdo _ (by omega) (by omega)] at hd
          exact ⟨l, hl, hd⟩
        · rintro ⟨l, hl, hd⟩
          by_cases e1 : l = i
          · rw [e1, hda] at hd; exact ⟨i - 1, by omega, hdi1.trans hd⟩
          by_cases e2 : l = i - 1
          · rw [e2, hde] at hd; exact ⟨i, by omega, hdi.trans hd⟩
          refine ⟨l, hl, ?_⟩
          rw [hdo _ (by omega) (by omega)]
          exact hd
      refine ⟨(h.ok.put a w).swap (by show b + i < s.slots; rw [h.slots]; exact hb) (by show b + (i - 1) < s.slots; rw [h.slots]; omega), h.slots, h.cap, h.iter,
        ?_, ?_, fun d => (hset d).trans (hperm d), hmemo, hmemr, Or.inr ⟨e, by omega, ?_, rfl, ?_⟩, ?_⟩
      · intro l hl
        show ((s.put a w).swap (b + i) (b + (i - 1))).dict l = _
        rw [hdo l (by omega) (by omega)]
        exact h.out l (by omega)
      · intro l hl
        show ((s.put a w).swap (b + i) (b + (i - 1))).dict (b + l) ≠ none
        by_cases e1 : l = i
        · rw [e1, hdi]; simp
        by_cases e2 : l = i - 1
        · rw [e2, hdi1]; simp
        rw [hdo _ (by omega) (by omega)]
        exact hfull l hl
      · exact hdi
      · intro l hl d hd
        have hd : ((s.put a w).swap (b + i) (b + (i - 1))).dict (b + l) = some d := hd
        by_cases e1 : l = i
        · rw [e1, hdi] at hd; rw [Option.some.inj hd]
        by_cases e2 : l = i - 1
        · rw [e2, hdi1] at hd; rw [← Option.some.inj hd]; exact le_of_lt hgt
        rw [hdo _ (by omega) (by omega)] at hd
        exact hmin l (by omega) d hd
      · intro _
        show ∃ a' d, s0.dict (b + 0) = some a' ∧ ((s.put a w).swap (b + i) (b + (i - 1))).dict (b + 0) = some d ∧ _
        obtain ⟨a0, d0, t1, t2, t3⟩ := h.top hi0
        by_cases e1 : i = 1
        · rw [e1] at hde hdi1
          have := t2.symm.trans hde
          refine ⟨a0, a, t1, ?_, ?_⟩
          · rw [e1]; exact hdi1
          · rw [Option.some.inj this] at t3; linarith
        · refine ⟨a0, d0, t1, ?_, t3⟩
          rw [hdo _ (by omega) (by omega)]
          exact t2
    · rw [if_neg hgt]
      refine stay _ ?_ rfl
      intro l hl d hd
      by_cases e1 : l = i
      · rw [e1, hda] at hd; rw [Option.some.inj hd]
      · exact le_trans (not_lt.1 hgt) (hmin l (by omega) d hd)

theorem put_self (s : Store W) (a : Nat) : s.put a (s.mem a) = s := by
  unfold Store.put
  have : (fun b => if b = a then s.mem a else s.mem b) = s.mem := by
    funext b; split_ifs with g
    · rw [g]
    · rfl
  rw [this]

/-- The rest of the scan, once enough words were found. -/
theorem scanTail_spec {R : Nat → W → W → Prop} {wt : W → ℚ} {b : Nat} {s0 : Store W} (h0 : Ok s0) : ∀ (rem i : Nat) (lw : Option ℚ) (s : Store W),
    b + (i + rem) ≤ s0.slots → (∀ l, i ≤ l → l < i + rem → s0.dict (b + l) ≠ none) → (∀ l, i ≤ l → ∀ w, R l w w) →
    Sifted R (fun a => wt (s0.mem a)) b s0 s i lw →
    ∃ s' lw', scanTail wt b rem i lw s = some s' ∧ Sifted R (fun a => wt (s0.mem a)) b s0 s' (i + rem) lw'
  | 0, i, lw, s, _, _, _, h => ⟨s, lw, rfl, h⟩
  | rem + 1, i, lw, s, hb, hf, hR, h => by
    obtain ⟨a, ha⟩ := Option.ne_none_iff_exists'.1 (hf i le_rfl (by omega))
    obtain ⟨hm, hst⟩ := h.step h0 (by omega) ha
    have had : s.addr (b + i) = some a := h.ok.addr (by rw [h.slots]; omega) ((h.out _ (Or.inr le_rfl)).trans ha)
    have h1 := hst (s0.mem a) (hR i le_rfl _)
    rw [← hm, put_self] at h1
    obtain ⟨s', lw', e, h2⟩ := scanTail_spec h0 rem (i + 1) _ _ (by omega) (fun l h1 h2 => hf l (by omega) (by omega)) (fun l hl => hR l (by omega)) h1
    refine ⟨s', lw', ?_, ?_⟩
    · unfold scanTail
      rw [had]
      exact e
    · rw [show i + (rem + 1) = i + 1 + rem by omega]
      exact h2

/-- What a frame does to a word that is visited: an illumination update only if its conditions hold, then the match. -/
def Seen (rd : ℚ → ℚ) (rnd : Nat → Nat) (f : Frame F) (t y x i : Nat) (w w' : Word F) : Prop :=
  ∃ il, (il = true → f.illum y x w.feat = true ∧ ∃ k, rnd k % f.irate y x i = 0) ∧ w' = scanned rd f t y x il w

/-- The words of a block by slot. -/
def wordsOf (s : Store W) (b : Nat) (i : Nat) : Option W := (s.addr (b + i)).map s.mem

/-- The scan of a dictionary. -/
theorem scan_spec (rd : ℚ → ℚ) (rnd : Nat → Nat) (f : Frame F) (t b y x : Nat) (thr : ℚ) (hir : ∀ i, 0 < f.irate y x i) {s0 : Store (Word F)} (h0 : Ok s0) :
    ∀ (rem i : Nat) (sum : ℚ) (lw : Option ℚ) (s : Store (Word F)) (k : Nat), b + (i + rem) ≤ s0.slots → (∀ l, l < i + rem → s0.dict (b + l) ≠ none) →
      sum = runSum rd f t y x (wordsOf s0 b) i → (∀ l < i, runSum rd f t y x (wordsOf s0 b) l < thr) →
      Sifted (Seen rd rnd f t y x) (fun a => weight rd t f.off (s0.mem a)) b s0 s i lw →
      ∃ s' sum' k' j lw', scan rd rnd f t b y x thr rem i sum lw s k = some (s', sum', k') ∧ j ≤ i + rem ∧
        sum' = runSum rd f t y x (wordsOf s0 b) j ∧ (∀ l < j, runSum rd f t y x (wordsOf s0 b) l < thr) ∧ (j < i + rem → thr ≤ sum') ∧
        Sifted (fun l w w' => if l < j then Seen rd rnd f t y x l w w' else w' = w) (fun a => weight rd t f.off (s0.mem a)) b s0 s' (i + rem) lw'
  | 0, i, sum, lw, s, k, hb, hf, hs, hlt, h => by
    refine ⟨s, sum, k, i, lw, rfl, le_rfl, hs, hlt, fun hc => absurd hc (by omega), h.mono ?_⟩
    intro l hl w w' hw
    rw [if_pos hl]; exact hw
  | rem + 1, i, sum, lw, s, k, hb, hf, hs, hlt, h => by
    unfold scan
    by_cases hthr : sum < thr
    · rw [if_pos hthr]
      obtain ⟨a, ha⟩ := Option.ne_none_iff_exists'.1 (hf i (by omega))
      obtain ⟨hm, hst⟩ := h.step h0 (by omega) ha
      have had : s.addr (b + i) = some a := h.ok.addr (by rw [h.slots]; omega) ((h.out _ (Or.inr le_rfl)).trans ha)
      rw [had]
      dsimp only
      rw [hm]
      have hil : ∃ il k1, illumNow rnd f y x i (s0.mem a) k = some (il, k1) ∧ (il = true → f.illum y x (s0.mem a).feat = true ∧ ∃ k, rnd k % f.irate y x i = 0) := by
        unfold illumNow
        split_ifs with g1 g2
        · exact absurd g2 (by have := hir i; omega)
        · exact ⟨_, _, rfl, fun hc => ⟨g1, k, of_decide_eq_true hc⟩⟩
        · exact ⟨_, _, rfl, fun hc => absurd hc (by simp)⟩
      obtain ⟨il, k1, e1, hil⟩ := hil
      rw [e1]
      dsimp only
      have hword : wordsOf s0 b i = some (s0.mem a) := by
        unfold wordsOf
        rw [h0.addr (by omega) ha]; rfl
      have hrun : (if f.near y x (s0.mem a).feat = true then rd (sum + weight rd t f.off (s0.mem a)) else sum) = runSum rd f t y x (wordsOf s0 b) (i + 1) := by
        show _ = match wordsOf s0 b i with
          | some w => if f.near y x w.feat then rd (runSum rd f t y x (wordsOf s0 b) i + weight rd t f.off w) else runSum rd f t y x (wordsOf s0 b) i
          | none => runSum rd f t y x (wordsOf s0 b) i
        rw [hword, hs]
      obtain ⟨s', sum', k', j, lw', e2, c1, c2, c3, c4, c5⟩ := scan_spec rd rnd f t b y x thr hir h0 rem (i + 1) _ _ _ k1 (by omega)
        (fun l hl => hf l (by omega)) hrun (by
          intro l hl
          by_cases e : l = i
          · rw [e, ← hs]; exact hthr
          · exact hlt l (by omega)) (hst (scanned rd f t y x il (s0.mem a)) ⟨il, hil, rfl⟩)
      rw [show i + 1 + rem = i + (rem + 1) by omega] at c1 c4 c5
      exact ⟨s', sum', k', j, lw', e2, c1, c2, c3, c4, c5⟩
    · rw [if_neg hthr]
      obtain ⟨s', lw', e, h2⟩ := scanTail_spec (R := fun l w w' => if l < i then Seen rd rnd f t y x l w w' else w' = w) (wt := weight rd t f.off) h0 (rem + 1) i lw s
        hb (fun l _ hl => hf l hl) (fun l hl w => by rw [if_neg (by omega)]) (h.mono (by intro l hl w w' hw; rw [if_pos hl]; exact hw))
      rw [e]
      exact ⟨s', sum, k, i, lw', rfl, by omega, hs, hlt, fun _ => not_lt.1 hthr, h2⟩

/-! ## Local dictionaries between pixels -/

/-- All local dictionaries are full. -/
structure LFull (np n : Nat) (s : Store W) : Prop where
  ok : Ok s
  slots : s.slots = np * n
  full : ∀ p < np, ∀ i < n, s.dict (p * n + i) ≠ none

theorem LFull.addr {np n : Nat} {s : Store W} (h : LFull np n s) {p i : Nat} (hp : p < np) (hi : i < n) :
    ∃ a, s.addr (p * n + i) = some a ∧ s.dict (p * n + i) = some a := by
  obtain ⟨a, ha⟩ := Option.ne_none_iff_exists'.1 (h.full p hp i hi)
  refine ⟨a, h.ok.addr ?_ ha, ha⟩
  rw [h.slots]
  have := blk_le (n := n) hp
  omega

theorem LFull.lt {np n : Nat} {s : Store W} (h : LFull np n s) {p i : Nat} (hp : p < np) (hi : i < n) : p * n + i < s.slots := by
  rw [h.slots]
  have := blk_le (n := n) hp
  omega

/-- A change of the words of block `p` only, which stays full. -/
structure Touch (np n p : Nat) (s s' : Store W) : Prop where
  full : LFull np n s'
  only : Only n (p * n) s s'

theorem Touch.refl {np n p : Nat} {s : Store W} (h : LFull np n s) : Touch np n p s s := ⟨h, Only.refl⟩

theorem Touch.trans {np n p : Nat} {s s' s'' : Store W} (h : Touch np n p s s') (h' : Touch np n p s' s'') : Touch np n p s s'' :=
  ⟨h'.full, h.only.trans h'.only⟩

/-- Words of the other blocks. -/
theorem Touch.other {np n p : Nat} {s s' : Store W} (hs : LFull np n s) (h : Touch np n p s s') {q i : Nat} (hq : q < np) (hi : i < n) (hqp : q ≠ p) :
    s'.dict (q * n + i) = s.dict (q * n + i) ∧ ∀ a, s.dict (q * n + i) = some a → s'.mem a = s.mem a :=
  ⟨h.only.dict _ (blk_out hqp i hi), fun a ha => h.only.mem _ (hs.lt hq hi) (blk_out hqp i hi) a ha⟩

theorem Touch.blk {np n p : Nat} {s s' : Store W} (hs : LFull np n s) (h : Touch np n p s s') {P : W → Prop} {q : Nat} (hq : q < np) (hqp : q ≠ p)
    (hP : Blk P n (q * n) s) : Blk P n (q * n) s' := by
  intro l hl a ha
  obtain ⟨h1, h2⟩ := h.other hs hq hl hqp
  rw [h1] at ha
  rw [h2 a ha]
  exact hP l hl a ha

/-- Writing a word of block `p`. -/
theorem Touch.put {np n p : Nat} {s : Store W} (h : LFull np n s) {i a : Nat} (hp : p < np) (hi : i < n) (ha : s.dict (p * n + i) = some a) (w : W) :
    Touch np n p s (s.put a w) := by
  refine ⟨⟨h.ok.put a w, h.slots, h.full⟩, ⟨rfl, rfl, fun _ _ => rfl, ?_⟩⟩
  intro l hl ho d hd
  refine if_neg ?_
  rintro rfl
  have := h.ok.inj l (p * n + i) d hl (h.lt hp hi) hd ha
  omega

theorem Sifted.touch {np n p : Nat} {R : Nat → W → W → Prop} {wt : Nat → ℚ} {s0 s : Store W} {lw : Option ℚ} (h0 : LFull np n s0) (hp : p < np)
    (h : Sifted R wt (p * n) s0 s n lw) : Touch np n p s0 s := by
  refine ⟨⟨h.ok, h.slots.trans h0.slots, ?_⟩, ⟨h.slots, h.cap, h.out, ?_⟩⟩
  · intro q hq i hi
    by_cases e : q = p
    · rw [e]; exact h.full i hi
    · rw [h.out _ (blk_out e i hi)]
      exact h0.full q hq i hi
  · intro l hl ho a ha
    refine h.memo a ?_
    intro m hm hd
    have := h0.ok.inj l (p * n + m) a hl (h0.lt hp hm) ha hd
    omega

theorem Sifted.blk {n b : Nat} {R : Nat → W → W → Prop} {wt : Nat → ℚ} {s0 s : Store W} {lw : Option ℚ} (h : Sifted R wt b s0 s n lw) {P : W → Prop}
    (hP : Blk P n b s0) (hR : ∀ l < n, ∀ w w', R l w w' → P w → P w') : Blk P n b s := by
  intro l hl a ha
  obtain ⟨m, hm, hd⟩ := (h.perm a).1 ⟨l, hl, ha⟩
  exact hR m hm _ _ (h.memr m hm a hd) (hP m hm a hd)

/-! ## Global words -/

theorem GFull.put {ng : Nat} {g : Store (GWord F)} (h : GFull ng g) (a : Nat) {w : GWord F} (hw : w.map.isSome = true) : GFull ng (g.put a w) := by
  refine ⟨h.ok.put a w, h.slots, h.full, ?_⟩
  intro d hd
  show (if d = a then w else g.mem d).map.isSome = true
  split_ifs
  · exact hw
  · exact h.maps d hd

theorem gSearch_spec {near : GWord F → Bool} {ng : Nat} {g : Store (GWord F)} (h : GFull ng g) {l : Nat → Nat} (hl : RankOk ng l) : ∀ (rem j : Nat), j + rem = ng →
    (gSearch near g l rem j = some none ∧ ∀ m, j ≤ m → m < ng → near (g.mem (l m)) = false) ∨
    ∃ m, gSearch near g l rem j = some (some (l m)) ∧ j ≤ m ∧ m < ng ∧ near (g.mem (l m)) = true ∧ ∀ m', j ≤ m' → m' < m → near (g.mem (l m')) = false
  | 0, j, hj => Or.inl ⟨rfl, fun m h1 h2 => absurd h1 (by omega)⟩
  | rem + 1, j, hj => by
    unfold gSearch
    rw [h.cap, if_pos (hl.range j (by omega))]
    by_cases hn : near (g.mem (l j)) = true
    · rw [if_pos hn]
      exact Or.inr ⟨j, rfl, le_rfl, by omega, hn, fun m' h1 h2 => absurd h1 (by omega)⟩
    · rw [if_neg hn]
      rcases gSearch_spec (near := near) h hl rem (j + 1) (by omega) with ⟨e, k⟩ | ⟨m, e, k1, k2, k3, k4⟩
      · refine Or.inl ⟨e, ?_⟩
        intro m h1 h2
        by_cases em : m = j
        · rw [em]; simpa using hn
        · exact k m (by omega) h2
      · refine Or.inr ⟨m, e, by omega, k2, k3, ?_⟩
        intro m' h1 h2
        by_cases em : m' = j
        · rw [em]; simpa using hn
        · exact k4 m' (by omega) h2

theorem gUpdate_spec (rd : ℚ → ℚ) {c : Cfg} {ng : Nat} {px : List (Nat × Nat)} (S : Setup c ng px) (rnd : Nat → Nat) (f : Frame F) (hf : Callable f)
    {p y x : Nat} (hi : Inner c.b c.h c.w (y, x)) (sum : ℚ) (m : Mdl F) (hg : GFull ng m.glo) (hr : RankOk ng (m.ranks p)) :
    ∃ m', gUpdate rd c rnd ng f p y x sum m = some m' ∧ m'.loc = m.loc ∧ m'.ranks = m.ranks ∧ GFull ng m'.glo := by
  obtain ⟨h1, h2, h3, -⟩ := hf y x
  have hlk := lookup_lt S hi
  unfold gUpdate
  rw [if_neg (by omega)]
  split_ifs with g1 g2 g3
  · rcases gSearch_spec (near := f.gnear y x) hg hr ng 0 (by omega) with ⟨e, -⟩ | ⟨j, e, -, hj, -⟩
    · rw [e]
      exact absurd g2 (by omega)
    · rw [e]
      dsimp only
      obtain ⟨w, w1, w2, -⟩ := bump_spec rd hlk sum (m.glo.mem (m.ranks p j)) (hg.maps _ (hr.range j hj))
      rw [w1]
      exact ⟨_, rfl, rfl, rfl, hg.put _ w2⟩
  · rcases gSearch_spec (near := f.gnear y x) hg hr ng 0 (by omega) with ⟨e, -⟩ | ⟨j, e, -, hj, -⟩
    · rw [e]
      dsimp only
      obtain ⟨a, a1, a2, a3⟩ := hg.addr (j := ng - 1) (by have := S.globals; omega)
      rw [a1]
      dsimp only
      obtain ⟨w, w1, w2, -⟩ := bump_spec rd hlk sum (⟨0, (m.glo.mem a).map.map fun _ _ => 0, f.gnew y x, f.cur y x⟩ : GWord F) (by
        have := hg.maps a a3
        simpa using this)
      rw [w1]
      exact ⟨_, rfl, rfl, rfl, hg.put _ w2⟩
    · rw [e]
      dsimp only
      obtain ⟨w, w1, w2, -⟩ := bump_spec rd hlk sum (m.glo.mem (m.ranks p j)) (hg.maps _ (hr.range j hj))
      rw [w1]
      exact ⟨_, rfl, rfl, rfl, hg.put _ w2⟩
  · rcases gSearch_spec (near := f.gnear y x) hg hr ng 0 (by omega) with ⟨e, -⟩ | ⟨j, e, -, hj, -⟩
    · rw [e]
      exact ⟨_, rfl, rfl, rfl, hg⟩
    · rw [e]
      dsimp only
      obtain ⟨w, w1, w2, -⟩ := bump_spec rd hlk sum (m.glo.mem (m.ranks p j)) (hg.maps _ (hr.range j hj))
      rw [w1]
      exact ⟨_, rfl, rfl, rfl, hg.put _ w2⟩
  · exact ⟨_, rfl, rfl, rfl, hg⟩

/-- The label with the help of the global words. -/
theorem gLabel_spec (rd : ℚ → ℚ) {c : Cfg} {ng : Nat} {px : List (Nat × Nat)} (S : Setup c ng px) (rnd : Nat → Nat) (f : Frame F) (hf : Callable f)
    {p y x : Nat} (hi : Inner c.b c.h c.w (y, x)) (thr sum : ℚ) (m : Mdl F) (hg : GFull ng m.glo) (hr : RankOk ng (m.ranks p)) :
    ∃ fg k, gLabel rd c rnd ng f p y x thr sum m = some (fg, k) ∧
      (fg = false ↔ (f.flat y x = true ∨ rnd m.k % f.rate y x = 0) ∧ ∃ j < ng, f.gnear y x (m.glo.mem (m.ranks p j)) = true ∧
        (∀ j' < j, f.gnear y x (m.glo.mem (m.ranks p j')) = false) ∧
        ∃ v, (m.glo.mem (m.ranks p j)).map = some v ∧ thr ≤ rd (sum + rd (v (lookup c y x) / (if f.flat y x then 2 else 4)))) := by
  obtain ⟨h1, h2, h3, -⟩ := hf y x
  have hlk := lookup_lt S hi
  unfold gLabel
  rw [if_neg (by omega)]
  by_cases g1 : f.flat y x = true ∨ rnd m.k % f.rate y x = 0
  · rw [if_pos g1]
    rcases gSearch_spec (near := f.gnear y x) hg hr ng 0 (by omega) with ⟨e, k⟩ | ⟨j, e, -, hj, k1, k2⟩
    · rw [e]
      refine ⟨_, _, rfl, ?_⟩
      constructor
      · intro hc; exact absurd hc (by simp)
      · rintro ⟨-, j, hj, hn, -⟩
        rw [k j (by omega) hj] at hn
        exact absurd hn (by simp)
    · rw [e]
      dsimp only
      obtain ⟨v, hv⟩ := Option.isSome_iff_exists.1 (hg.maps _ (hr.range j hj))
      have hmap : mapAt c (m.glo.mem (m.ranks p j)).map (lookup c y x) = some (v (lookup c y x)) := by
        rw [hv]; exact if_pos hlk
      rw [hmap]
      refine ⟨_, _, rfl, ?_⟩
      rw [decide_eq_false_iff_not, not_lt]
      constructor
      · intro hc
        exact ⟨g1, j, hj, k1, fun j' hj' => k2 j' (by omega) hj', v, hv, hc⟩
      · rintro ⟨-, j', hj', n1, n2, v', hv', hc⟩
        have : j' = j := by
          rcases Nat.lt_trichotomy j' j with g | g | g
          · rw [k2 j' (by omega) g] at n1; exact absurd n1 (by simp)
          · exact g
          · rw [n2 j g] at k1; exact absurd k1 (by simp)
        subst this
        rw [hv] at hv'
        rw [Option.some.inj hv']
        exact hc
  · rw [if_neg g1]
    refine ⟨_, _, rfl, ?_⟩
    constructor
    · intro hc; exact absurd hc (by simp)
    · rintro ⟨hc, -⟩; exact absurd hc g1

/-! ## The rest of a pixel -/

theorem renew_spec (rd : ℚ → ℚ) {np n p : Nat} (f : Frame F) (t y x : Nat) (sum : ℚ) {s : Store (Word F)} (h : LFull np n s) (hp : p < np) (hn : 0 < n) :
    ∃ s' a, renew rd f t n (p * n) y x sum s = some s' ∧ Touch np n p s s' ∧ s.dict (p * n + (n - 1)) = some a ∧ s'.dict = s.dict ∧
      s'.mem = fun d => if d = a ∧ sum < initWeight rd f then newWord f t y x else s.mem d := by
  obtain ⟨a, ha, hd⟩ := h.addr hp (show n - 1 < n by omega)
  unfold renew
  by_cases hs : sum < initWeight rd f
  · rw [if_pos hs, ha]
    refine ⟨_, a, rfl, Touch.put h hp (by omega) hd _, hd, rfl, ?_⟩
    funext d
    show (if d = a then _ else _) = _
    by_cases e : d = a
    · rw [if_pos e, if_pos ⟨e, hs⟩]
    · rw [if_neg e, if_neg (fun hc => e hc.1)]
  · rw [if_neg hs]
    refine ⟨s, a, rfl, Touch.refl h, hd, rfl, ?_⟩
    funext d
    rw [if_neg (fun hc => hs hc.2)]

/-- What happens to a word of the neighbour that matches. -/
def Shared (rd : ℚ → ℚ) (f : Frame F) (t y x : Nat) (q : Nat × Nat) (w w' : Word F) : Prop :=
  ∃ g, ((f.nnear y x w.feat = true ∧ g = w.feat) ∨ (f.nnear y x w.feat = false ∧ f.nupd y x q w.feat = some g)) ∧
    w' = if f.byRef then reinforced rd f t y x g w else w

theorem gain_congr (rd : ℚ → ℚ) (t off : Nat) (words : Nat → Option (Word F)) {hit hit' : Nat → Bool} : ∀ i, (∀ l < i, hit l = hit' l) →
    gain rd t off words hit i = gain rd t off words hit' i
  | 0, _ => rfl
  | i + 1, h => by
    unfold gain
    rw [gain_congr rd t off words i (fun l hl => h l (by omega)), h i (by omega)]

/-- The loop over the words of a neighbour. -/
theorem neighbours_spec (rd : ℚ → ℚ) (rnd : Nat → Nat) (f : Frame F) (t y x : Nat) (q : Nat × Nat) (qfg : Bool) (thr : ℚ) (hf : Callable f)
    {np n p : Nat} (hp : p < np) {s0 : Store (Word F)} (h0 : LFull np n s0) : ∀ (rem i : Nat) (hit : Nat → Bool) (s : Store (Word F)) (k : Nat), i + rem = n →
      LFull np n s → s.dict = s0.dict → (∀ l < i, gain rd t f.off (wordsOf s0 (p * n)) hit l < thr) →
      (∀ d, (∀ l < i, s0.dict (p * n + l) ≠ some d) → s.mem d = s0.mem d) →
      (∀ l < i, ∀ d, s0.dict (p * n + l) = some d → if hit l then Shared rd f t y x q (s0.mem d) (s.mem d) ∧ (f.nnear y x (s0.mem d).feat = false → qfg = false ∧ f.flat y x = true)
        else f.nnear y x (s0.mem d).feat = false ∧ s.mem d = s0.mem d) →
      ∃ s' hit' j k', neighbours rd rnd f t (p * n) y x q qfg thr rem i (gain rd t f.off (wordsOf s0 (p * n)) hit i) s k =
          some (s', gain rd t f.off (wordsOf s0 (p * n)) hit' j, k') ∧ j ≤ n ∧ (∀ l < j, gain rd t f.off (wordsOf s0 (p * n)) hit' l < thr) ∧
        (j < n → thr ≤ gain rd t f.off (wordsOf s0 (p * n)) hit' j) ∧ LFull np n s' ∧ s'.dict = s0.dict ∧ 
        (∀ d, (∀ l < j, s0.dict (p * n + l) ≠ some d) → s'.mem d = s0.mem d) ∧
        (∀ l < j, ∀ d, s0.dict (p * n + l) = some d → if hit' l then Shared rd f t y x q (s0.mem d) (s'.mem d) ∧ (f.nnear y x (s0.mem d).feat = false → qfg = false ∧ f.flat y x = true)
          else f.nnear y x (s0.mem d).feat = false ∧ s'.mem d = s0.mem d)
  | 0, i, hit, s, k, hin, h, hd, hlt, hmo, hmr => ⟨s, hit, i, k, rfl, by omega, hlt, fun hc => absurd hc (by omega), h, hd, hmo, hmr⟩
  | rem + 1, i, hit, s, k, hin, h, hd, hlt, hmo, hmr => by
    obtain ⟨r1, r2, r3, -⟩ := hf y x
    unfold neighbours
    by_cases hthr : gain rd t f.off (wordsOf s0 (p * n)) hit i < thr
    swap
    · rw [if_neg hthr]
      exact ⟨s, hit, i, k, rfl, by omega, hlt, fun _ => not_lt.1 hthr, h, hd, hmo, hmr⟩
    rw [if_pos hthr]
    obtain ⟨a, ha, hda⟩ := h0.addr hp (show i < n by omega)
    have hda' : s.dict (p * n + i) = some a := by rw [hd]; exact hda
    have had : s.addr (p * n + i) = some a := h.ok.addr (h.lt hp (by omega)) hda'
    have hnew : ∀ l < i, s0.dict (p * n + l) ≠ some a := by
      intro l hl hc
      have := h0.ok.inj _ _ a (h0.lt hp (show l < n by omega)) (h0.lt hp (show i < n by omega)) hc hda
      omega
    have hma : s.mem a = s0.mem a := hmo a hnew
    have hword : wordsOf s0 (p * n) i = some (s0.mem a) := by unfold wordsOf; rw [ha]; rfl
    rw [had]
    dsimp only
    rw [hma]
    -- the two kinds of continuation
    have cont : ∀ (v : Bool) (s1 : Store (Word F)) (k1 : Nat), LFull np n s1 → s1.dict = s0.dict → (∀ d, d ≠ a → s1.mem d = s.mem d) →
        (if v then Shared rd f t y x q (s0.mem a) (s1.mem a) ∧ (f.nnear y x (s0.mem a).feat = false → qfg = false ∧ f.flat y x = true)
          else f.nnear y x (s0.mem a).feat = false ∧ s1.mem a = s0.mem a) →
        ∃ s' hit' j k', neighbours rd rnd f t (p * n) y x q qfg thr rem (i + 1)
            (if v then rd (gain rd t f.off (wordsOf s0 (p * n)) hit i + weight rd t f.off (s0.mem a)) else gain rd t f.off (wordsOf s0 (p * n)) hit i) s1 k1 =
            some (s', gain rd t f.off (wordsOf s0 (p * n)) hit' j, k') ∧ j ≤ n ∧ (∀ l < j, gain rd t f.off (wordsOf s0 (p * n)) hit' l < thr) ∧
          (j < n → thr ≤ gain rd t f.off (wordsOf s0 (p * n)) hit' j) ∧ LFull np n s' ∧ s'.dict = s0.dict ∧ 
          (∀ d, (∀ l < j, s0.dict (p * n + l) ≠ some d) → s'.mem d = s0.mem d) ∧
          (∀ l < j, ∀ d, s0.dict (p * n + l) = some d → if hit' l then Shared rd f t y x q (s0.mem d) (s'.mem d) ∧ (f.nnear y x (s0.mem d).feat = false → qfg = false ∧ f.flat y x = true)
            else f.nnear y x (s0.mem d).feat = false ∧ s'.mem d = s0.mem d) := by
      intro v s1 k1 c1 c2 c3 c4
      let hit1 : Nat → Bool := fun l => if l = i then v else hit l
      have hold : ∀ l ≤ i, gain rd t f.off (wordsOf s0 (p * n)) hit1 l = gain rd t f.off (wordsOf s0 (p * n)) hit l := by
        intro l hl
        refine gain_congr rd t f.off _ l ?_
        intro l' hl'
        exact if_neg (by omega)
      have hg : (if v then rd (gain rd t f.off (wordsOf s0 (p * n)) hit i + weight rd t f.off (s0.mem a)) else gain rd t f.off (wordsOf s0 (p * n)) hit i) =
          gain rd t f.off (wordsOf s0 (p * n)) hit1 (i + 1) := by
        conv_rhs => unfold gain
        rw [hword, hold i le_rfl]
        dsimp only
        rw [show hit1 i = v from if_pos rfl]
        rfl
      rw [hg]
      refine neighbours_spec rd rnd f t y x q qfg thr hf hp h0 rem (i + 1) hit1 s1 k1 (by omega) c1 c2 ?_ ?_ ?_
      · intro l hl
        rw [hold l (by omega)]
        by_cases e : l = i
        · rw [e]; exact hthr
        · exact hlt l (by omega)
      · intro d hd'
        have hne : d ≠ a := by rintro rfl; exact hd' i (by omega) hda
        rw [c3 d hne]
        exact hmo d fun l hl => hd' l (by omega)
      · intro l hl d hd'
        by_cases e : l = i
        · subst e
          rw [hda] at hd'
          have := Option.some.inj hd'
          subst this
          rw [show hit1 l = v from if_pos rfl]
          exact c4
        · rw [show hit1 l = hit l from if_neg e]
          have hne : d ≠ a := by rintro rfl; exact hnew l (by omega) hd'
          rw [c3 d hne]
          exact hmr l (by omega) d hd'
    have hupd : ∀ g, LFull np n (if f.byRef then s.put a (reinforced rd f t y x g (s0.mem a)) else s) ∧
        (if f.byRef then s.put a (reinforced rd f t y x g (s0.mem a)) else s).dict = s0.dict ∧
        (∀ d, d ≠ a → (if f.byRef then s.put a (reinforced rd f t y x g (s0.mem a)) else s).mem d = s.mem d) ∧
        (if f.byRef then s.put a (reinforced rd f t y x g (s0.mem a)) else s).mem a = if f.byRef then reinforced rd f t y x g (s0.mem a) else s0.mem a := by
      intro g
      split_ifs
      · exact ⟨(Touch.put h hp (show i < n by omega) hda' _).full, hd, fun d hne => if_neg hne, if_pos rfl⟩
      · exact ⟨h, hd, fun _ _ => rfl, hma⟩
    by_cases hnn : f.nnear y x (s0.mem a).feat = true
    · rw [if_pos hnn]
      obtain ⟨u1, u2, u3, u4⟩ := hupd (s0.mem a).feat
      have := cont true _ k u1 u2 u3 ⟨⟨(s0.mem a).feat, Or.inl ⟨hnn, rfl⟩, u4⟩, fun hc => absurd hc (by rw [hnn]; simp)⟩
      exact this
    have hnn' : f.nnear y x (s0.mem a).feat = false := by simpa using hnn
    have skip : ∀ k1, _ := fun k1 => cont false s k1 h hd (fun _ _ => rfl) ⟨hnn', hma⟩
    rw [if_neg hnn]
    by_cases hq : qfg = false ∧ f.flat y x = true
    · rw [if_pos hq, if_neg (by omega)]
      by_cases hr : f.boot = true ∨ rnd k % f.rate y x = 0
      · rw [if_pos hr]
        cases hg : f.nupd y x q (s0.mem a).feat with
        | none => dsimp only; exact skip _
        | some g =>
          dsimp only
          obtain ⟨u1, u2, u3, u4⟩ := hupd g
          exact cont true _ _ u1 u2 u3 ⟨⟨g, Or.inr ⟨hnn', hg⟩, u4⟩, fun _ => hq⟩
      · rw [if_neg hr]
        exact skip _
    · rw [if_neg hq]
      exact skip _

theorem idxOf_get {px : List (Nat × Nat)} {q : Nat × Nat} {p : Nat} (h : px.idxOf? q = some p) : px[p]? = some q ∧ p < px.length := by
  unfold List.idxOf? at h
  rw [List.findIdx?_eq_some_iff_getElem] at h
  obtain ⟨h1, h2, -⟩ := h
  have : px[p] = q := by simpa using h2
  exact ⟨by rw [List.getElem?_eq_getElem h1, this], h1⟩

theorem pick_spec {c : Cfg} {ng : Nat} {px : List (Nat × Nat)} (S : Setup c ng px) (rnd : Nat → Nat) (f : Frame F) {y x : Nat} (hi : Inner c.b c.h c.w (y, x)) (k : Nat) :
    ∃ q o, pick c px rnd f y x k = some (q, o) ∧ Inner c.b c.h c.w q ∧ Near (if f.flat y x || f.border y x || f.moving then 2 else 1) (y, x) q ∧
      o = px.idxOf? q := by
  unfold pick
  by_cases h5 : (f.flat y x || f.border y x || f.moving) = true
  · rw [if_pos h5, if_pos h5]
    obtain ⟨p, q, e1, e2, e3, e4⟩ := SubSense.neighbour5_spec c S.rows S.cols (rnd k) y x hi
    rw [e1]
    dsimp only
    rw [e2]
    exact ⟨q, _, rfl, e3, e4, rfl⟩
  · rw [if_neg h5, if_neg h5]
    obtain ⟨p, q, e1, e2, e3, e4⟩ := neighbour_spec c S.rows S.cols (rnd k) y x hi
    rw [e1]
    dsimp only
    rw [e2]
    exact ⟨q, _, rfl, e3, e4, rfl⟩

/-- What the update of a neighbour with model index `p` does to the words. -/
structure Spread (rd : ℚ → ℚ) (f : Frame F) (t y x n p : Nat) (q : Nat × Nat) (qfg : Bool) (thr : ℚ) (s s' : Store (Word F)) (hit : Nat → Bool) (j : Nat) : Prop where
  upto : j ≤ n
  before : ∀ l < j, gain rd t f.off (wordsOf s (p * n)) hit l < thr
  stop : j < n → thr ≤ gain rd t f.off (wordsOf s (p * n)) hit j
  dict : s'.dict = s.dict
  sum : ∀ l < n, ∀ d, s.dict (p * n + l) = some d →
    (l = n - 1 ∧ gain rd t f.off (wordsOf s (p * n)) hit j < initWeight rd f → s'.mem d = newWord f t y x) ∧
    (¬(l = n - 1 ∧ gain rd t f.off (wordsOf s (p * n)) hit j < initWeight rd f) →
      (j ≤ l → s'.mem d = s.mem d) ∧ (l < j → hit l = true → Shared rd f t y x q (s.mem d) (s'.mem d)) ∧ (l < j → hit l = false → s'.mem d = s.mem d))
  hits : ∀ l < j, ∀ d, s.dict (p * n + l) = some d →
    (f.nnear y x (s.mem d).feat = true → hit l = true) ∧ (hit l = true → f.nnear y x (s.mem d).feat = false → qfg = false ∧ f.flat y x = true ∧ (f.nupd y x q (s.mem d).feat).isSome = true)

/-- The update of a neighbour. -/
theorem spread_spec (rd : ℚ → ℚ) {c : Cfg} {ng : Nat} {px : List (Nat × Nat)} (S : Setup c ng px) (rnd : Nat → Nat) (f : Frame F) (hf : Callable f) (t : Nat)
    {y x : Nat} (hi : Inner c.b c.h c.w (y, x)) (thr : ℚ) (fg : Bool) (l : Loop F) (h : LFull px.length c.n l.m.loc) :
    ∃ l', spread rd c px rnd f t y x thr fg l = some l' ∧ l'.mask = l.mask ∧ l'.m.glo = l.m.glo ∧ l'.m.ranks = l.m.ranks ∧
      (l'.m.loc = l.m.loc ∨ ∃ q p hit j, px[p]? = some q ∧ Near (if f.flat y x || f.border y x || f.moving then 2 else 1) (y, x) q ∧
        ((fg = false ∧ rnd l.m.k % f.rate y x = 0) ∨ f.border y x = true ∨ f.moving = true) ∧ Touch px.length c.n p l.m.loc l'.m.loc ∧
        Spread rd f t y x c.n p q (l.mask q.1 q.2) thr l.m.loc l'.m.loc hit j) := by
  obtain ⟨r1, r2, r3, -⟩ := hf y x
  unfold spread
  rw [if_neg (by omega)]
  dsimp only
  by_cases hc : (fg = false ∧ rnd l.m.k % f.rate y x = 0) ∨ f.border y x = true ∨ f.moving = true
  swap
  · rw [if_neg hc]
    exact ⟨_, rfl, rfl, rfl, rfl, Or.inl rfl⟩
  rw [if_pos hc]
  obtain ⟨q, o, e1, hq, hn, ho⟩ := pick_spec S rnd f hi (if fg = true then l.m.k else l.m.k + 1)
  rw [e1]
  cases o with
  | none => exact ⟨_, rfl, rfl, rfl, rfl, Or.inl rfl⟩
  | some p =>
    dsimp only
    obtain ⟨hp, hpl⟩ := idxOf_get ho.symm
    obtain ⟨s1, hit, j, k1, e2, a1, a2, a3, a4, a5, a6, a7⟩ := neighbours_spec rd rnd f t y x q (l.mask q.1 q.2) thr hf hpl h c.n 0 (fun _ => false) l.m.loc
      ((if fg = true then l.m.k else l.m.k + 1) + 1) (by omega) h rfl (fun l hl => absurd hl (by omega)) (fun _ _ => rfl) (fun l hl => absurd hl (by omega))
    have hg0 : gain rd t f.off (wordsOf l.m.loc (p * c.n)) (fun _ => false) 0 = 0 := rfl
    rw [hg0] at e2
    rw [e2]
    dsimp only
    obtain ⟨s2, a, e3, b1, b2, b3, b4⟩ := renew_spec rd f t y x (gain rd t f.off (wordsOf l.m.loc (p * c.n)) hit j) a4 hpl S.words
    rw [e3]
    have ht1 : Touch px.length c.n p l.m.loc s1 := by
      refine ⟨a4, ⟨a4.slots.trans h.slots.symm, ?_, fun m _ => by rw [a5], ?_⟩⟩
      · rw [← a4.ok.fits, ← h.ok.fits, a4.slots, h.slots]
      · intro m hm ho d hd
        refine a6 d ?_
        intro m' hm' hd'
        have := h.ok.inj m (p * c.n + m') d hm (h.lt hpl (show m' < c.n by omega)) hd hd'
        omega
    refine ⟨_, rfl, rfl, rfl, rfl, Or.inr ⟨q, p, hit, j, hp, hn, hc, ht1.trans b1, a1, a2, a3, b3.trans a5, ?_, ?_⟩⟩
    · intro m hm d hd
      dsimp only
      rw [b4]
      dsimp only
      have hda : d = a ↔ m = c.n - 1 := by
        rw [a5] at b2
        constructor
        · rintro rfl
          have := h.ok.inj _ _ d (h.lt hpl hm) (h.lt hpl (show c.n - 1 < c.n by omega)) hd b2
          omega
        · rintro rfl
          rw [hd] at b2
          exact Option.some.inj b2
      refine ⟨fun hh => if_pos ⟨hda.2 hh.1, hh.2⟩, ?_⟩
      intro hh
      rw [if_neg (fun hx => hh ⟨hda.1 hx.1, hx.2⟩)]
      refine ⟨?_, ?_, ?_⟩
      · intro hjm
        refine a6 d ?_
        intro m' hm' hd'
        have := h.ok.inj _ _ d (h.lt hpl hm) (h.lt hpl (show m' < c.n by omega)) hd hd'
        omega
      · intro hmj hhit
        have := a7 m hmj d hd
        rw [if_pos hhit] at this
        exact this.1
      · intro hmj hhit
        have := a7 m hmj d hd
        rw [hhit] at this
        exact this.2
    · intro m hm d hd
      have := a7 m hm d hd
      refine ⟨?_, ?_⟩
      · intro hnn
        by_contra hc'
        rw [if_neg hc', hnn] at this
        exact absurd this.1 (by simp)
      · intro hhit hnn
        rw [if_pos hhit] at this
        obtain ⟨⟨g, k, -⟩, k2⟩ := this
        obtain ⟨k3, k4⟩ := k2 hnn
        refine ⟨k3, k4, ?_⟩
        rcases k with ⟨k5, -⟩ | ⟨-, k5⟩
        · rw [hnn] at k5; exact absurd k5 (by simp)
        · rw [k5]; rfl

/-- The label that a pixel receives from the sum of the weights of its matching words and from the global words. -/
def LabelBG (rd : ℚ → ℚ) (c : Cfg) (ng : Nat) (f : Frame F) (y x : Nat) (thr sum : ℚ) (r : Nat) (g : Store (GWord F)) (ranks : Nat → Nat) : Prop :=
  thr ≤ sum ∨ f.border y x = true ∨
    (f.flat y x = true ∨ r % f.rate y x = 0) ∧ ∃ j < ng, f.gnear y x (g.mem (ranks j)) = true ∧ (∀ j' < j, f.gnear y x (g.mem (ranks j')) = false) ∧
      ∃ v, (g.mem (ranks j)).map = some v ∧ thr ≤ rd (sum + rd (v (lookup c y x) / (if f.flat y x then 2 else 4)))

/-- The state of the model inside of the pixel loop. -/
structure Live (c : Cfg) (ng np : Nat) (m : Mdl F) : Prop where
  loc : LFull np c.n m.loc
  glo : GFull ng m.glo
  ranks : ∀ p < np, RankOk ng (m.ranks p)

/-- One pixel. -/
theorem pixel_spec (rd : ℚ → ℚ) {c : Cfg} {ng : Nat} {px : List (Nat × Nat)} (S : Setup c ng px) (rnd : Nat → Nat) (f : Frame F) (hf : Callable f) (t : Nat)
    (l : Loop F) {p y x : Nat} (hpx : px[p]? = some (y, x)) (h : Live c ng px.length l.m) :
    ∃ l' a0 s1 s2 fg j lw k1 k2, pixel rd c ng rnd px f t l (p, y, x) = some l' ∧ Live c ng px.length l'.m ∧ l'.m.ranks = l.m.ranks ∧
      l.m.loc.dict (p * c.n) = some a0 ∧ j ≤ c.n ∧
      (∀ i < j, runSum rd f t y x (wordsOf l.m.loc (p * c.n)) i < threshold rd f t y x (l.m.loc.mem a0)) ∧
      (j < c.n → threshold rd f t y x (l.m.loc.mem a0) ≤ runSum rd f t y x (wordsOf l.m.loc (p * c.n)) j) ∧
      Sifted (fun i w w' => if i < j then Seen rd rnd f t y x i w w' else w' = w) (fun a => weight rd t f.off (l.m.loc.mem a)) (p * c.n) l.m.loc s1 c.n lw ∧
      (fg = false ↔ LabelBG rd c ng f y x (threshold rd f t y x (l.m.loc.mem a0)) (runSum rd f t y x (wordsOf l.m.loc (p * c.n)) j) (rnd k1) l.m.glo (l.m.ranks p)) ∧
      l'.mask = setFG l.mask y x fg ∧
      Touch px.length c.n p s1 s2 ∧ s2.dict = s1.dict ∧
      (∀ i < c.n, ∀ d, s1.dict (p * c.n + i) = some d → s2.mem d =
        if i = c.n - 1 ∧ runSum rd f t y x (wordsOf l.m.loc (p * c.n)) j < threshold rd f t y x (l.m.loc.mem a0) ∧ f.border y x = false ∧
            runSum rd f t y x (wordsOf l.m.loc (p * c.n)) j < initWeight rd f then newWord f t y x else s1.mem d) ∧
      (l'.m.loc = s2 ∨ ∃ q p' hit j', px[p']? = some q ∧ Near (if f.flat y x || f.border y x || f.moving then 2 else 1) (y, x) q ∧
        ((fg = false ∧ rnd k2 % f.rate y x = 0) ∨ f.border y x = true ∨ f.moving = true) ∧ Touch px.length c.n p' s2 l'.m.loc ∧
        Spread rd f t y x c.n p' q (setFG l.mask y x fg q.1 q.2) (threshold rd f t y x (l.m.loc.mem a0)) s2 l'.m.loc hit j') := by
  have hp : p < px.length := (List.getElem?_eq_some_iff.1 hpx).1
  have hi : Inner c.b c.h c.w (y, x) := S.inner _ (List.mem_of_getElem? hpx)
  obtain ⟨a0, b1, b2⟩ := h.loc.addr hp S.words
  rw [Nat.add_zero] at b1 b2
  unfold pixel
  dsimp only
  rw [b1]
  dsimp only
  generalize hthr : threshold rd f t y x (l.m.loc.mem a0) = thr
  have hb : p * c.n + (0 + c.n) ≤ l.m.loc.slots := by rw [h.loc.slots, Nat.zero_add]; exact blk_le hp
  obtain ⟨s1, sum, k, j, lw, e1, c1, c2, c3, c4, c5⟩ := scan_spec rd rnd f t (p * c.n) y x thr (fun i => (hf y x).2.2.2 i) h.loc.ok c.n 0 0 none l.m.loc l.m.k hb
    (fun i hi' => h.loc.full p hp i (by omega)) rfl (fun l hl => absurd hl (by omega)) (Sifted.start h.loc.ok)
  rw [e1]
  dsimp only
  rw [Nat.zero_add] at c1 c4 c5
  have ht1 := c5.touch h.loc hp
  unfold decideFG
  by_cases hbg : thr ≤ sum ∨ f.border y x = true
  · rw [if_pos hbg]
    obtain ⟨m', e2, d1, d2, d3⟩ := gUpdate_spec rd S rnd f hf hi sum ({ l.m with loc := s1, k := k } : Mdl F) (p := p) h.glo (h.ranks p hp)
    rw [e2]
    dsimp only at d1 d2
    obtain ⟨l', e3, f1, f2, f3, f4⟩ := spread_spec rd S rnd f hf t hi thr false ⟨m', setFG l.mask y x false⟩ (by rw [show (⟨m', setFG l.mask y x false⟩ : Loop F).m.loc = s1 from d1]; exact ht1.full)
    dsimp only at f1 f2 f3 f4
    subst hthr
    refine ⟨l', a0, s1, s1, false, j, lw, l.m.k, m'.k, e3, ⟨?_, ?_, ?_⟩, f3.trans d2, b2, c1, c3, ?_, c5, ?_, f1, Touch.refl ht1.full, rfl, ?_, ?_⟩
    · rcases f4 with g | ⟨q, p', hit, j', -, -, -, g, -⟩
      · rw [g, d1]; exact ht1.full
      · exact g.full
    · rw [f2]; exact d3
    · rw [f3, d2]; exact h.ranks
    · rw [← c2]; exact c4
    · refine ⟨fun _ => ?_, fun _ => rfl⟩
      rw [← c2]
      rcases hbg with g | g
      · exact Or.inl g
      · exact Or.inr (Or.inl g)
    · intro i _ d _
      rw [if_neg]
      rintro ⟨-, g1, g2, -⟩
      rw [← c2] at g1
      rcases hbg with g | g
      · exact absurd g1 (not_lt.2 g)
      · rw [g2] at g; exact absurd g (by simp)
    · rw [d1] at f4
      exact f4
  · rw [if_neg hbg]
    obtain ⟨fg, k2, e2, d1⟩ := gLabel_spec rd S rnd f hf hi thr sum ({ l.m with loc := s1, k := k } : Mdl F) (p := p) h.glo (h.ranks p hp)
    rw [e2]
    dsimp only at d1
    obtain ⟨s2, a, e3, g1, g2, g3, g4⟩ := renew_spec rd f t y x sum ht1.full hp S.words
    simp only [e3, Option.map_some]
    obtain ⟨l', e4, f1, f2, f3, f4⟩ := spread_spec rd S rnd f hf t hi thr fg (⟨({ l.m with loc := s2, k := k2 } : Mdl F), setFG l.mask y x fg⟩ : Loop F) g1.full
    dsimp only at f1 f2 f3 f4
    have hb1 : sum < thr := not_le.1 fun hc => hbg (Or.inl hc)
    have hb2 : f.border y x = false := by
      have : ¬ f.border y x = true := fun hc => hbg (Or.inr hc)
      simpa using this
    subst hthr
    refine ⟨l', a0, s1, s2, fg, j, lw, k, k2, e4, ⟨?_, ?_, ?_⟩, f3, b2, c1, c3, ?_, c5, ?_, f1, g1, g3, ?_, f4⟩
    · rcases f4 with g | ⟨q, p', hit, j', -, -, -, g, -⟩
      · rw [g]; exact g1.full
      · exact g.full
    · rw [f2]; exact h.glo
    · rw [f3]; exact h.ranks
    · rw [← c2]; exact c4
    · rw [← c2, d1]
      constructor
      · intro g; exact Or.inr (Or.inr g)
      · rintro (g | g | g)
        · exact absurd g (not_le.2 hb1)
        · rw [hb2] at g; exact absurd g (by simp)
        · exact g
    · intro i hi' d hd
      rw [g4]
      have hda : d = a ↔ i = c.n - 1 := by
        constructor
        · rintro rfl
          have := ht1.full.ok.inj _ _ d (ht1.full.lt hp hi') (ht1.full.lt hp (show c.n - 1 < c.n by omega)) hd g2
          omega
        · rintro rfl
          rw [hd] at g2
          exact Option.some.inj g2
      dsimp only
      rw [← c2]
      by_cases hx : d = a ∧ sum < initWeight rd f
      · rw [if_pos hx, if_pos ⟨hda.1 hx.1, hb1, hb2, hx.2⟩]
      · rw [if_neg hx, if_neg]
        rintro ⟨k1, -, -, k2⟩
        exact hx ⟨hda.2 k1, k2⟩

/-! ## Frames and histories -/

/-- A property of the words of each pixel that is kept by what a frame does to them. -/
structure FClosed (rd : ℚ → ℚ) (px : List (Nat × Nat)) (f : Frame F) (t : Nat) (P : Nat → Word F → Prop) : Prop where
  scan : ∀ rnd p y x i w w', px[p]? = some (y, x) → P p w → Seen rd rnd f t y x i w w' → P p w'
  fresh : ∀ p q y x, px[p]? = some q → (y, x) ∈ px → Near 2 (y, x) q → P p (newWord f t y x)
  share : ∀ p q y x w w', px[p]? = some q → (y, x) ∈ px → Near 2 (y, x) q → P p w → Shared rd f t y x q w w' → P p w'

theorem near_self (d : Nat) (p : Nat × Nat) : Near d p p := ⟨by omega, by omega, by omega, by omega⟩

theorem near_mono {d e : Nat} (h : d ≤ e) {p q : Nat × Nat} (hn : Near d p q) : Near e p q := by
  obtain ⟨h1, h2, h3, h4⟩ := hn
  exact ⟨by omega, by omega, by omega, by omega⟩

/-- A pixel keeps such properties. -/
theorem pixel_pred (rd : ℚ → ℚ) {c : Cfg} {ng : Nat} {px : List (Nat × Nat)} (S : Setup c ng px) (rnd : Nat → Nat) (f : Frame F) (hf : Callable f) (t : Nat)
    (l l' : Loop F) {p y x : Nat} (hpx : px[p]? = some (y, x)) (h : Live c ng px.length l.m) (e : pixel rd c ng rnd px f t l (p, y, x) = some l')
    (P : Nat → Word F → Prop) (hP : FClosed rd px f t P) (h0 : ∀ q < px.length, Blk (P q) c.n (q * c.n) l.m.loc) :
    ∀ q < px.length, Blk (P q) c.n (q * c.n) l'.m.loc := by
  have hp : p < px.length := (List.getElem?_eq_some_iff.1 hpx).1
  have hmem : (y, x) ∈ px := List.mem_of_getElem? hpx
  obtain ⟨l1, a0, s1, s2, fg, j, lw, k1, k2, e1, -, -, -, -, -, -, c5, -, -, t2, d2, m2, fin⟩ := pixel_spec rd S rnd f hf t l hpx h
  rw [e] at e1
  have := Option.some.inj e1
  subst this
  have t1 := c5.touch h.loc hp
  have h1 : ∀ q < px.length, Blk (P q) c.n (q * c.n) s1 := by
    intro q hq
    by_cases eq : q = p
    · subst eq
      refine c5.blk (h0 q hq) ?_
      intro i _ w w' hR hw
      split_ifs at hR
      · exact hP.scan rnd q y x _ w w' hpx hw hR
      · rw [hR]; exact hw
    · exact t1.blk h.loc hq eq (h0 q hq)
  have h2 : ∀ q < px.length, Blk (P q) c.n (q * c.n) s2 := by
    intro q hq
    by_cases eq : q = p
    · subst eq
      intro i hi a ha
      rw [d2] at ha
      rw [m2 i hi a ha]
      split_ifs
      · exact hP.fresh q (y, x) y x hpx hmem (near_self _ _)
      · exact h1 q hq i hi a ha
    · exact t2.blk t1.full hq eq (h1 q hq)
  rcases fin with g | ⟨q', p', hit, j', hp', hn, -, t3, sp⟩
  · rw [g]; exact h2
  · have hp'l : p' < px.length := (List.getElem?_eq_some_iff.1 hp').1
    have hn2 : Near 2 (y, x) q' := near_mono (by split_ifs <;> omega) hn
    intro q hq
    by_cases eq : q = p'
    · subst eq
      intro i hi a ha
      rw [sp.dict] at ha
      obtain ⟨k1, k2⟩ := sp.sum i hi a ha
      by_cases hc : i = c.n - 1 ∧ gain rd t f.off (wordsOf s2 (q * c.n)) hit j' < initWeight rd f
      · rw [k1 hc]
        exact hP.fresh q q' y x hp' hmem hn2
      · obtain ⟨k3, k4, k5⟩ := k2 hc
        rcases Nat.lt_or_ge i j' with g | g
        · cases hh : hit i with
          | true => exact hP.share q q' y x _ _ hp' hmem hn2 (h2 q hq i hi a ha) (k4 g hh)
          | false => rw [k5 g hh]; exact h2 q hq i hi a ha
        · rw [k3 g]; exact h2 q hq i hi a ha
    · exact t3.blk t2.full hq eq (h2 q hq)

theorem gAged_map (rd : ℚ → ℚ) (f : Frame F) (recalc upd : Bool) (g : GWord F) (h : g.map.isSome = true) : (gAged rd f recalc upd g).map.isSome = true := by
  unfold gAged
  dsimp only
  split_ifs <;> simp_all

theorem gTick_spec (rd : ℚ → ℚ) (f : Frame F) (recalc upd : Bool) {ng : Nat} {g : Store (GWord F)} (h : GFull ng g) :
    ∃ g', (List.range ng).foldlM (gTickStep rd f recalc upd) g = some g' ∧ GFull ng g' := by
  refine foldlM_inv (gTickStep rd f recalc upd) (List.range ng) (fun _ g' => GFull ng g') ?_ g h
  intro pre i post g1 hl hg
  have hi : i < ng := List.mem_range.1 (by rw [hl]; simp)
  obtain ⟨a, a1, a2, a3⟩ := hg.addr hi
  have hput : GFull ng (g1.put a (gAged rd f recalc upd (g1.mem a))) := hg.put a (gAged_map rd f recalc upd _ (hg.maps a a3))
  unfold gTickStep
  rw [a1]
  dsimp only
  by_cases h0 : i = 0
  · rw [if_pos h0]
    exact ⟨_, rfl, hput⟩
  · rw [if_neg h0]
    obtain ⟨d, d1, d2, d3⟩ := hput.addr (j := i - 1) (by omega)
    rw [d1]
    dsimp only
    split_ifs
    · refine ⟨_, rfl, hput.ok.swap (by rw [hput.slots]; exact hi) (by rw [hput.slots]; omega), hput.slots, ?_, hput.maps⟩
      intro j hj
      rw [swap_dict]
      split_ifs
      · exact hput.full _ (by omega)
      · exact hput.full _ hi
      · exact hput.full j hj
    · exact ⟨_, rfl, hput⟩

/-- The pixel loop of a frame. -/
theorem loop_spec (rd : ℚ → ℚ) {c : Cfg} {ng : Nat} {px : List (Nat × Nat)} (S : Setup c ng px) (rnd : Nat → Nat) (f : Frame F) (hf : Callable f) (t : Nat)
    (m : Mdl F) (h : Live c ng px.length m) :
    ∃ l, (indexed px).foldlM (pixel rd c ng rnd px f t) ⟨m, fun _ _ => false⟩ = some l ∧ Live c ng px.length l.m ∧
      (∀ y x, (y, x) ∉ px → l.mask y x = false) ∧
      (∀ P : Nat → Word F → Prop, FClosed rd px f t P → (∀ q < px.length, Blk (P q) c.n (q * c.n) m.loc) → ∀ q < px.length, Blk (P q) c.n (q * c.n) l.m.loc) ∧
      (∀ p y x, px[p]? = some (y, x) → ∃ l0 l1, ((indexed px).take p).foldlM (pixel rd c ng rnd px f t) ⟨m, fun _ _ => false⟩ = some l0 ∧ Live c ng px.length l0.m ∧
        pixel rd c ng rnd px f t l0 (p, y, x) = some l1 ∧ l.mask y x = l1.mask y x) := by
  obtain ⟨l, e, h1, h2, h3, h4, -⟩ := foldlM_inv (pixel rd c ng rnd px f t) (indexed px)
    (fun pre l => Live c ng px.length l.m ∧ (∀ y x, (y, x) ∉ px → l.mask y x = false) ∧
      (∀ P : Nat → Word F → Prop, FClosed rd px f t P → (∀ q < px.length, Blk (P q) c.n (q * c.n) m.loc) → ∀ q < px.length, Blk (P q) c.n (q * c.n) l.m.loc) ∧
      (∀ p y x, p < pre.length → px[p]? = some (y, x) → ∃ l0 l1, ((indexed px).take p).foldlM (pixel rd c ng rnd px f t) ⟨m, fun _ _ => false⟩ = some l0 ∧
        Live c ng px.length l0.m ∧ pixel rd c ng rnd px f t l0 (p, y, x) = some l1 ∧ l.mask y x = l1.mask y x) ∧
      pre.foldlM (pixel rd c ng rnd px f t) ⟨m, fun _ _ => false⟩ = some l)
    (by
      rintro pre ⟨p, y, x⟩ post l1 hl ⟨k1, k2, k3, k4, k5⟩
      obtain ⟨i1, i2, i3⟩ := indexed_get px hl
      dsimp only at i1 i2 i3
      obtain ⟨l2, a0, s1, s2, fg, j, lw, q1, q2, e1, b1, -, -, -, -, -, -, -, b2, -⟩ := pixel_spec rd S rnd f hf t l1 i2 k1
      have hlen : (pre ++ [(p, y, x)]).length = pre.length + 1 := by simp
      have hmask : ∀ y' x', (y', x') ≠ (y, x) → l2.mask y' x' = l1.mask y' x' := by
        intro y' x' hne
        rw [b2]
        refine if_neg ?_
        rintro ⟨rfl, rfl⟩
        exact hne rfl
      refine ⟨l2, e1, b1, ?_, ?_, ?_, ?_⟩
      · intro y' x' hn
        rw [hmask y' x' (by rintro hc; rw [hc] at hn; exact hn (List.mem_of_getElem? i2))]
        exact k2 y' x' hn
      · intro P hP h0
        exact pixel_pred rd S rnd f hf t l1 l2 i2 k1 e1 P hP (k3 P hP h0)
      · intro p' y' x' hp' hpx'
        rw [hlen] at hp'
        by_cases e : p' = p
        · subst e
          rw [i2] at hpx'
          have := Option.some.inj hpx'
          have hy : y = y' := congrArg Prod.fst this
          have hx : x = x' := congrArg Prod.snd this
          subst hy; subst hx
          refine ⟨l1, l2, ?_, k1, e1, rfl⟩
          rw [hl, i1, List.take_left]
          exact k5
        · obtain ⟨l0, l1', f1, f2, f3, f4⟩ := k4 p' y' x' (by omega) hpx'
          refine ⟨l0, l1', f1, f2, f3, ?_⟩
          rw [hmask y' x', f4]
          intro hc
          rw [hc] at hpx'
          have h3 := (List.getElem?_eq_some_iff.1 hpx').1
          have := (List.Nodup.getElem_inj_iff S.nodup (hi := h3) (hj := i3)).1 (by
            rw [(List.getElem?_eq_some_iff.1 hpx').2, (List.getElem?_eq_some_iff.1 i2).2])
          exact e this
      · rw [List.foldlM_append, k5]
        simp only [Option.bind_eq_bind, Option.bind_some, List.foldlM_cons, List.foldlM_nil]
        rw [e1]; rfl)
    (⟨m, fun _ _ => false⟩ : Loop F) ⟨h, fun _ _ _ => rfl, fun P _ h0 => h0, fun p y x hp => absurd hp (by simp), rfl⟩
  refine ⟨l, e, h1, h2, h3, ?_⟩
  intro p y x hpx
  refine h4 p y x ?_ hpx
  rw [indexed_length]
  exact (List.getElem?_eq_some_iff.1 hpx).1

/-- A frame. -/
theorem applyFrame_spec (rd : ℚ → ℚ) {c : Cfg} {ng : Nat} {px : List (Nat × Nat)} (S : Setup c ng px) (rnd : Nat → Nat) (f : Frame F) (hf : Callable f) (t : Nat)
    (m : Mdl F) (h : Live c ng px.length m) :
    ∃ l', applyFrame rd c ng rnd px f t m = some l' ∧ Live c ng px.length l'.m ∧
      (∀ y x, (y, x) ∉ px → l'.mask y x = false) ∧
      (∀ P : Nat → Word F → Prop, FClosed rd px f t P → (∀ q < px.length, Blk (P q) c.n (q * c.n) m.loc) → ∀ q < px.length, Blk (P q) c.n (q * c.n) l'.m.loc) ∧
      (∀ p y x, px[p]? = some (y, x) → ∃ l0 l1, ((indexed px).take p).foldlM (pixel rd c ng rnd px f t) ⟨m, fun _ _ => false⟩ = some l0 ∧ Live c ng px.length l0.m ∧
        pixel rd c ng rnd px f t l0 (p, y, x) = some l1 ∧ l'.mask y x = l1.mask y x) := by
  obtain ⟨l, e1, h1, h2, h3, h4⟩ := loop_spec rd S rnd f hf t m h
  unfold applyFrame
  rw [e1]
  dsimp only
  obtain ⟨g, e2, hg⟩ := gTick_spec rd f (decide (t % (gRate f * 32) = 0)) (decide (t % gRate f = 0)) h1.glo
  rw [e2]
  dsimp only
  by_cases ht : t % gRate f = 0
  · rw [if_pos ht]
    obtain ⟨r, e3, hr, -⟩ := sortRanks_spec S hg l.m.ranks h1.ranks
    rw [e3]
    exact ⟨_, rfl, ⟨h1.loc, hg, hr⟩, h2, h3, h4⟩
  · rw [if_neg ht]
    exact ⟨_, rfl, ⟨h1.loc, hg, h1.ranks⟩, h2, h3, h4⟩

theorem Good.live {c : Cfg} {ng np : Nat} {m : Mdl F} (h : Good c ng np m) : Live c ng np m := ⟨⟨h.loc, h.slots, h.full⟩, h.glo, h.ranks⟩

theorem Live.good {c : Cfg} {ng np : Nat} {m : Mdl F} (h : Live c ng np m) : Good c ng np m := ⟨h.loc.ok, h.loc.slots, h.loc.full, h.glo, h.ranks⟩

theorem setup_spec (c : Cfg) (ng : Nat) (zero : F) (np k : Nat) :
    LInv np c.n (setup c ng zero np (fun _ => none) (fun _ => none) k).loc ∧ GInv ng (setup c ng zero np (fun _ => none) (fun _ => none) k).glo ∧
      ∀ p, RankOk ng ((setup c ng zero np (fun _ => none) (fun _ => none) k).ranks p) := by
  refine ⟨⟨⟨?_, ?_, rfl⟩, rfl, ?_⟩, ⟨⟨?_, ?_, rfl⟩, rfl, ?_, ?_⟩, fun p => ⟨fun j hj => hj, fun j _ j' _ h => h⟩⟩
  · intro i j a _ _ h; exact absurd h (by simp [setup])
  · intro a
    refine ⟨fun h => absurd h (by simp [setup]), ?_⟩
    rintro ⟨j, -, h⟩; exact absurd h (by simp [setup])
  · intro p hp i j _ _ h; exact absurd rfl h
  · intro i j a _ _ h; exact absurd h (by simp [setup])
  · intro a
    refine ⟨fun h => absurd h (by simp [setup]), ?_⟩
    rintro ⟨j, -, h⟩; exact absurd h (by simp [setup])
  · intro i j _ _ h; exact absurd rfl h
  · intro l _ a h; exact absurd h (by simp [setup])

theorem Good.complete {c : Cfg} {ng : Nat} {px : List (Nat × Nat)} (S : Setup c ng px) {m : Mdl F} (h : Good c ng px.length m) : Complete c ng px.length m := by
  have hl := h.live.loc
  refine ⟨fun p hp i hi => (hl.addr hp hi).imp fun a ha => ha.1, ?_, h.loc.fits.symm.trans h.slots, ?_, fun i hi => (h.glo.addr hi).imp fun a ha => ha.1, ?_, h.glo.cap, ?_,
    fun a ha => h.glo.maps a ha, fun p hp => (h.ranks p hp).range, fun p hp => (h.ranks p hp).inj⟩
  · intro j j' a h1 h2
    obtain ⟨a1, a2, -⟩ := (addr_eq _ _ _).1 h1
    obtain ⟨b1, b2, -⟩ := (addr_eq _ _ _).1 h2
    exact h.loc.inj j j' a a1 b1 a2 b2
  · rw [← h.loc.fits]
    refine h.loc.iter_full ?_
    rw [h.slots]
    exact slots_full S.words h.full
  · intro j j' a h1 h2
    obtain ⟨a1, a2, -⟩ := (addr_eq _ _ _).1 h1
    obtain ⟨b1, b2, -⟩ := (addr_eq _ _ _).1 h2
    exact h.glo.ok.inj j j' a a1 b1 a2 b2
  · rw [← h.glo.ok.fits]
    refine h.glo.ok.iter_full ?_
    rw [h.glo.slots]
    exact h.glo.full

/-- Initialization of a new object. -/
theorem start_spec (rd : ℚ → ℚ) {c : Cfg} {ng : Nat} (zero : F) {px : List (Nat × Nat)} (S : Setup c ng px) (rnd : Nat → Nat) (r : Refresh F) (k : Nat) :
    ∃ m, start rd c ng zero rnd px r k = some m ∧ Good c ng px.length m ∧
      (∀ P : Nat → Word F → Prop, (∀ p q, px[p]? = some q →
          Closed c ({ r with base := 1, frac := 0, force := false, dil := fun _ _ => 0, off := 1000 } : Refresh F) 0 q.1 q.2 (P p)) →
        ∀ p < px.length, Blk (P p) c.n (p * c.n) m.loc) ∧
      (IEEE.Rounds rd → ∀ p < px.length, Best (weight rd 0 1000) c.n (p * c.n) m.loc) := by
  obtain ⟨s1, s2, s3⟩ := setup_spec c ng zero px.length k
  obtain ⟨m, e, h1, h2, h3, -⟩ := refreshModel_spec rd zero S rnd ({ r with base := 1, frac := 0, force := false, dil := fun _ _ => 0, off := 1000 } : Refresh F) 0
    (setup c ng zero px.length (fun _ => none) (fun _ => none) k) s1 s2 (fun p _ => s3 p) (Or.inr fun _ _ => Or.inr rfl)
  refine ⟨m, e, h1, ?_, ?_⟩
  · intro P hP
    refine h2 P ?_ hP
    intro p _ l _ a h; exact absurd h (by simp [setup])
  · intro R
    exact h3 R le_rfl le_rfl (fun _ => rfl) (fun _ _ => Or.inr rfl)

/-- Histories. -/
theorem session_spec (rd : ℚ → ℚ) {c : Cfg} {ng : Nat} (zero : F) {px : List (Nat × Nat)} (S : Setup c ng px) (rnd : Nat → Nat) (r : Refresh F) (ops : List (Op F))
    (hops : ∀ f, Op.frame f ∈ ops → Callable f) :
    ∃ m t, session rd c ng zero rnd px r ops = some (m, t) ∧ Good c ng px.length m ∧ t ≤ ops.length ∧
      (∀ P : Nat → Nat → Word F → Prop, (∀ p q, px[p]? = some q →
          Closed c ({ r with base := 1, frac := 0, force := false, dil := fun _ _ => 0, off := 1000 } : Refresh F) 0 q.1 q.2 (P 0 p)) →
        (∀ f t, Op.frame f ∈ ops → FClosed rd px f (t + 1) (P (t + 1))) → (∀ t p w, P t p w → P (t + 1) p w) →
        (∀ r t p q, Op.refresh r ∈ ops → px[p]? = some q → Closed c r t q.1 q.2 (P t p)) →
        ∀ p < px.length, Blk (P t p) c.n (p * c.n) m.loc) := by
  obtain ⟨m0, e0, a1, a2, -⟩ := start_spec rd zero S rnd r 0
  unfold session
  rw [e0]
  dsimp only
  obtain ⟨⟨m, t⟩, e, h1, h2, h3⟩ := foldlM_inv (call rd c ng zero rnd px) ops
    (fun pre st => Good c ng px.length st.1 ∧ st.2 ≤ pre.length ∧
      (∀ P : Nat → Nat → Word F → Prop, (∀ p q, px[p]? = some q →
          Closed c ({ r with base := 1, frac := 0, force := false, dil := fun _ _ => 0, off := 1000 } : Refresh F) 0 q.1 q.2 (P 0 p)) →
        (∀ f t, Op.frame f ∈ ops → FClosed rd px f (t + 1) (P (t + 1))) → (∀ t p w, P t p w → P (t + 1) p w) →
        (∀ r t p q, Op.refresh r ∈ ops → px[p]? = some q → Closed c r t q.1 q.2 (P t p)) →
        ∀ p < px.length, Blk (P st.2 p) c.n (p * c.n) st.1.loc))
    (by
      rintro pre o post ⟨m1, t1⟩ hl ⟨k1, k2, k3⟩
      have hlen : (pre ++ [o]).length = pre.length + 1 := by simp
      have ho : o ∈ ops := by rw [hl]; simp
      dsimp only at k1 k2 k3
      cases o with
      | frame f =>
        obtain ⟨l', e1, f1, -, f3, -⟩ := applyFrame_spec rd S rnd f (hops f ho) (t1 + 1) m1 k1.live
        unfold call
        dsimp only
        rw [e1]
        refine ⟨_, rfl, f1.good, by rw [hlen]; dsimp only; omega, ?_⟩
        intro P p1 p2 p3 p4 p hp
        exact f3 (P (t1 + 1)) (p2 f t1 ho) (fun q hq => (k3 P p1 p2 p3 p4 q hq).mono (p3 t1 q)) p hp
      | refresh r' =>
        obtain ⟨m', e1, f1, f2, -⟩ := refreshModel_spec rd zero S rnd r' t1 m1 k1.linv k1.glo.toInv k1.ranks (Or.inl (slots_full S.words k1.full))
        unfold call
        dsimp only
        rw [e1]
        refine ⟨_, rfl, f1, by rw [hlen]; dsimp only; omega, ?_⟩
        intro P p1 p2 p3 p4 p hp
        exact f2 (P t1) (k3 P p1 p2 p3 p4) (fun p q hpq => p4 r' t1 p q ho hpq) p hp)
    (m0, 0) ⟨a1, le_rfl, fun P p1 _ _ _ => a2 (P 0) p1⟩
  exact ⟨m, t, e, h1, h2, h3⟩

end Litiv.Pawcs
