import Verif.Spec.TinyMT
import Mathlib.Tactic.Ring

/-!
# Lemmas on random generators
-/

namespace Litiv.TinyMT

theorem bool_cancel {a b c : Bool} (h : (a ^^ c) = (b ^^ c)) : a = b := by
  cases a <;> cases b <;> cases c <;> simp_all

theorem xor_shl_inj {a b : Word} (h : a ^^^ (a <<< 1) = b ^^^ (b <<< 1)) : a = b := by
  have hb : ∀ i, i < 32 → a.getLsbD i = b.getLsbD i := by
    intro i
    induction i with
    | zero =>
      intro _
      have := congrArg (fun w => BitVec.getLsbD w 0) h
      simpa using this
    | succ i ih =>
      intro hi
      have h1 := congrArg (fun w => BitVec.getLsbD w (i + 1)) h
      have h2 := ih (by omega)
      simp only [BitVec.getLsbD_xor, BitVec.getLsbD_shiftLeft] at h1
      have e : i + 1 - 1 = i := by omega
      have l : ¬ i + 1 < 1 := by omega
      simp only [hi, l, e, decide_true, decide_false, Bool.not_false, Bool.true_and, h2] at h1
      exact bool_cancel h1
  exact BitVec.eq_of_getLsbD_eq hb

theorem xor_shr_inj {n : Nat} (hn : 0 < n) {a b : Word} (h : a ^^^ (a >>> n) = b ^^^ (b >>> n)) : a = b := by
  have hb : ∀ k i, 32 ≤ i + k → a.getLsbD i = b.getLsbD i := by
    intro k
    induction k with
    | zero => intro i hi; rw [BitVec.getLsbD_of_ge a i (by omega), BitVec.getLsbD_of_ge b i (by omega)]
    | succ k ih =>
      intro i hi
      have h1 := congrArg (fun w => BitVec.getLsbD w i) h
      have h2 := ih (n + i) (by omega)
      simp only [BitVec.getLsbD_xor, BitVec.getLsbD_ushiftRight, h2] at h1
      exact bool_cancel h1
  exact BitVec.eq_of_getLsbD_eq fun i hi => hb 32 i (by omega)

theorem xor_cancel {a b c : Word} (h : a ^^^ c = b ^^^ c) : a = b := by
  have := congrArg (fun w => w ^^^ c) h
  simpa [BitVec.xor_assoc] using this

theorem xor_cancel_left {a b c : Word} (h : c ^^^ a = c ^^^ b) : a = b := by
  rw [BitVec.xor_comm c a, BitVec.xor_comm c b] at h
  exact xor_cancel h

theorem low_bit (a : Word) (i : Nat) (hi : i < 31) : (a &&& 0x7fffffff#32).getLsbD i = a.getLsbD i := by
  rw [BitVec.getLsbD_and]
  have : (0x7fffffff#32).getLsbD i = true := by
    have : ∀ j : Fin 31, (0x7fffffff#32).getLsbD j.1 = true := by decide
    exact this ⟨i, hi⟩
  rw [this, Bool.and_true]

theorem low_eq {a b : Word} : (a &&& 0x7fffffff#32) = (b &&& 0x7fffffff#32) ↔ ∀ i < 31, a.getLsbD i = b.getLsbD i := by
  constructor
  · intro h i hi
    rw [← low_bit a i hi, ← low_bit b i hi, h]
  · intro h
    apply BitVec.eq_of_getLsbD_eq
    intro i hi
    by_cases h31 : i < 31
    · rw [low_bit a i h31, low_bit b i h31, h i h31]
    · have : i = 31 := by omega
      subst this
      rw [BitVec.getLsbD_and, BitVec.getLsbD_and]
      have : (0x7fffffff#32).getLsbD 31 = false := by decide
      rw [this, Bool.and_false, Bool.and_false]

theorem dead_iff (p : Gen) : Dead p ↔ (p.s0 &&& 0x7fffffff#32) = 0#32 ∧ p.s1 = 0#32 ∧ p.s2 = 0#32 ∧ p.s3 = 0#32 := by
  unfold Dead
  have : (p.s0 &&& 0x7fffffff#32) = 0#32 ↔ ∀ i < 31, p.s0.getLsbD i = false := by
    have h0 : (0#32 : Word) = (0#32 &&& 0x7fffffff#32) := by decide
    rw [h0, low_eq]
    simp
  rw [this]

/-- The generator with the parameters of `p` and no bit set. -/
def zeroOf (p : Gen) : Gen := { p with s0 := 0#32, s1 := 0#32, s2 := 0#32, s3 := 0#32 }

theorem dead_same (p : Gen) : Dead p ↔ SameState p (zeroOf p) := by
  unfold Dead SameState zeroOf
  simp

theorem same_low {p q : Gen} : SameState p q ↔
    (p.s0 &&& 0x7fffffff#32) = (q.s0 &&& 0x7fffffff#32) ∧ p.s1 = q.s1 ∧ p.s2 = q.s2 ∧ p.s3 = q.s3 := by
  unfold SameState
  rw [low_eq]

theorem next_params (p : Gen) : (next p).mat1 = p.mat1 ∧ (next p).mat2 = p.mat2 ∧ (next p).tmat = p.tmat := ⟨rfl, rfl, rfl⟩

/-- The word made of the first three. -/
def mixed (p : Gen) : Word :=
  ((p.s0 &&& 0x7fffffff#32) ^^^ p.s1 ^^^ p.s2) ^^^ (((p.s0 &&& 0x7fffffff#32) ^^^ p.s1 ^^^ p.s2) <<< 1)

/-- The new last word. -/
def last (p : Gen) : Word := p.s3 ^^^ ((p.s3 >>> 1) ^^^ mixed p)

theorem next_def (p : Gen) : next p =
    { p with
      s0 := p.s1
      s1 := p.s2 ^^^ (-(last p &&& 1#32) &&& p.mat1)
      s2 := (mixed p ^^^ (last p <<< 10)) ^^^ (-(last p &&& 1#32) &&& p.mat2)
      s3 := last p } := rfl

theorem next_congr {p q : Gen} (h1 : p.mat1 = q.mat1) (h2 : p.mat2 = q.mat2) (h : SameState p q) :
    (next p).s0 = (next q).s0 ∧ (next p).s1 = (next q).s1 ∧ (next p).s2 = (next q).s2 ∧ (next p).s3 = (next q).s3 := by
  rw [same_low] at h
  rw [next_def, next_def]
  dsimp only [last, mixed]
  rw [h.1, h.2.1, h.2.2.1, h.2.2.2, h1, h2]
  exact ⟨rfl, rfl, rfl, rfl⟩

theorem next_inj {p q : Gen} (h1 : p.mat1 = q.mat1) (h2 : p.mat2 = q.mat2) (h : SameState (next p) (next q)) :
    SameState p q := by
  obtain ⟨h0, ha, hb, hc⟩ := h
  rw [next_def, next_def] at h0 ha hb hc
  dsimp only at h0 ha hb hc
  rw [hc, h1] at ha
  rw [hc, h2] at hb
  have hs2 := xor_cancel ha
  have hm := xor_cancel (xor_cancel hb)
  have hs3 : p.s3 = q.s3 := by
    unfold last at hc
    rw [hm, ← BitVec.xor_assoc, ← BitVec.xor_assoc] at hc
    exact xor_shr_inj (by omega) (xor_cancel hc)
  have hx := xor_shl_inj (show _ from hm)
  rw [hs2] at hx
  have hy := xor_cancel hx
  have hs1 : p.s1 = q.s1 := by
    apply BitVec.eq_of_getLsbD_eq
    intro i hi
    by_cases h31 : i < 31
    · exact h0 i h31
    · have : i = 31 := by omega
      subst this
      have hz := congrArg (fun w => BitVec.getLsbD w 31) hy
      simp only [BitVec.getLsbD_xor, BitVec.getLsbD_and] at hz
      have : (0x7fffffff#32).getLsbD 31 = false := by decide
      rw [this] at hz
      simpa using hz
  rw [hs1] at hy
  exact same_low.2 ⟨xor_cancel hy, hs1, hs2, hs3⟩

theorem next_zero (p : Gen) : next (zeroOf p) = zeroOf p := by
  have e0 : ∀ m : Word, (-(0#32 &&& 1#32) &&& m) = 0#32 := by
    intro m
    have : (-(0#32 &&& 1#32) : Word) = 0#32 := by decide
    rw [this, BitVec.zero_and]
  have hm : mixed (zeroOf p) = 0#32 := by
    unfold mixed zeroOf
    dsimp only
    decide
  have hl : last (zeroOf p) = 0#32 := by
    unfold last
    rw [hm]
    unfold zeroOf
    dsimp only
    decide
  rw [next_def, hl, hm]
  unfold zeroOf
  dsimp only
  rw [e0, e0]
  have e1 : (0#32 ^^^ 0#32 : Word) = 0#32 := by decide
  have e2 : ((0#32 ^^^ 0#32 <<< 10) ^^^ 0#32 : Word) = 0#32 := by decide
  rw [e1, e2]

theorem next_dead (p : Gen) : Dead (next p) ↔ Dead p := by
  constructor
  · intro h
    rw [dead_same]
    have hz := next_zero p
    refine next_inj (p := p) (q := zeroOf p) rfl rfl ?_
    rw [hz]
    exact (dead_same (next p)).1 h
  · intro h
    rw [dead_same] at h
    obtain ⟨h0, h1, h2, h3⟩ := next_congr (p := p) (q := zeroOf p) rfl rfl h
    rw [next_zero] at h0 h1 h2 h3
    unfold Dead
    rw [h0, h1, h2, h3]
    exact ⟨fun i _ => by show (0#32).getLsbD i = false; simp, rfl, rfl, rfl⟩


theorem dead_of_steps (n : Nat) (p : Gen) : Dead (steps n p) ↔ Dead p := by
  induction n generalizing p with
  | zero => exact Iff.rfl
  | succ n ih => exact (ih (next p)).trans (next_dead p)

theorem steps_params (n : Nat) (p : Gen) :
    (steps n p).mat1 = p.mat1 ∧ (steps n p).mat2 = p.mat2 ∧ (steps n p).tmat = p.tmat := by
  induction n generalizing p with
  | zero => exact ⟨rfl, rfl, rfl⟩
  | succ n ih => exact ih (next p)

theorem steps_inj (n : Nat) {p q : Gen} (h1 : p.mat1 = q.mat1) (h2 : p.mat2 = q.mat2) (h : SameState (steps n p) (steps n q)) :
    SameState p q := by
  induction n generalizing p q with
  | zero => exact h
  | succ n ih => exact next_inj h1 h2 (ih (p := next p) (q := next q) h1 h2 h)

/-- The function of words in the first loop. -/
def f (a : Word) : Word := 1812433253#32 * (a ^^^ (a >>> 30))

/-- The second word after the first round. -/
def c1 (s : Word) : Word := 0xF20D1B78#32 ^^^ (1#32 + f s)
def c2 (s : Word) : Word := 0xFF90FFE5#32 ^^^ (2#32 + f (c1 s))
def c3 (s : Word) : Word := 0x30FBDFFF#32 ^^^ (3#32 + f (c2 s))
def a0 (s : Word) : Word := s ^^^ (4#32 + f (c3 s))
def a1 (s : Word) : Word := c1 s ^^^ (5#32 + f (a0 s))
def a2 (s : Word) : Word := c2 s ^^^ (6#32 + f (a1 s))
def a3 (s : Word) : Word := c3 s ^^^ (7#32 + f (a2 s))

/-- The generator after the first loop. -/
def seeded (s : Word) : Gen := [1, 2, 3, 4, 5, 6, 7].foldl spread (start s)

theorem seeded_eq (s : Word) : seeded s =
    ⟨a0 s, a1 s, a2 s, a3 s, 0xF20D1B78#32, 0xFF90FFE5#32, 0x30FBDFFF#32⟩ := rfl

theorem init_seeded (s : Word) : init s = steps 8 (seeded s) := rfl

theorem seeded_alive (s : Word) : ¬ Dead (seeded s) := by
  rw [seeded_eq, dead_iff]
  rintro ⟨h0, h1, h2, h3⟩
  dsimp only at h0 h1 h2 h3
  have e3 : c3 s = 7#32 := by
    unfold a3 at h3
    rw [h2] at h3
    have : (7#32 + f 0#32) = 7#32 := by decide
    rw [this] at h3
    exact xor_cancel (c := 7#32) (by rw [h3]; decide)
  have e0 : a0 s = s ^^^ (4#32 + f 7#32) := by unfold a0; rw [e3]
  have es : s = a0 s ^^^ (4#32 + f 7#32) := by
    rw [e0, BitVec.xor_assoc, BitVec.xor_self, BitVec.xor_zero]
  have hc : a0 s = 0#32 ∨ a0 s = 0x80000000#32 := by
    by_cases hb : (a0 s).getLsbD 31
    · right
      apply BitVec.eq_of_getLsbD_eq
      intro i hi
      by_cases h31 : i < 31
      · have := low_bit (a0 s) i h31
        rw [h0] at this
        rw [← this]
        have : ∀ j : Fin 31, (0#32).getLsbD j.1 = (0x80000000#32).getLsbD j.1 := by decide
        exact this ⟨i, h31⟩
      · have : i = 31 := by omega
        subst this
        rw [hb]; decide
    · left
      apply BitVec.eq_of_getLsbD_eq
      intro i hi
      by_cases h31 : i < 31
      · have := low_bit (a0 s) i h31
        rw [h0] at this
        rw [← this]
      · have : i = 31 := by omega
        subst this
        simpa using hb
  unfold a1 at h1
  rcases hc with hc | hc
  · rw [hc] at es h1
    rw [es] at h1
    exact absurd h1 (by decide +kernel)
  · rw [hc] at es h1
    rw [es] at h1
    exact absurd h1 (by decide +kernel)

theorem seeded_inj {s t : Word} (hs : s.getLsbD 31 = false) (ht : t.getLsbD 31 = false)
    (h : SameState (seeded s) (seeded t)) : s = t := by
  rw [seeded_eq, seeded_eq] at h
  obtain ⟨h0, h1, h2, h3⟩ := h
  dsimp only at h0 h1 h2 h3
  have e3 : c3 s = c3 t := by
    unfold a3 at h3
    rw [h2] at h3
    exact xor_cancel h3
  apply BitVec.eq_of_getLsbD_eq
  intro i hi
  by_cases h31 : i < 31
  · have := h0 i h31
    unfold a0 at this
    rw [e3, BitVec.getLsbD_xor, BitVec.getLsbD_xor] at this
    exact bool_cancel this
  · have : i = 31 := by omega
    subst this
    rw [hs, ht]

theorem draws_dead (n : Nat) {p : Gen} (h : Dead p) : draws n p = List.replicate n 0#32 := by
  induction n generalizing p with
  | zero => rfl
  | succ n ih =>
    have hd : Dead (next p) := (next_dead p).2 h
    have hp : p.s1 = 0#32 := h.2.1
    have h0 : (next p).s0 = 0#32 := hp
    have hu : (urand p).1 = 0#32 := by
      unfold urand temper
      dsimp only
      rw [h0, hd.2.2.1, hd.2.2.2]
      have e1 : (0#32 + 0#32 >>> 8 : Word) = 0#32 := by decide
      rw [e1]
      have e2 : (-(0#32 &&& 1#32) : Word) = 0#32 := by decide
      rw [e2, BitVec.zero_and]
      decide
    show (urand p).1 :: draws n (next p) = _
    rw [hu, ih hd, List.replicate_succ]

theorem row_range (n X c : Nat) :
    ((List.range n).flatMap fun y => (List.range X).map fun x => x + (y * X + c)) = (List.range (n * X)).map (· + c) := by
  induction n with
  | zero => simp
  | succ n ih =>
    rw [List.range_succ, List.flatMap_append, ih, Nat.succ_mul, List.range_add, List.map_append]
    simp only [List.flatMap_cons, List.flatMap_nil, List.append_nil, List.map_map]
    congr 1
    apply List.map_congr_left
    intro x _
    show x + (n * X + c) = n * X + x + c
    omega

theorem places_range (nx ny nz : Nat) : places nx ny nz = List.range (nx * ny * nz) := by
  have h : places nx ny nz = (List.range nz).flatMap fun z => (List.range (ny * nx)).map fun x => x + (z * (ny * nx) + 0) := by
    unfold places
    congr 1
    funext z
    rw [row_range, Nat.mul_assoc]
    rfl
  rw [h, row_range nz (ny * nx) 0]
  have e : nz * (ny * nx) = nx * ny * nz := by ring_nf
  rw [e]
  simp

theorem add_shl (a : Word) (k : Nat) : a + (a <<< k) = a * (1#32 + BitVec.twoPow 32 k) := by
  rw [BitVec.shiftLeft_eq_mul_twoPow, BitVec.mul_add, BitVec.mul_one]

theorem mul_inj {a b m v : Word} (hv : m * v = 1#32) (h : a * m = b * m) : a = b := by
  have := congrArg (fun w => w * v) h
  simp only [BitVec.mul_assoc, hv, BitVec.mul_one] at this
  exact this

theorem hash_inj {a b : Word} (h : hash a = hash b) : a = b := by
  unfold hash at h
  dsimp only at h
  simp only [add_shl] at h
  have h1 := mul_inj (v := 1073709057#32) (by decide) h
  have h2 := xor_shr_inj (by omega) h1
  have h3 := mul_inj (v := 954437177#32) (by decide) h2
  have h4 := xor_shr_inj (by omega) h3
  exact mul_inj (v := 3222273025#32) (by decide) h4

end Litiv.TinyMT
