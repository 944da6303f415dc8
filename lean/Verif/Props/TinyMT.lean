import Verif.Lemmas.TinyMT
import Mathlib.Logic.ExistsUnique

/-!
# C235, C236: random numbers of shaders
-/

namespace Litiv.TinyMT

/-- C235: whatever `rand()` returned, and however many numbers are drawn, a generator never reaches the state with no bit set. -/
theorem alive (seed : Word) (n : Nat) : ¬ Dead (steps n (init seed)) := by
  rw [dead_of_steps, init_seeded, dead_of_steps]
  exact seeded_alive seed

/-- C235: what is avoided: a generator in that state draws zeros only. -/
theorem dead_zero (p : Gen) (h : Dead p) (n : Nat) : draws n p = List.replicate n 0#32 := draws_dead n h

example : Dead ⟨0x80000000#32, 0#32, 0#32, 0#32, 1#32, 2#32, 3#32⟩ := by
  refine ⟨?_, rfl, rfl, rfl⟩
  have : ∀ j : Fin 31, (0x80000000#32).getLsbD j.1 = false := by decide
  exact fun i hi => this ⟨i, hi⟩

/-- C235: generators with different values of `rand()` (which has 31 bits) never get into the same state after as many draws. -/
theorem seeds_distinct (s t : Word) (hs : s.toNat < 2 ^ 31) (ht : t.toNat < 2 ^ 31) (h : s ≠ t) (n : Nat) :
    ¬ SameState (steps n (init s)) (steps n (init t)) := by
  intro hst
  have hp : ∀ u, (init u).mat1 = 0xF20D1B78#32 ∧ (init u).mat2 = 0xFF90FFE5#32 := by
    intro u
    rw [init_seeded]
    obtain ⟨a, b, _⟩ := steps_params 8 (seeded u)
    rw [a, b, seeded_eq]
    exact ⟨rfl, rfl⟩
  have h1 := steps_inj n ((hp s).1.trans (hp t).1.symm) ((hp s).2.trans (hp t).2.symm) hst
  rw [init_seeded, init_seeded] at h1
  have h2 := steps_inj 8 (by rw [seeded_eq, seeded_eq]) (by rw [seeded_eq, seeded_eq]) h1
  have top : ∀ u : Word, u.toNat < 2 ^ 31 → u.getLsbD 31 = false := by
    intro u hu
    rw [BitVec.getLsbD, Nat.testBit_lt_two_pow hu]
  exact h (seeded_inj (top s hs) (top t ht) h2)

example : (1804289383#32 : Word).toNat < 2 ^ 31 ∧ (846930886#32 : Word).toNat < 2 ^ 31 ∧ (1804289383#32 : Word) ≠ 846930886#32 := by
  decide

/-- C235: the state after a draw determines the state before, for generators with the same parameters. -/
theorem reversible (p q : Gen) (h1 : p.mat1 = q.mat1) (h2 : p.mat2 = q.mat2) (h : SameState (urand p).2 (urand q).2) :
    SameState p q := next_inj h1 h2 h

example : SameState (urand (init 5#32)).2 (urand { init 5#32 with s0 := (init 5#32).s0 ^^^ 0x80000000#32 }).2 := by
  rw [same_low]
  decide +kernel

/-- C235: a draw moves the state by the step which the initialization repeats, and keeps parameters. -/
theorem draw_state (p : Gen) : (urand p).2 = steps 1 p ∧ (urand p).2.mat1 = p.mat1 ∧ (urand p).2.mat2 = p.mat2 ∧
    (urand p).2.tmat = p.tmat := ⟨rfl, rfl, rfl, rfl⟩

/-- C235: with the other words given, each number is drawn for exactly one value of the last word. -/
theorem output_uniform (p : Gen) (v : Word) : ∃! w : Word, temper { p with s3 := w } = v := by
  have e : ∀ w, temper { p with s3 := w } =
      w ^^^ ((p.s0 + (p.s2 >>> 8)) ^^^ (-((p.s0 + (p.s2 >>> 8)) &&& 1#32) &&& p.tmat)) := by
    intro w
    unfold temper
    dsimp only
    rw [BitVec.xor_assoc]
  generalize (p.s0 + (p.s2 >>> 8)) ^^^ (-((p.s0 + (p.s2 >>> 8)) &&& 1#32) &&& p.tmat) = k at e
  refine ⟨v ^^^ k, ?_, ?_⟩
  · show temper { p with s3 := v ^^^ k } = v
    rw [e, BitVec.xor_assoc, BitVec.xor_self, BitVec.xor_zero]
  · intro w hw
    have h1 : temper { p with s3 := w } = v := hw
    rw [e] at h1
    rw [← h1, BitVec.xor_assoc, BitVec.xor_self, BitVec.xor_zero]

/-- C235: first numbers of the generator for one value of `rand()`, computed apart from the model. -/
theorem first_draws : draws 4 (init 1#32) = [500135292#32, 1239744554#32, 3420733556#32, 2608445915#32] := by decide +kernel

/-- C235: the three loops initialize each place of the array once, in order. -/
theorem each_generator (nx ny nz : Nat) : places nx ny nz = List.range (nx * ny * nz) := places_range nx ny nz

example : places 2 3 2 = [0, 1, 2, 3, 4, 5, 6, 7, 8, 9, 10, 11] := by decide

/-- C236: the hash draws different numbers for different seeds. -/
theorem hash_injective (a b : Word) : hash a = hash b ↔ a = b := ⟨hash_inj, fun h => by rw [h]⟩

/-- C236: a seed which is not zero stays so. -/
theorem hash_alive (a : Word) (h : a ≠ 0#32) (n : Nat) : Nat.repeat hash n a ≠ 0#32 := by
  induction n with
  | zero => exact h
  | succ n ih =>
    intro h0
    have hz : hash 0#32 = 0#32 := by decide
    exact ih (hash_inj (by rw [hz]; exact h0))

example : (1#32 : Word) ≠ 0#32 := by decide

/-- C236: two sequences with different seeds differ at each place. -/
theorem hash_distinct (a b : Word) (h : a ≠ b) (n : Nat) : Nat.repeat hash n a ≠ Nat.repeat hash n b := by
  induction n with
  | zero => exact h
  | succ n ih => exact fun h0 => ih (hash_inj h0)

example : (1#32 : Word) ≠ 2#32 := by decide

/-- C236 does not hold for all seeds: zero is the seed of a sequence of zeros. -/
theorem hash_zero_refuted : ¬ ∀ a : Word, ∃ n, Nat.repeat hash n a ≠ a := by
  intro h
  obtain ⟨n, hn⟩ := h 0#32
  apply hn
  clear hn
  induction n with
  | zero => rfl
  | succ n ih =>
    show hash (Nat.repeat hash n 0#32) = 0#32
    rw [ih]
    decide

/-- C236: and only zero is drawn after zero, and zero only after zero. -/
theorem hash_zero_iff (a : Word) : hash a = 0#32 ↔ a = 0#32 := by
  have hz : hash 0#32 = 0#32 := by decide
  constructor
  · intro h
    exact hash_inj (h.trans hz.symm)
  · rintro rfl
    exact hz

/-- C236: numbers drawn from two seeds, computed apart from the model. -/
theorem hash_values : hash 1#32 = 307143837#32 ∧ hash 123456789#32 = 3765788084#32 := by decide +kernel

end Litiv.TinyMT
