import Verif.Spec.Pawcs
import Verif.Lemmas.SubSenseFrame
import Mathlib.Data.Fintype.Card
import Mathlib.Tactic

/-!
# Lemmas on the word dictionaries of PAWCS
-/

namespace Litiv.Pawcs
open Consensus Consensus.Spec Spec

variable {W F : Type}

/-- The discipline of the word list: slots do not share words, exactly the words handed out are in slots, and there are as many
words as slots. -/
structure Ok (s : Store W) : Prop where
  inj : ∀ i j a, i < s.slots → j < s.slots → s.dict i = some a → s.dict j = some a → i = j
  range : ∀ a, a < s.iter ↔ ∃ j, j < s.slots ∧ s.dict j = some a
  fits : s.slots = s.cap

theorem Ok.iter_le {s : Store W} (h : Ok s) : s.iter ≤ s.slots := by
  choose g hg using fun a : Fin s.iter => (h.range a).1 a.2
  have := Fintype.card_le_of_injective (fun a : Fin s.iter => (⟨g a, (hg a).1⟩ : Fin s.slots)) (by
    intro a b hab
    have h1 : g a = g b := congrArg Fin.val hab
    have h2 := (hg a).2
    rw [h1, (hg b).2] at h2
    exact Fin.ext (Option.some.inj h2).symm)
  simpa using this

theorem Ok.iter_lt {s : Store W} (h : Ok s) {j : Nat} (hj : j < s.slots) (hn : s.dict j = none) : s.iter < s.slots := by
  choose g hg using fun a : Fin s.iter => (h.range a).1 a.2
  have := Fintype.card_lt_of_injective_not_surjective (fun a : Fin s.iter => (⟨g a, (hg a).1⟩ : Fin s.slots)) (by
    intro a b hab
    have h1 : g a = g b := congrArg Fin.val hab
    have h2 := (hg a).2
    rw [h1, (hg b).2] at h2
    exact Fin.ext (Option.some.inj h2).symm) (by
    intro hs
    obtain ⟨a, ha⟩ := hs ⟨j, hj⟩
    have h1 : g a = j := congrArg Fin.val ha
    have h2 := (hg a).2
    rw [h1, hn] at h2
    exact absurd h2 (by simp))
  simpa using this

theorem Ok.iter_full {s : Store W} (h : Ok s) (hf : ∀ j < s.slots, s.dict j ≠ none) : s.iter = s.slots := by
  refine le_antisymm h.iter_le ?_
  have hx : ∀ j : Fin s.slots, ∃ a, s.dict j = some a := fun j => Option.ne_none_iff_exists'.1 (hf j j.2)
  choose g hg using hx
  have := Fintype.card_le_of_injective (fun j : Fin s.slots => (⟨g j, (h.range _).2 ⟨j, j.2, hg j⟩⟩ : Fin s.iter)) (by
    intro i j hij
    have h1 : g i = g j := congrArg Fin.val hij
    exact Fin.ext (h.inj i j (g i) i.2 j.2 (hg i) (h1 ▸ hg j)))
  simpa using this

theorem addr_eq (s : Store W) (j a : Nat) : s.addr j = some a ↔ j < s.slots ∧ s.dict j = some a ∧ a < s.cap := by
  unfold Store.addr Store.slot
  by_cases hj : j < s.slots
  · rw [if_pos hj]
    cases hd : s.dict j with
    | none => simp
    | some b =>
      dsimp only
      by_cases hb : b < s.cap
      · rw [if_pos hb]
        simp only [Option.some.injEq]
        constructor
        · rintro rfl; exact ⟨hj, rfl, hb⟩
        · rintro ⟨-, h, -⟩; exact h
      · rw [if_neg hb]
        simp only [Option.some.injEq]
        constructor
        · intro h; exact absurd h (by simp)
        · rintro ⟨-, rfl, h⟩; exact absurd h hb
  · rw [if_neg hj]
    constructor
    · intro h; exact absurd h (by simp)
    · rintro ⟨h, -⟩; exact absurd h hj

theorem Ok.lt_cap {s : Store W} (h : Ok s) {j a : Nat} (hj : j < s.slots) (hd : s.dict j = some a) : a < s.cap := by
  have h1 := (h.range a).2 ⟨j, hj, hd⟩
  have h2 := h.iter_le
  have h3 := h.fits
  omega

theorem Ok.addr {s : Store W} (h : Ok s) {j a : Nat} (hj : j < s.slots) (hd : s.dict j = some a) : s.addr j = some a :=
  (addr_eq s j a).2 ⟨hj, hd, h.lt_cap hj hd⟩

theorem slot_of {s : Store W} {j : Nat} (hj : j < s.slots) : s.slot j = some (s.dict j) := if_pos hj

theorem Ok.put {s : Store W} (h : Ok s) (a : Nat) (w : W) : Ok (s.put a w) := ⟨h.inj, h.range, h.fits⟩

theorem swap_dict (s : Store W) (i j l : Nat) :
    (s.swap i j).dict l = if l = i then s.dict j else if l = j then s.dict i else s.dict l := rfl

/-- Exchange of two indices. -/
def tr (i j l : Nat) : Nat := if l = i then j else if l = j then i else l

theorem swap_tr (s : Store W) (i j l : Nat) : (s.swap i j).dict l = s.dict (tr i j l) := by
  rw [swap_dict]
  unfold tr
  split_ifs <;> rfl

theorem tr_tr (i j l : Nat) : tr i j (tr i j l) = l := by
  unfold tr
  split_ifs <;> omega

theorem tr_lt {i j l n : Nat} (hi : i < n) (hj : j < n) (hl : l < n) : tr i j l < n := by
  unfold tr
  split_ifs <;> omega

theorem Ok.swap {s : Store W} (h : Ok s) {i j : Nat} (hi : i < s.slots) (hj : j < s.slots) : Ok (s.swap i j) := by
  refine ⟨?_, ?_, h.fits⟩
  · intro l m a hl hm h1 h2
    rw [swap_tr] at h1 h2
    have := h.inj _ _ a (tr_lt hi hj hl) (tr_lt hi hj hm) h1 h2
    have h3 := congrArg (tr i j) this
    rwa [tr_tr, tr_tr] at h3
  · intro a
    refine (h.range a).trans ?_
    constructor
    · rintro ⟨l, hl, hd⟩
      refine ⟨tr i j l, tr_lt hi hj hl, ?_⟩
      rw [swap_tr, tr_tr]; exact hd
    · rintro ⟨l, hl, hd⟩
      rw [swap_tr] at hd
      exact ⟨tr i j l, tr_lt hi hj hl, hd⟩

theorem Ok.take {s : Store W} (h : Ok s) {j : Nat} (hj : j < s.slots) (hn : s.dict j = none) (w : W) :
    ∃ s', s.take j w = some s' ∧ Ok s' ∧ s'.slots = s.slots ∧ s'.cap = s.cap ∧ s'.iter = s.iter + 1 ∧
      (∀ l, s'.dict l = if l = j then some s.iter else s.dict l) ∧ (∀ b, s'.mem b = if b = s.iter then w else s.mem b) := by
  have hlt := h.iter_lt hj hn
  have hf := h.fits
  refine ⟨_, if_pos ⟨by omega, hj⟩, ?_, rfl, rfl, rfl, fun l => rfl, fun b => rfl⟩
  refine ⟨?_, ?_, hf⟩
  · intro l m a hl hm h1 h2
    dsimp only at h1 h2 hl hm
    split_ifs at h1 h2 with e1 e2 e2
    · omega
    · have ha : s.iter = a := Option.some.inj h1
      have := (h.range a).2 ⟨m, hm, h2⟩
      omega
    · have ha : s.iter = a := Option.some.inj h2
      have := (h.range a).2 ⟨l, hl, h1⟩
      omega
    · exact h.inj l m a hl hm h1 h2
  · intro a
    dsimp only
    constructor
    · intro ha
      by_cases e : a = s.iter
      · exact ⟨j, hj, by rw [if_pos rfl, e]⟩
      · obtain ⟨l, hl, hd⟩ := (h.range a).1 (by omega)
        refine ⟨l, hl, ?_⟩
        rw [if_neg]
        · exact hd
        · rintro rfl; rw [hn] at hd; exact absurd hd (by simp)
    · rintro ⟨l, hl, hd⟩
      split_ifs at hd with e
      · have := Option.some.inj hd; omega
      · have := (h.range a).2 ⟨l, hl, hd⟩; omega

/-! ## Blocks of slots -/

/-- In the block of `n` slots from `b` the words come before the null slots. -/
def Pre (n b : Nat) (d : Nat → Option Nat) : Prop := ∀ i j, i < j → j < n → d (b + j) ≠ none → d (b + i) ≠ none

/-- The same, without regard to slot `x`. -/
def PreX (x n b : Nat) (d : Nat → Option Nat) : Prop := ∀ i j, i < j → j < n → j ≠ x → d (b + j) ≠ none → d (b + i) ≠ none

theorem Pre.toX {x n b : Nat} {d : Nat → Option Nat} (h : Pre n b d) : PreX x n b d := fun i j hij hj _ hd => h i j hij hj hd

/-- What a search returns. -/
theorem find_spec {near : W → Bool} {s : Store W} (h : Ok s) (b : Nat) : ∀ (rem i : Nat) (u : Bool), b + (i + rem) ≤ s.slots →
    ∃ j v, find near s b rem i u = some (j, v) ∧ i ≤ j ∧ j ≤ i + rem ∧
      (∀ l, i ≤ l → l < j → ∀ a, s.dict (b + l) = some a → near (s.mem a) = false) ∧
      (j < i + rem → ∃ a, s.dict (b + j) = some a ∧ near (s.mem a) = true) ∧
      (v = true ↔ u = true ∨ ∃ l, i ≤ l ∧ l < j ∧ s.dict (b + l) = none)
  | 0, i, u, _ => by
    refine ⟨i, u, rfl, le_rfl, le_rfl, fun l h1 h2 => absurd h1 (by omega), fun h => absurd h (by omega), ?_⟩
    constructor
    · exact Or.inl
    · rintro (h | ⟨l, h1, h2, -⟩)
      · exact h
      · omega
  | rem + 1, i, u, hb => by
    have hi : b + i < s.slots := by omega
    unfold find
    rw [slot_of hi]
    cases hd : s.dict (b + i) with
    | none =>
      dsimp only
      obtain ⟨j, v, h1, h2, h3, h4, h5, h6⟩ := find_spec (near := near) h b rem (i + 1) true (by omega)
      refine ⟨j, v, h1, by omega, by omega, ?_, fun hh => h5 (by omega), ?_⟩
      · intro l hl1 hl2 a ha
        rcases Nat.lt_or_ge i l with g | g
        · exact h4 l g hl2 a ha
        · have : l = i := by omega
          rw [this, hd] at ha
          exact absurd ha (by simp)
      · rw [h6]
        constructor
        · intro _
          refine Or.inr ⟨i, le_rfl, by omega, hd⟩
        · intro _; exact Or.inl rfl
    | some a =>
      dsimp only
      rw [if_pos (h.lt_cap hi hd)]
      by_cases hn : near (s.mem a) = true
      · rw [if_pos hn]
        refine ⟨i, u, rfl, le_rfl, by omega, fun l h1 h2 => absurd h1 (by omega), fun _ => ⟨a, hd, hn⟩, ?_⟩
        constructor
        · exact Or.inl
        · rintro (h | ⟨l, h1, h2, -⟩)
          · exact h
          · omega
      · rw [if_neg hn]
        obtain ⟨j, v, h1, h2, h3, h4, h5, h6⟩ := find_spec (near := near) h b rem (i + 1) u (by omega)
        refine ⟨j, v, h1, by omega, by omega, ?_, fun hh => h5 (by omega), ?_⟩
        · intro l hl1 hl2 a' ha
          rcases Nat.lt_or_ge i l with g | g
          · exact h4 l g hl2 a' ha
          · have : l = i := by omega
            rw [this, hd] at ha
            rw [← Option.some.inj ha]
            simpa using hn
        · rw [h6]
          constructor
          · rintro (g | ⟨l, g1, g2, g3⟩)
            · exact Or.inl g
            · exact Or.inr ⟨l, by omega, g2, g3⟩
          · rintro (g | ⟨l, g1, g2, g3⟩)
            · exact Or.inl g
            · refine Or.inr ⟨l, ?_, g2, g3⟩
              rcases Nat.lt_or_ge i l with k | k
              · exact k
              · have : l = i := by omega
                rw [this, hd] at g3
                exact absurd g3 (by simp)

/-- What stays the same when words are written or entered in the block of `n` slots from `b`: sizes, the slots outside, and words
that are already in slots. -/
structure Kept (n b : Nat) (s s' : Store W) : Prop where
  slots : s'.slots = s.slots
  cap : s'.cap = s.cap
  outside : ∀ l, l < b ∨ b + n ≤ l → s'.dict l = s.dict l
  filled : ∀ i < n, s.dict (b + i) ≠ none → s'.dict (b + i) ≠ none

theorem Kept.refl {n b : Nat} {s : Store W} : Kept n b s s := ⟨rfl, rfl, fun _ _ => rfl, fun _ _ h => h⟩

theorem Kept.trans {n b : Nat} {s s' s'' : Store W} (h : Kept n b s s') (h' : Kept n b s' s'') : Kept n b s s'' :=
  ⟨h'.slots.trans h.slots, h'.cap.trans h.cap, fun l hl => (h'.outside l hl).trans (h.outside l hl),
    fun i hi hd => h'.filled i hi (h.filled i hi hd)⟩

/-- Finding or creating a word. -/
theorem place_spec {near : W → Bool} {hit : W → W} {fresh : W} {s : Store W} {n b : Nat} (h : Ok s) (hn : 0 < n) (hb : b + n ≤ s.slots)
    (hp : Pre n b s.dict) :
    ∃ s' i, place near hit fresh n b s = some (s', i) ∧ i < n ∧ Ok s' ∧ Kept n b s s' ∧ PreX i n b s'.dict ∧
      (∀ l, s.dict l ≠ none → s'.dict l = s.dict l) ∧ (∀ l, l ≠ b + i → s'.dict l = s.dict l) ∧
      ∃ a, s'.dict (b + i) = some a ∧ (∀ d, d ≠ a → s'.mem d = s.mem d) ∧
        ((s'.mem a = hit (s.mem a) ∧ near (s.mem a) = true ∧ s.dict (b + i) = some a ∧ s'.dict = s.dict) ∨
         (s'.mem a = fresh ∧ i = n - 1 ∧ ∀ j < n, ∀ d, s.dict (b + j) = some d → near (s.mem d) = false)) := by
  obtain ⟨j, v, h1, h2, h3, h4, h5, h6⟩ := find_spec (near := near) h b n 0 false (by omega)
  unfold place
  rw [h1]
  dsimp only
  by_cases hj : j = n
  · rw [if_pos hj]
    by_cases hv : v = true
    · rw [if_pos hv]
      obtain ⟨l, -, hl, hld⟩ : ∃ l, 0 ≤ l ∧ l < j ∧ s.dict (b + l) = none := by
        rcases h6.1 hv with g | g
        · exact absurd g (by simp)
        · exact g
      have hlast : s.dict (b + (n - 1)) = none := by
        by_contra hc
        rcases Nat.lt_or_ge l (n - 1) with g | g
        · exact hp l (n - 1) g (by omega) hc hld
        · have : l = n - 1 := by omega
          rw [this] at hld
          exact hc hld
      obtain ⟨s', e1, e2, e3, e4, e5, e6, e7⟩ := h.take (j := b + (n - 1)) (by omega) hlast fresh
      rw [e1]
      refine ⟨s', n - 1, rfl, by omega, e2, ⟨e3, e4, ?_, ?_⟩, ?_, ?_, ?_, s.iter, ?_, ?_, Or.inr ⟨?_, rfl, ?_⟩⟩
      · intro m hm
        rw [e6, if_neg (by omega)]
      · intro i hi hd
        rw [e6]
        split_ifs
        · simp
        · exact hd
      · intro i k hik hk hkx hd
        rw [e6, if_neg (by omega)] at hd ⊢
        exact hp i k hik hk hd
      · intro m hm
        rw [e6, if_neg]
        rintro rfl; exact hm hlast
      · intro m hm
        rw [e6, if_neg hm]
      · rw [e6, if_pos rfl]
      · intro d hd
        rw [e7, if_neg hd]
      · rw [e7, if_pos rfl]
      · intro i hi d hd
        exact h4 i (by omega) (by omega) d hd
    · rw [if_neg hv]
      have hall : ∀ l, l < n → s.dict (b + l) ≠ none := by
        intro l hl hd
        exact hv (h6.2 (Or.inr ⟨l, by omega, by omega, hd⟩))
      obtain ⟨a, ha⟩ := Option.ne_none_iff_exists'.1 (hall (n - 1) (by omega))
      rw [h.addr (by omega) ha]
      refine ⟨s.put a fresh, n - 1, rfl, by omega, h.put a fresh, ⟨rfl, rfl, fun _ _ => rfl, fun _ _ hd => hd⟩, hp.toX, fun _ _ => rfl, fun _ _ => rfl,
        a, ha, ?_, Or.inr ⟨if_pos rfl, rfl, ?_⟩⟩
      · intro d hd; exact if_neg hd
      · intro i hi d hd
        exact h4 i (by omega) (by omega) d hd
  · rw [if_neg hj]
    obtain ⟨a, ha, han⟩ := h5 (by omega)
    rw [h.addr (by omega) ha]
    refine ⟨s.put a (hit (s.mem a)), j, rfl, by omega, h.put _ _, ⟨rfl, rfl, fun _ _ => rfl, fun _ _ hd => hd⟩, hp.toX, fun _ _ => rfl, fun _ _ => rfl,
      a, ha, ?_, Or.inl ⟨if_pos rfl, han, ha, rfl⟩⟩
    intro d hd; exact if_neg hd

theorem swap_kept {n b i j : Nat} {s : Store W} (hi : i < n) (hj : j < n) (h1 : s.dict (b + i) ≠ none) :
    (∀ l, l < b ∨ b + n ≤ l → (s.swap (b + i) (b + j)).dict l = s.dict l) ∧
    (∀ l < n, l ≠ i → s.dict (b + l) ≠ none → (s.swap (b + i) (b + j)).dict (b + l) ≠ none) := by
  refine ⟨?_, ?_⟩
  · intro l hl
    rw [swap_dict, if_neg (by omega), if_neg (by omega)]
  · intro l hl hli hd
    rw [swap_dict, if_neg (by omega)]
    split_ifs
    · exact h1
    · exact hd

/-- Moving a word up: defined, and the words of the block stay in the block, the words first. -/
theorem bubble_spec {wt : W → ℚ} {n b : Nat} : ∀ (i : Nat) (s : Store W), Ok s → i < n → b + n ≤ s.slots → PreX i n b s.dict →
    s.dict (b + i) ≠ none →
    ∃ s', bubble wt b i s = some s' ∧ Ok s' ∧ s'.mem = s.mem ∧ s'.slots = s.slots ∧ s'.cap = s.cap ∧ s'.iter = s.iter ∧ Pre n b s'.dict ∧
      (∀ l, l < b ∨ b + n ≤ l → s'.dict l = s.dict l) ∧
      (∀ a, (∃ l < n, s'.dict (b + l) = some a) ↔ ∃ l < n, s.dict (b + l) = some a) ∧
      (∀ l < n, i < l → s'.dict (b + l) = s.dict (b + l))
  | 0, s, h, hi, hb, hp, hd => by
    refine ⟨s, rfl, h, rfl, rfl, rfl, rfl, ?_, fun _ _ => rfl, fun _ => Iff.rfl, fun _ _ _ => rfl⟩
    intro i j hij hj hdj
    by_cases hj0 : j = 0
    · omega
    · exact hp i j hij hj hj0 hdj
  | i + 1, s, h, hi, hb, hp, hd => by
    have hperm : ∀ a, (∃ l < n, (s.swap (b + (i + 1)) (b + i)).dict (b + l) = some a) ↔ ∃ l < n, s.dict (b + l) = some a := by
      have key : ∀ l, tr (b + (i + 1)) (b + i) (b + l) = b + tr (i + 1) i l := by
        intro l; unfold tr; split_ifs <;> omega
      intro a
      constructor
      · rintro ⟨l, hl, hld⟩
        rw [swap_tr, key] at hld
        exact ⟨_, tr_lt hi (by omega) hl, hld⟩
      · rintro ⟨l, hl, hld⟩
        refine ⟨tr (i + 1) i l, tr_lt hi (by omega) hl, ?_⟩
        rw [swap_tr, key, tr_tr]
        exact hld
    have hup : ∀ l < n, i + 1 < l → (s.swap (b + (i + 1)) (b + i)).dict (b + l) = s.dict (b + l) := by
      intro l hl hil
      rw [swap_dict, if_neg (by omega), if_neg (by omega)]
    have hout : ∀ l, l < b ∨ b + n ≤ l → (s.swap (b + (i + 1)) (b + i)).dict l = s.dict l := by
      intro l hl
      rw [swap_dict, if_neg (by omega), if_neg (by omega)]
    have hok := h.swap (i := b + (i + 1)) (j := b + i) (by omega) (by omega)
    have hdi : (s.swap (b + (i + 1)) (b + i)).dict (b + i) = s.dict (b + (i + 1)) := by
      rw [swap_dict, if_neg (by omega), if_pos rfl]
    have hdi1 : (s.swap (b + (i + 1)) (b + i)).dict (b + (i + 1)) = s.dict (b + i) := by
      rw [swap_dict, if_pos rfl]
    unfold bubble
    rw [slot_of (show b + i < s.slots by omega)]
    cases hpd : s.dict (b + i) with
    | none =>
      dsimp only
      have hpx : PreX i n b (s.swap (b + (i + 1)) (b + i)).dict := by
        intro l m hlm hm hmi hmd
        by_cases e : m = i + 1
        · rw [e, hdi1] at hmd; exact absurd hpd hmd
        · have hm1 : (s.swap (b + (i + 1)) (b + i)).dict (b + m) = s.dict (b + m) := by
            rw [swap_dict, if_neg (by omega), if_neg (by omega)]
          rw [hm1] at hmd
          rcases Nat.lt_or_ge i m with g | g
          · exact absurd hpd (hp i m g hm e hmd)
          · have hl1 : (s.swap (b + (i + 1)) (b + i)).dict (b + l) = s.dict (b + l) := by
              rw [swap_dict, if_neg (by omega), if_neg (by omega)]
            rw [hl1]
            exact hp l m hlm hm e hmd
      obtain ⟨s', e1, e2, e3, e4, e5, e5', e6, e7, e8, e9⟩ := bubble_spec (wt := wt) i (s.swap (b + (i + 1)) (b + i)) hok (by omega) hb hpx
        (by rw [hdi]; exact hd)
      refine ⟨s', e1, e2, e3, e4, e5, e5', e6, fun l hl => (e7 l hl).trans (hout l hl), fun a => (e8 a).trans (hperm a), ?_⟩
      intro l hl hil
      exact (e9 l hl (by omega)).trans (hup l hl hil)
    | some p =>
      dsimp only
      obtain ⟨a, ha⟩ := Option.ne_none_iff_exists'.1 hd
      rw [h.addr (by omega) ha]
      dsimp only
      rw [if_pos (h.lt_cap (by omega) hpd)]
      have hpre : Pre n b s.dict := by
        intro l m hlm hm hmd
        by_cases e : m = i + 1
        · rcases Nat.lt_or_ge l i with g | g
          · exact hp l i g (by omega) (by omega) (by rw [hpd]; simp)
          · have : l = i := by omega
            rw [this, hpd]; simp
        · exact hp l m hlm hm e hmd
      by_cases hw : wt (s.mem a) > wt (s.mem p)
      · rw [if_pos hw]
        have hpx : PreX i n b (s.swap (b + (i + 1)) (b + i)).dict := by
          have hnn : ∀ l, (s.swap (b + (i + 1)) (b + i)).dict (b + l) ≠ none ↔ s.dict (b + l) ≠ none := by
            intro l
            rw [swap_dict]
            split_ifs with g1 g2
            · rw [g1, hpd, ha]; simp
            · rw [g2, hpd, ha]; simp
            · exact Iff.rfl
          intro l m hlm hm _ hmd
          rw [hnn] at hmd ⊢
          exact hpre l m hlm hm hmd
        obtain ⟨s', e1, e2, e3, e4, e5, e5', e6, e7, e8, e9⟩ := bubble_spec (wt := wt) i (s.swap (b + (i + 1)) (b + i)) hok (by omega) hb hpx
          (by rw [hdi]; exact hd)
        refine ⟨s', e1, e2, e3, e4, e5, e5', e6, fun l hl => (e7 l hl).trans (hout l hl), fun a => (e8 a).trans (hperm a), ?_⟩
        intro l hl hil
        exact (e9 l hl (by omega)).trans (hup l hl hil)
      · rw [if_neg hw]
        exact ⟨s, rfl, h, rfl, rfl, rfl, rfl, hpre, fun _ _ => rfl, fun _ => Iff.rfl, fun _ _ _ => rfl⟩

/-! ## What holds of the words of a block -/

/-- `P` holds of the words in the block of `n` slots from `b`. -/
def Blk (P : W → Prop) (n b : Nat) (s : Store W) : Prop := ∀ l < n, ∀ a, s.dict (b + l) = some a → P (s.mem a)

/-- Slots outside of the block and their words are unchanged. -/
structure Only (n b : Nat) (s s' : Store W) : Prop where
  slots : s'.slots = s.slots
  cap : s'.cap = s.cap
  dict : ∀ l, l < b ∨ b + n ≤ l → s'.dict l = s.dict l
  mem : ∀ l, l < s.slots → l < b ∨ b + n ≤ l → ∀ a, s.dict l = some a → s'.mem a = s.mem a

theorem Only.refl {n b : Nat} {s : Store W} : Only n b s s := ⟨rfl, rfl, fun _ _ => rfl, fun _ _ _ _ _ => rfl⟩

theorem Only.trans {n b : Nat} {s s' s'' : Store W} (h : Only n b s s') (h' : Only n b s' s'') : Only n b s s'' := by
  refine ⟨h'.slots.trans h.slots, h'.cap.trans h.cap, fun l hl => (h'.dict l hl).trans (h.dict l hl), ?_⟩
  intro l hl ho a ha
  exact (h'.mem l (by rw [h.slots]; exact hl) ho a (by rw [h.dict l ho]; exact ha)).trans (h.mem l hl ho a ha)

/-- The words of the block in order of weight, without regard to slot `x`; the word of slot `x` is not lighter than later ones. -/
def SortX (wt : W → ℚ) (x n b : Nat) (s : Store W) : Prop :=
  (∀ i j a d, i < j → j < n → i ≠ x → j ≠ x → s.dict (b + i) = some a → s.dict (b + j) = some d → wt (s.mem d) ≤ wt (s.mem a)) ∧
  (∀ j a d, x < j → j < n → s.dict (b + x) = some a → s.dict (b + j) = some d → wt (s.mem d) ≤ wt (s.mem a))

/-- The words of the block in order of weight. -/
def Srt (wt : W → ℚ) (n b : Nat) (s : Store W) : Prop :=
  ∀ i j a d, i < j → j < n → s.dict (b + i) = some a → s.dict (b + j) = some d → wt (s.mem d) ≤ wt (s.mem a)

/-- Moving a word up restores the order. -/
theorem bubble_sort {wt : W → ℚ} {n b : Nat} : ∀ (i : Nat) (s s' : Store W), i < n → SortX wt i n b s → PreX i n b s.dict → s.dict (b + i) ≠ none →
    bubble wt b i s = some s' → Srt wt n b s'
  | 0, s, s', hi, hs, hp, hd, e => by
    have : s = s' := Option.some.inj e
    subst this
    intro i j a d hij hj ha hd
    by_cases h0 : i = 0
    · subst h0; exact hs.2 j a d hij hj ha hd
    · exact hs.1 i j a d hij hj h0 (by omega) ha hd
  | i + 1, s, s', hi, hs, hp, hd, e => by
    have hdi : (s.swap (b + (i + 1)) (b + i)).dict (b + i) = s.dict (b + (i + 1)) := by
      rw [swap_dict, if_neg (by omega), if_pos rfl]
    have hdi1 : (s.swap (b + (i + 1)) (b + i)).dict (b + (i + 1)) = s.dict (b + i) := by
      rw [swap_dict, if_pos rfl]
    have hdo : ∀ l, l ≠ i → l ≠ i + 1 → (s.swap (b + (i + 1)) (b + i)).dict (b + l) = s.dict (b + l) := by
      intro l h1 h2
      rw [swap_dict, if_neg (by omega), if_neg (by omega)]
    unfold bubble at e
    by_cases hsl : b + i < s.slots
    swap
    · rw [show s.slot (b + i) = none from if_neg hsl] at e
      exact absurd e (by simp)
    rw [slot_of hsl] at e
    cases hpd : s.dict (b + i) with
    | none =>
      rw [hpd] at e
      dsimp only at e
      refine bubble_sort i _ s' (by omega) ⟨?_, ?_⟩ ?_ (by rw [hdi]; exact hd) e
      · intro l m a d hlm hm hli hmi ha hd'
        by_cases e1 : m = i + 1
        · rw [e1, hdi1, hpd] at hd'; exact absurd hd' (by simp)
        by_cases e2 : l = i + 1
        · rw [e2, hdi1, hpd] at ha; exact absurd ha (by simp)
        rw [hdo l hli e2] at ha
        rw [hdo m hmi e1] at hd'
        exact hs.1 l m a d hlm hm e2 e1 ha hd'
      · intro m a d hm1 hm ha hd'
        by_cases e1 : m = i + 1
        · rw [e1, hdi1, hpd] at hd'; exact absurd hd' (by simp)
        rw [hdi] at ha
        rw [hdo m (by omega) e1] at hd'
        exact hs.2 m a d (by omega) hm ha hd'
      · intro l m hlm hm hmi hmd
        by_cases e' : m = i + 1
        · rw [e', hdi1] at hmd; exact absurd hpd hmd
        · rw [hdo m hmi e'] at hmd
          rcases Nat.lt_or_ge i m with g | g
          · exact absurd hpd (hp i m g hm e' hmd)
          · rw [hdo l (by omega) (by omega)]
            exact hp l m hlm hm e' hmd
    | some p =>
      rw [hpd] at e
      dsimp only at e
      cases had : s.addr (b + (i + 1)) with
      | none => rw [had] at e; exact absurd e (by simp)
      | some a =>
        rw [had] at e
        dsimp only at e
        have ha0 := ((addr_eq _ _ _).1 had).2.1
        by_cases hpc : p < s.cap
        swap
        · rw [if_neg hpc] at e; exact absurd e (by simp)
        rw [if_pos hpc] at e
        by_cases hw : wt (s.mem a) > wt (s.mem p)
        · rw [if_pos hw] at e
          refine bubble_sort i _ s' (by omega) ⟨?_, ?_⟩ ?_ (by rw [hdi]; exact hd) e
          · intro l m a' d hlm hm hli hmi ha hd'
            show wt (s.mem d) ≤ wt (s.mem a')
            by_cases e1 : m = i + 1
            · rw [e1, hdi1] at hd'
              rw [hdo l hli (by omega)] at ha
              exact hs.1 l i a' d (by omega) (by omega) (by omega) (by omega) ha hd'
            rw [hdo m hmi e1] at hd'
            by_cases e2 : l = i + 1
            · rw [e2, hdi1] at ha
              exact hs.1 i m a' d (by omega) hm (by omega) e1 ha hd'
            rw [hdo l hli e2] at ha
            exact hs.1 l m a' d hlm hm e2 e1 ha hd'
          · intro m a' d hm1 hm ha hd'
            show wt (s.mem d) ≤ wt (s.mem a')
            rw [hdi, ha0] at ha
            have ha := Option.some.inj ha
            by_cases e1 : m = i + 1
            · rw [e1, hdi1, hpd] at hd'
              rw [← Option.some.inj hd', ← ha]
              exact le_of_lt hw
            rw [hdo m (by omega) e1] at hd'
            rw [← ha]
            exact hs.2 m a d (by omega) hm ha0 hd'
          · have hnn : ∀ l, (s.swap (b + (i + 1)) (b + i)).dict (b + l) ≠ none ↔ s.dict (b + l) ≠ none := by
              intro l
              rw [swap_dict]
              split_ifs with g1 g2
              · rw [g1, hpd, ha0]; simp
              · rw [g2, hpd, ha0]; simp
              · exact Iff.rfl
            intro l m hlm hm hmi hmd
            rw [hnn] at hmd ⊢
            by_cases e1 : m = i + 1
            · rcases Nat.lt_or_ge l i with g | g
              · exact hp l i g (by omega) (by omega) (by rw [hpd]; simp)
              · have : l = i := by omega
                rw [this, hpd]; simp
            · exact hp l m hlm hm e1 hmd
        · rw [if_neg hw] at e
          have : s = s' := Option.some.inj e
          subst this
          intro l m a' d hlm hm ha hd'
          by_cases e1 : m = i + 1
          · rw [e1, ha0] at hd'
            rw [← Option.some.inj hd']
            by_cases e2 : l = i
            · rw [e2, hpd] at ha
              rw [← Option.some.inj ha]
              exact not_lt.1 hw
            · exact le_trans (not_lt.1 hw) (hs.1 l i a' p (by omega) (by omega) (by omega) (by omega) ha hpd)
          by_cases e2 : l = i + 1
          · rw [e2] at ha
            exact hs.2 m a' d (by omega) hm ha hd'
          exact hs.1 l m a' d hlm hm e2 e1 ha hd'

/-- Finding or creating a word, changing it further with `w`, and moving it up. -/
theorem enter_spec {wt : W → ℚ} {near : W → Bool} {hit : W → W} {fresh : W} {s : Store W} {n b : Nat} (h : Ok s) (hn : 0 < n) (hb : b + n ≤ s.slots)
    (hp : Pre n b s.dict) :
    ∃ s1 i a, place near hit fresh n b s = some (s1, i) ∧ s1.addr (b + i) = some a ∧
      ∀ w, ∃ s', bubble wt b i (s1.put a w) = some s' ∧ Ok s' ∧ Pre n b s'.dict ∧ Only n b s s' ∧ s'.dict b ≠ none ∧
        (∀ P : W → Prop, Blk P n b s → (∀ v, P v → P (hit v)) → P fresh → P (s1.mem a) ∧ (P w → Blk P n b s')) ∧
        (∀ Q : W → Prop, Blk Q n b s → Srt wt n b s → (∀ v, Q v → wt v ≤ wt (hit v)) → wt (s1.mem a) ≤ wt w → Srt wt n b s') := by
  obtain ⟨s1, i, e1, hi, ok1, kept, hpx, hold, hne, a, ha, hm, hcase⟩ := place_spec (near := near) (hit := hit) (fresh := fresh) h hn hb hp
  have hsl : b + i < s1.slots := by rw [kept.slots]; omega
  refine ⟨s1, i, a, e1, ok1.addr hsl ha, ?_⟩
  intro w
  have hda : (s1.put a w).dict (b + i) = some a := ha
  obtain ⟨s', f1, f2, f3, f4, f5, f6, f7, f8, f9, f10⟩ := bubble_spec (wt := wt) (n := n) (b := b) i (s1.put a w) (ok1.put a w) hi
    (by show b + n ≤ s1.slots; rw [kept.slots]; exact hb) hpx (by rw [hda]; simp)
  have hmem' : ∀ d, s'.mem d = if d = a then w else s1.mem d := fun d => by rw [f3]; rfl
  refine ⟨s', f1, f2, f7, ⟨f4.trans kept.slots, f5.trans kept.cap, fun l hl => (f8 l hl).trans (kept.outside l hl), ?_⟩, ?_, ?_, ?_⟩
  · intro l hl ho d hd
    have hda' : d ≠ a := by
      rintro rfl
      have := ok1.inj l (b + i) d (by rw [kept.slots]; exact hl) hsl (by rw [kept.outside l ho]; exact hd) ha
      omega
    rw [hmem', if_neg hda', hm d hda']
  · have : ∃ l < n, s'.dict (b + l) = some a := (f9 a).2 ⟨i, hi, hda⟩
    obtain ⟨l, hl, hld⟩ := this
    rcases Nat.eq_zero_or_pos l with g | g
    · subst g
      rw [Nat.add_zero] at hld
      rw [hld]; simp
    · exact f7 0 l g hl (by rw [hld]; simp)
  · intro P hP hPh hPf
    refine ⟨?_, ?_⟩
    · rcases hcase with ⟨c1, -, c3, -⟩ | ⟨c1, -⟩
      · rw [c1]; exact hPh _ (hP i hi a c3)
      · rw [c1]; exact hPf
    · intro hPw l hl d hd
      rw [hmem']
      split_ifs with g
      · exact hPw
      · obtain ⟨l', hl', hld'⟩ := (f9 d).1 ⟨l, hl, hd⟩
        have hld' : s1.dict (b + l') = some d := hld'
        rw [hm d g]
        have hne' : l' ≠ i := by
          rintro rfl
          rw [ha] at hld'
          exact g (Option.some.inj hld').symm
        rw [hne (b + l') (by omega)] at hld'
        exact hP l' hl' d hld'
  · intro Q hQ hS hhit hw
    refine bubble_sort i (s1.put a w) s' hi ⟨?_, ?_⟩ hpx (by rw [hda]; simp) f1
    · intro l m d d' hlm hm' hli hmi hd hd'
      have hd : s1.dict (b + l) = some d := hd
      have hd' : s1.dict (b + m) = some d' := hd'
      have g1 : d ≠ a := by
        rintro rfl
        exact hli (by have := ok1.inj (b + l) (b + i) d (by rw [kept.slots]; omega) hsl hd ha; omega)
      have g2 : d' ≠ a := by
        rintro rfl
        exact hmi (by have := ok1.inj (b + m) (b + i) d' (by rw [kept.slots]; omega) hsl hd' ha; omega)
      rw [hne (b + l) (by omega)] at hd
      rw [hne (b + m) (by omega)] at hd'
      show wt (if d' = a then w else s1.mem d') ≤ wt (if d = a then w else s1.mem d)
      rw [if_neg g1, if_neg g2, hm d g1, hm d' g2]
      exact hS l m d d' hlm hm' hd hd'
    · intro m d d' him hm' hd hd'
      have hd : s1.dict (b + i) = some d := hd
      have hd' : s1.dict (b + m) = some d' := hd'
      rw [ha] at hd
      have hd := Option.some.inj hd
      subst hd
      have g2 : d' ≠ a := by
        rintro rfl
        have := ok1.inj (b + m) (b + i) d' (by rw [kept.slots]; omega) hsl hd' ha
        omega
      show wt (if d' = a then w else s1.mem d') ≤ wt (if a = a then w else s1.mem a)
      rw [if_neg g2, if_pos rfl, hm d' g2]
      rw [hne (b + m) (by omega)] at hd'
      rcases hcase with ⟨c1, -, c3, -⟩ | ⟨c1, c2, -⟩
      · refine le_trans (hS i m a d' him hm' c3 hd') (le_trans (hhit _ (hQ i hi a c3)) ?_)
        rw [← c1]; exact hw
      · omega

end Litiv.Pawcs
