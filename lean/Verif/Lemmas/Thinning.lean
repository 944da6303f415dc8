import Verif.Spec.Thinning
import Mathlib.Tactic.Common

namespace Litiv.Thinning
open Spec

/-! ## Zhang-Suen pass, pixel by pixel -/

theorem zsCols_apply (bIter : Bool) (above curr below : Nat → BitVec 8) (n x : Nat) (mk : Nat → BitVec 8) (x' : Nat) :
    zsCols bIter above curr below n (x + 1) ⟨above x, above (x + 1), curr x, curr (x + 1), below x, below (x + 1)⟩ mk x' =
      if x + 1 ≤ x' ∧ x' < x + 1 + n ∧ zsDecide bIter (above x') (above (x' + 1)) (curr (x' + 1)) (below (x' + 1)) (below x')
        (below (x' - 1)) (curr (x' - 1)) (above (x' - 1)) = true then 255 else mk x' := by
  induction n generalizing x mk with
  | zero => rw [zsCols, if_neg (by omega)]
  | succ n ih =>
    rw [zsCols]
    dsimp only
    rw [ih]
    by_cases e : x' = x + 1
    · subst e
      rw [if_neg (by omega)]
      by_cases hd : zsDecide bIter (above (x + 1)) (above (x + 1 + 1)) (curr (x + 1 + 1)) (below (x + 1 + 1)) (below (x + 1))
        (below x) (curr x) (above x) = true
      · rw [if_pos hd, if_pos rfl, if_pos ⟨by omega, by omega, by simpa using hd⟩]
      · rw [if_neg hd, if_neg (by simpa using hd)]
    · have h1 : (x + 1 + 1 ≤ x' ∧ x' < x + 1 + 1 + n) ↔ (x + 1 ≤ x' ∧ x' < x + 1 + (n + 1)) := by omega
      refine if_congr (by rw [← and_assoc, ← and_assoc, h1]) rfl ?_
      split
      · exact if_neg e
      · rfl

/-- Decision of the Zhang-Suen pass at a pixel. -/
def zsAt (bIter : Bool) (f : Img) (y x : Nat) : Bool :=
  zsDecide bIter (f (y - 1) x) (f (y - 1) (x + 1)) (f y (x + 1)) (f (y + 1) (x + 1)) (f (y + 1) x) (f (y + 1) (x - 1))
    (f y (x - 1)) (f (y - 1) (x - 1))

theorem zsRows_apply (f : Img) (cols : Nat) (bIter : Bool) (n y : Nat) (mk : Img) (y' x' : Nat) :
    zsRows f cols bIter n (y + 1) (f y) (f (y + 1)) mk y' x' =
      if y + 1 ≤ y' ∧ y' < y + 1 + n ∧ 1 ≤ x' ∧ x' < 1 + (cols - 2) ∧ zsAt bIter f y' x' = true then 255 else mk y' x' := by
  induction n generalizing y mk with
  | zero => rw [zsRows, if_neg (by omega)]
  | succ n ih =>
    rw [zsRows, ih]
    by_cases e : y' = y + 1
    · subst e
      rw [if_neg (by omega), if_pos rfl]
      rw [zsCols_apply bIter (f y) (f (y + 1)) (f (y + 1 + 1)) (cols - 2) 0]
      have h1 : (y + 1 ≤ y + 1 ∧ y + 1 < y + 1 + (n + 1) ∧ 1 ≤ x' ∧ x' < 1 + (cols - 2) ∧ zsAt bIter f (y + 1) x' = true) ↔
        (0 + 1 ≤ x' ∧ x' < 0 + 1 + (cols - 2) ∧ zsAt bIter f (y + 1) x' = true) := by
        constructor <;> rintro ⟨_, _, _⟩ <;> (try rename_i h; obtain ⟨_, _, _⟩ := h) <;> refine ⟨?_, ?_, ?_⟩ <;> first | omega | assumption | skip
        exact ⟨by omega, by omega, by assumption⟩
      exact (if_congr h1 rfl rfl).symm
    · have h1 : (y + 1 + 1 ≤ y' ∧ y' < y + 1 + 1 + n) ↔ (y + 1 ≤ y' ∧ y' < y + 1 + (n + 1)) := by omega
      refine if_congr ?_ rfl (by rw [if_neg e])
      constructor <;> rintro ⟨a, b, c⟩ <;> exact ⟨by omega, by omega, c⟩

theorem zsPass_apply (rows cols : Nat) (bIter : Bool) (f : Img) (y x : Nat) :
    zsPass rows cols bIter f y x =
      if 1 ≤ y ∧ y < 1 + (rows - 2) ∧ 1 ≤ x ∧ x < 1 + (cols - 2) ∧ zsAt bIter f y x = true then 0 else f y x := by
  rw [zsPass]
  dsimp only
  rw [zsRows_apply f cols bIter (rows - 2) 0]
  by_cases h : 1 ≤ y ∧ y < 1 + (rows - 2) ∧ 1 ≤ x ∧ x < 1 + (cols - 2) ∧ zsAt bIter f y x = true
  · rw [if_pos h, if_pos (by simpa using h)]
    simp
  · rw [if_neg h, if_neg (by simpa using h)]
    exact BitVec.and_allOnes

/-! ## Neighbourhoods as bits -/

/-- The eight neighbours in the order of the lookup array. -/
def nb (p : Nat × Nat) : Fin 8 → Nat × Nat
  | 0 => (p.1 + 1, p.2)
  | 1 => (p.1 + 1, p.2 - 1)
  | 2 => (p.1, p.2 - 1)
  | 3 => (p.1 - 1, p.2 - 1)
  | 4 => (p.1 - 1, p.2)
  | 5 => (p.1 - 1, p.2 + 1)
  | 6 => (p.1, p.2 + 1)
  | 7 => (p.1 + 1, p.2 + 1)

/-- Which neighbours are set. -/
def bits (f : Img) (p : Nat × Nat) (k : Fin 8) : Bool := f (nb p k).1 (nb p k).2 != 0

/-- `p` is visited by the passes. -/
def Inner (rows cols : Nat) (p : Nat × Nat) : Prop := 1 ≤ p.1 ∧ p.1 + 1 < rows ∧ 1 ≤ p.2 ∧ p.2 + 1 < cols

theorem fin8 (P : Fin 8 → Prop) (h : P 0 ∧ P 1 ∧ P 2 ∧ P 3 ∧ P 4 ∧ P 5 ∧ P 6 ∧ P 7) : ∀ k, P k := by
  obtain ⟨h0, h1, h2, h3, h4, h5, h6, h7⟩ := h
  intro k
  match k with
  | 0 => exact h0
  | 1 => exact h1
  | 2 => exact h2
  | 3 => exact h3
  | 4 => exact h4
  | 5 => exact h5
  | 6 => exact h6
  | 7 => exact h7

theorem nb_inj (p : Nat × Nat) (h1 : 1 ≤ p.1) (h2 : 1 ≤ p.2) : ∀ k l, nb p k = nb p l → k = l := by
  apply fin8
  refine ⟨?_, ?_, ?_, ?_, ?_, ?_, ?_, ?_⟩ <;> apply fin8 <;> simp only [nb, Prod.mk.injEq, reduceCtorEq, Fin.reduceEq, imp_false, implies_true, true_and, and_true] <;> omega

theorem nb_adj (p : Nat × Nat) (h1 : 1 ≤ p.1) (h2 : 1 ≤ p.2) : ∀ k, Adj p (nb p k) := by
  apply fin8
  obtain ⟨a, b⟩ := p
  simp only [nb, Adj, ne_eq, Prod.mk.injEq] at *
  omega

theorem nb_range (rows cols : Nat) (p : Nat × Nat) (h : Inner rows cols p) : ∀ k, (nb p k).1 < rows ∧ (nb p k).2 < cols := by
  apply fin8
  obtain ⟨a, b⟩ := p
  simp only [nb, Inner] at *
  omega

theorem adj_nb (p q : Nat × Nat) (h1 : 1 ≤ p.1) (h2 : 1 ≤ p.2) (h : Adj p q) : ∃ k, q = nb p k := by
  obtain ⟨a, b⟩ := p
  obtain ⟨c, d⟩ := q
  simp only [Adj, ne_eq, Prod.mk.injEq] at *
  have hc : c = a + 1 ∨ c = a ∨ c = a - 1 := by omega
  have hd : d = b + 1 ∨ d = b ∨ d = b - 1 := by omega
  rcases hc with hc | hc | hc <;> rcases hd with hd | hd | hd <;> subst hc <;> subst hd
  · exact ⟨7, rfl⟩
  · exact ⟨0, rfl⟩
  · exact ⟨1, rfl⟩
  · exact ⟨6, rfl⟩
  · exact absurd ⟨rfl, rfl⟩ h.1
  · exact ⟨2, rfl⟩
  · exact ⟨5, rfl⟩
  · exact ⟨4, rfl⟩
  · exact ⟨3, rfl⟩

theorem bits_isSet (rows cols : Nat) (f : Img) (p : Nat × Nat) (h : Inner rows cols p) (k : Fin 8) :
    bits f p k = true ↔ IsSet rows cols f (nb p k) := by
  have := nb_range rows cols p h k
  simp only [bits, bne_iff_ne, ne_eq, IsSet]
  tauto

/-- Two different set neighbours contradict being a tip. -/
theorem tip_false (rows cols : Nat) (f : Img) (p : Nat × Nat) (h : Inner rows cols p) (ht : Tip rows cols f p)
    (hk : ∃ k l : Fin 8, k ≠ l ∧ bits f p k = true ∧ bits f p l = true) : False := by
  obtain ⟨k, l, hne, hk, hl⟩ := hk
  exact hne (nb_inj p h.1 h.2.2.1 _ _ (ht _ _ (nb_adj p h.1 h.2.2.1 k) (nb_adj p h.1 h.2.2.1 l)
    ((bits_isSet rows cols f p h k).1 hk) ((bits_isSet rows cols f p h l).1 hl)))

/-- A function on eight indices is given by its values. -/
def vec (b0 b1 b2 b3 b4 b5 b6 b7 : Bool) : Fin 8 → Bool
  | 0 => b0
  | 1 => b1
  | 2 => b2
  | 3 => b3
  | 4 => b4
  | 5 => b5
  | 6 => b6
  | 7 => b7

theorem vec_eta (b : Fin 8 → Bool) : vec (b 0) (b 1) (b 2) (b 3) (b 4) (b 5) (b 6) (b 7) = b := by
  funext k
  revert k
  apply fin8
  simp [vec]

/-- The Zhang-Suen decision on bits. -/
def zsB (it : Bool) (b : Fin 8 → Bool) : Bool :=
  let t (x y : Fin 8) : Nat := (!(b x) && b y).toNat
  let A := t 4 5 + t 5 6 + t 6 7 + t 7 0 + t 0 1 + t 1 2 + t 2 3 + t 3 4
  let B := (b 4).toNat + (b 5).toNat + (b 6).toNat + (b 7).toNat + (b 0).toNat + (b 1).toNat + (b 2).toNat + (b 3).toNat
  let m1 := if !it then (b 4).toNat * (b 6).toNat * (b 0).toNat else (b 4).toNat * (b 6).toNat * (b 2).toNat
  let m2 := if !it then (b 6).toNat * (b 0).toNat * (b 2).toNat else (b 4).toNat * (b 0).toNat * (b 2).toNat
  decide (A = 1) && decide (B ≥ 2) && decide (B ≤ 6) && decide (m1 = 0) && decide (m2 = 0)

theorem pos_bit (v : BitVec 8) : decide (0 < v.toNat) = (v != 0) := by
  by_cases h : v = 0
  · subst h; rfl
  · have : 0 < v.toNat := by
      rcases Nat.eq_zero_or_pos v.toNat with h' | h'
      · exact absurd (BitVec.eq_of_toNat_eq (by simpa using h')) h
      · exact h'
    rw [decide_eq_true this]; exact (bne_iff_ne.2 h).symm

theorem zsAt_bits (it : Bool) (f : Img) (y x : Nat) : zsAt it f y x = zsB it (bits f (y, x)) := by
  simp only [zsAt, zsDecide, zsB, pos_bit]
  rfl

theorem zsB_two : ∀ it b0 b1 b2 b3 b4 b5 b6 b7, zsB it (vec b0 b1 b2 b3 b4 b5 b6 b7) = true →
    ∃ k l : Fin 8, k ≠ l ∧ vec b0 b1 b2 b3 b4 b5 b6 b7 k = true ∧ vec b0 b1 b2 b3 b4 b5 b6 b7 l = true := by
  decide +kernel

/-- The counters and decision of Lam-Lee-Suen on bits; `g` is the bit read past the array. -/
def xhB (b : Fin 8 → Bool) (g : Bool) : Nat :=
  (!b 0 && (b 1 || b 2)).toNat + (!b 2 && (b 3 || b 4)).toNat + (!b 4 && (b 5 || b 6)).toNat + (!b 6 && (b 7 || g)).toNat

def n1B (b : Fin 8 → Bool) : Nat := (b 0 || b 1).toNat + (b 2 || b 3).toNat + (b 4 || b 5).toNat + (b 6 || b 7).toNat

def n2B (b : Fin 8 → Bool) (g : Bool) : Nat := (b 1 || b 2).toNat + (b 3 || b 4).toNat + (b 5 || b 6).toNat + (b 7 || g).toNat

def llsB (fixed it : Bool) (b : Fin 8 → Bool) (g : Bool) : Bool :=
  let xh := xhB b g + bif fixed then xhB b (b 0) else 0
  let n1 := n1B b + bif fixed then n1B b else 0
  let n2 := n2B b g + bif fixed then n2B b (b 0) else 0
  decide (xh = 1) && decide (min n1 n2 ≥ 2) && decide (min n1 n2 ≤ 3) &&
    ((!it && !((b 1 || b 2 || !(b 7)) && b 0)) || (it && !((b 5 || b 6 || !(b 3)) && b 4)))

theorem orM_some (a b : Bool) : orM (some a) (some b) = some (a || b) := by cases a <;> rfl

theorem norM_some (a b : Bool) : norM (some a) (some b) = some (!a && b) := by cases a <;> rfl

theorem llsDecide_some (fixed it : Bool) (f : Img) (p : Nat × Nat) (v : BitVec 8) :
    llsDecide fixed it (lut f p.1 p.2) (some v) = some (llsB fixed it (bits f p) (v != 0)) := by
  cases fixed <;>
  simp [llsDecide, counters, sum4, rd, lut, orM_some, norM_some, llsB, xhB, n1B, n2B, bits, nb, g3] <;> rfl

theorem llsB_two : ∀ fixed it g b0 b1 b2 b3 b4 b5 b6 b7, llsB fixed it (vec b0 b1 b2 b3 b4 b5 b6 b7) g = true →
    ∃ k l : Fin 8, k ≠ l ∧ vec b0 b1 b2 b3 b4 b5 b6 b7 k = true ∧ vec b0 b1 b2 b3 b4 b5 b6 b7 l = true := by
  decide +kernel

/-! ## What a pass may do -/

/-- `g` results from `f` by clearing some inner pixels, none of them a tip. -/
structure PassOK (rows cols : Nat) (f g : Img) : Prop where
  shr : ∀ p : Nat × Nat, g p.1 p.2 = f p.1 p.2 ∨ (g p.1 p.2 = 0 ∧ Inner rows cols p)
  tips : ∀ p : Nat × Nat, Tip rows cols f p → g p.1 p.2 = f p.1 p.2

theorem PassOK.refl (rows cols : Nat) (f : Img) : PassOK rows cols f f := ⟨fun _ => .inl rfl, fun _ _ => rfl⟩

theorem PassOK.isSet {rows cols : Nat} {f g : Img} (h : PassOK rows cols f g) (p : Nat × Nat) (hp : IsSet rows cols g p) :
    IsSet rows cols f p := by
  refine ⟨hp.1, hp.2.1, ?_⟩
  rcases h.shr p with e | ⟨e, _⟩
  · exact e ▸ hp.2.2
  · exact absurd e hp.2.2

theorem PassOK.tip {rows cols : Nat} {f g : Img} (h : PassOK rows cols f g) (p : Nat × Nat) (hp : Tip rows cols f p) :
    Tip rows cols g p := fun q r hq hr sq sr => hp q r hq hr (h.isSet q sq) (h.isSet r sr)

theorem PassOK.trans {rows cols : Nat} {f g k : Img} (h1 : PassOK rows cols f g) (h2 : PassOK rows cols g k) :
    PassOK rows cols f k := by
  refine ⟨fun p => ?_, fun p hp => (h2.tips p (h1.tip p hp)).trans (h1.tips p hp)⟩
  rcases h2.shr p with e | e
  · rw [e]; exact h1.shr p
  · exact .inr e

theorem zsPass_ok (rows cols : Nat) (it : Bool) (f : Img) : PassOK rows cols f (zsPass rows cols it f) := by
  have key : ∀ p : Nat × Nat, zsPass rows cols it f p.1 p.2 = f p.1 p.2 ∨
      (zsPass rows cols it f p.1 p.2 = 0 ∧ Inner rows cols p ∧ zsB it (bits f p) = true) := by
    intro p
    rw [zsPass_apply]
    split
    · rename_i h
      refine .inr ⟨rfl, ⟨by omega, by omega, by omega, by omega⟩, ?_⟩
      rw [← zsAt_bits]; exact h.2.2.2.2
    · exact .inl rfl
  refine ⟨fun p => (key p).imp id fun h => ⟨h.1, h.2.1⟩, fun p hp => ?_⟩
  rcases key p with h | ⟨_, hi, hz⟩
  · exact h
  · rw [← vec_eta (bits f p)] at hz
    have := zsB_two it _ _ _ _ _ _ _ _ hz
    rw [vec_eta] at this
    exact (tip_false rows cols f p hi hp this).elim

theorem set_apply (f : Img) (p q : Nat × Nat) (v : BitVec 8) :
    set f p.1 p.2 v q.1 q.2 = if q = p then v else f q.1 q.2 := by
  rw [set]
  refine if_congr ?_ rfl rfl
  rw [Prod.ext_iff]

/-- What one step of the in-place scan does when the byte read past the array is `v`. -/
theorem llsPixel_cases (fixed it : Bool) (oob : Img → Nat → Nat → Option (BitVec 8)) (f g : Img) (p : Nat × Nat)
    (v : BitVec 8) (hv : oob f p.1 p.2 = some v) (h : llsPixel fixed it oob f p = some g) :
    g = f ∨ (g = set f p.1 p.2 0 ∧ f p.1 p.2 ≠ 0 ∧ llsB fixed it (bits f p) (v != 0) = true) := by
  rw [llsPixel] at h
  split at h
  · injection h with h; exact .inl h.symm
  · rename_i hn
    rw [hv, llsDecide_some, Option.map_some] at h
    injection h with h
    split at h
    · exact .inr ⟨h.symm, hn, by assumption⟩
    · exact .inl h.symm

theorem llsPixel_ok (rows cols : Nat) (fixed it : Bool) (oob : Img → Nat → Nat → Option (BitVec 8)) (f g : Img)
    (p : Nat × Nat) (v : BitVec 8) (hv : oob f p.1 p.2 = some v) (hi : Inner rows cols p)
    (h : llsPixel fixed it oob f p = some g) : PassOK rows cols f g := by
  rcases llsPixel_cases fixed it oob f g p v hv h with e | ⟨e, _, hb⟩
  · subst e; exact .refl _ _ _
  · subst e
    refine ⟨fun q => ?_, fun q hq => ?_⟩
    · rw [set_apply]
      split
      · subst q; exact .inr ⟨rfl, hi⟩
      · exact .inl rfl
    · rw [set_apply]
      split
      · subst q
        rw [← vec_eta (bits f p)] at hb
        have := llsB_two _ _ _ _ _ _ _ _ _ _ _ hb
        rw [vec_eta] at this
        exact (tip_false rows cols f p hi hq this).elim
      · rfl

theorem mem_interior (rows cols : Nat) (p : Nat × Nat) (h : p ∈ interior rows cols) : Inner rows cols p := by
  simp only [interior, List.mem_flatMap, List.mem_map, List.mem_range'_1] at h
  obtain ⟨y, hy, x, hx, rfl⟩ := h
  exact ⟨by omega, by omega, by omega, by omega⟩

theorem interior_mem (rows cols : Nat) (p : Nat × Nat) (h : Inner rows cols p) : p ∈ interior rows cols := by
  obtain ⟨a, b, c, d⟩ := h
  simp only [interior, List.mem_flatMap, List.mem_map, List.mem_range'_1]
  exact ⟨p.1, by omega, p.2, by omega, rfl⟩

/-- Induction over the in-place scan for a relation that is reflexive, transitive and holds for each step. -/
theorem llsFold_rel (R : Img → Img → Prop) (hrefl : ∀ f, R f f) (htrans : ∀ f g k, R f g → R g k → R f k)
    (fixed it : Bool) (oob : Img → Nat → Nat → Option (BitVec 8)) (l : List (Nat × Nat))
    (hstep : ∀ f g p, p ∈ l → llsPixel fixed it oob f p = some g → R f g) (f g : Img)
    (h : l.foldlM (llsPixel fixed it oob) f = some g) : R f g := by
  induction l generalizing f with
  | nil => rw [List.foldlM_nil] at h; injection h with h; subst h; exact hrefl _
  | cons p l ih =>
    rw [List.foldlM_cons] at h
    cases e : llsPixel fixed it oob f p with
    | none => rw [e] at h; cases h
    | some k =>
      rw [e] at h
      exact htrans _ _ _ (hstep f k p (List.mem_cons_self) e)
        (ih (fun f g q hq => hstep f g q (List.mem_cons_of_mem _ hq)) k h)

theorem llsFold_some (fixed it : Bool) (oob : Img → Nat → Nat → Option (BitVec 8)) (hb : ∀ f i j, (oob f i j).isSome)
    (l : List (Nat × Nat)) (f : Img) : ∃ g, l.foldlM (llsPixel fixed it oob) f = some g := by
  induction l generalizing f with
  | nil => exact ⟨f, rfl⟩
  | cons p l ih =>
    have : ∃ k, llsPixel fixed it oob f p = some k := by
      rw [llsPixel]
      split
      · exact ⟨_, rfl⟩
      · obtain ⟨v, hv⟩ := Option.isSome_iff_exists.1 (hb f p.1 p.2)
        rw [hv, llsDecide_some]
        exact ⟨_, rfl⟩
    obtain ⟨k, hk⟩ := this
    obtain ⟨g, hg⟩ := ih k
    refine ⟨g, ?_⟩
    rw [List.foldlM_cons, hk]
    exact hg

/-- A round of a benign build completes. -/
theorem round_some (b : Build) (hb : Benign b) (mode : Mode) (rows cols n : Nat) (f : Img) :
    ∃ g, round b mode rows cols n f = some g := by
  cases mode with
  | zhangSuen => exact ⟨_, rfl⟩
  | lamLeeSuen =>
    obtain ⟨k, hk⟩ := llsFold_some b.fixed false (b.oob n false) (hb n false) (interior rows cols) f
    obtain ⟨g, hg⟩ := llsFold_some b.fixed true (b.oob n true) (hb n true) (interior rows cols) k
    refine ⟨g, ?_⟩
    simp only [round, llsPass, hk, Option.bind_some]
    exact hg

/-- Induction over a round of Lam-Lee-Suen. -/
theorem round_rel (R : Img → Img → Prop) (hrefl : ∀ f, R f f) (htrans : ∀ f g k, R f g → R g k → R f k)
    (b : Build) (rows cols n : Nat)
    (hstep : ∀ it f g p, Inner rows cols p → llsPixel b.fixed it (b.oob n it) f p = some g → R f g) (f g : Img)
    (h : round b .lamLeeSuen rows cols n f = some g) : R f g := by
  simp only [round, llsPass] at h
  cases e : (interior rows cols).foldlM (llsPixel b.fixed false (b.oob n false)) f with
  | none => rw [e] at h; cases h
  | some k =>
    rw [e, Option.bind_some] at h
    exact htrans _ _ _ (llsFold_rel R hrefl htrans _ _ _ _ (fun f g p hp => hstep false f g p (mem_interior _ _ _ hp)) _ _ e)
      (llsFold_rel R hrefl htrans _ _ _ _ (fun f g p hp => hstep true f g p (mem_interior _ _ _ hp)) _ _ h)

theorem round_ok (b : Build) (hb : Benign b) (mode : Mode) (rows cols n : Nat) (f g : Img)
    (h : round b mode rows cols n f = some g) : PassOK rows cols f g := by
  cases mode with
  | zhangSuen => injection h with h; subst h; exact (zsPass_ok _ _ _ _).trans (zsPass_ok _ _ _ _)
  | lamLeeSuen =>
    refine round_rel _ (PassOK.refl rows cols) (fun _ _ _ => PassOK.trans) b rows cols n ?_ f g h
    intro it f g p hp hs
    obtain ⟨v, hv⟩ := Option.isSome_iff_exists.1 (hb n it f p.1 p.2)
    exact llsPixel_ok rows cols _ _ _ f g p v hv hp hs

/-! ## The outer loop -/

theorem mem_pixels (rows cols : Nat) (p : Nat × Nat) : p ∈ pixels rows cols ↔ p.1 < rows ∧ p.2 < cols := by
  simp only [pixels, List.mem_flatMap, List.mem_map, List.mem_range]
  constructor
  · rintro ⟨y, hy, x, hx, rfl⟩; exact ⟨hy, hx⟩
  · rintro ⟨hy, hx⟩; exact ⟨p.1, hy, p.2, hx, rfl⟩

theorem same_iff (rows cols : Nat) (f g : Img) : same rows cols f g = true ↔ Same rows cols g f := by
  simp only [same, List.all_eq_true, mem_pixels, beq_iff_eq, Same]
  exact ⟨fun h y x hy hx => h (y, x) ⟨hy, hx⟩, fun h p hp => h p.1 p.2 hp.1 hp.2⟩

/-- Number of set pixels. -/
def count (rows cols : Nat) (f : Img) : Nat := (pixels rows cols).countP fun p => f p.1 p.2 != 0

theorem countP_lt {α : Type} (l : List α) (p q : α → Bool) (himp : ∀ a ∈ l, q a = true → p a = true)
    (hex : ∃ a ∈ l, p a = true ∧ q a = false) : l.countP q < l.countP p := by
  induction l with
  | nil => obtain ⟨a, ha, _⟩ := hex; cases ha
  | cons a l ih =>
    have hle : l.countP q ≤ l.countP p := List.countP_mono_left fun a ha => himp a (List.mem_cons_of_mem _ ha)
    rw [List.countP_cons, List.countP_cons]
    obtain ⟨c, hc, hpc, hqc⟩ := hex
    rcases List.mem_cons.1 hc with e | hc
    · subst e; rw [hpc, hqc]; simp; omega
    · have := ih (fun a ha => himp a (List.mem_cons_of_mem _ ha)) ⟨c, hc, hpc, hqc⟩
      have h1 := himp a List.mem_cons_self
      cases hq : q a with
      | false => simp only [Bool.false_eq_true, if_false]; omega
      | true => rw [h1 hq]; omega

/-- A pass either changes nothing or clears at least one pixel. -/
theorem PassOK.count {rows cols : Nat} {f g : Img} (h : PassOK rows cols f g) : g = f ∨ count rows cols g < count rows cols f := by
  by_cases e : ∀ p : Nat × Nat, g p.1 p.2 = f p.1 p.2
  · exact .inl (funext fun y => funext fun x => e (y, x))
  · push Not at e
    obtain ⟨p, hp⟩ := e
    refine .inr (countP_lt _ _ _ ?_ ⟨p, ?_, ?_, ?_⟩)
    · intro q _ hq
      rcases h.shr q with e' | ⟨e', _⟩
      · rw [← e']; exact hq
      · rw [e'] at hq; cases hq
    · rcases h.shr p with e' | ⟨_, hi⟩
      · exact absurd e' hp
      · rw [mem_pixels]; obtain ⟨_, _, _, _⟩ := hi; omega
    · rcases h.shr p with e' | ⟨e', _⟩
      · exact absurd e' hp
      · rw [bne_iff_ne]; intro h0; exact hp (e'.trans h0.symm)
    · rcases h.shr p with e' | ⟨e', _⟩
      · exact absurd e' hp
      · rw [e']; rfl

/-- Once the previous image is the current one, the loop ends within `count + 1` rounds. -/
theorem loop_done (b : Build) (hb : Benign b) (mode : Mode) (rows cols : Nat) (fuel : Nat) :
    ∀ n cur, count rows cols cur < fuel → ∃ out, loop b mode rows cols fuel n cur cur = .done out := by
  induction fuel with
  | zero => intro n cur h; omega
  | succ fuel ih =>
    intro n cur h
    obtain ⟨g, hg⟩ := round_some b hb mode rows cols n cur
    rw [loop, hg]
    dsimp only
    cases hs : same rows cols g cur with
    | true => exact ⟨g, rfl⟩
    | false =>
      have hok := round_ok b hb mode rows cols n cur g hg
      rcases hok.count with e | hlt
      · subst e
        rw [(same_iff rows cols g g).2 fun _ _ _ _ => rfl] at hs
        cases hs
      · exact ih (n + 1) g (by omega)

/-- Everything known about a finished loop. -/
theorem loop_inv (b : Build) (hb : Benign b) (mode : Mode) (rows cols : Nat) (R : Img → Img → Prop)
    (hrefl : ∀ f, R f f) (htrans : ∀ f g k, R f g → R g k → R f k)
    (hround : ∀ n f g, round b mode rows cols n f = some g → R f g) (fuel : Nat) :
    ∀ n prev cur out, loop b mode rows cols fuel n prev cur = .done out →
      R cur out ∧ PassOK rows cols cur out ∧
        (Same rows cols prev out ∧ (∃ m, round b mode rows cols m cur = some out) ∨
          ∃ m, round b mode rows cols m out = some out) := by
  induction fuel with
  | zero => intro n prev cur out h; cases h
  | succ fuel ih =>
    intro n prev cur out h
    obtain ⟨g, hg⟩ := round_some b hb mode rows cols n cur
    have hok := round_ok b hb mode rows cols n cur g hg
    rw [loop, hg] at h
    dsimp only at h
    cases hs : same rows cols g prev with
    | true =>
      rw [hs] at h
      injection h with h
      subst h
      exact ⟨hround n _ _ hg, hok, .inl ⟨(same_iff _ _ _ _).1 hs, n, hg⟩⟩
    | false =>
      rw [hs] at h
      obtain ⟨h1, h2, h3⟩ := ih (n + 1) g g out h
      refine ⟨htrans _ _ _ (hround n _ _ hg) h1, hok.trans h2, .inr ?_⟩
      rcases h3 with ⟨h3, m, hm⟩ | h3
      · -- the round gave the same pixels as before, hence changed nothing
        have e : out = g := by
          have h2' := round_ok b hb mode rows cols m g out hm
          rcases h2'.count with e | hlt
          · exact e
          · exfalso
            have : count rows cols out = count rows cols g := by
              unfold count
              apply List.countP_congr
              intro p hp
              rw [mem_pixels] at hp
              rw [h3 p.1 p.2 hp.1 hp.2]
            omega
        exact ⟨m, by rw [e] at hm ⊢; exact hm⟩
      · exact h3

/-! ## Connectivity -/

/-- One step of set pixels inside the image. -/
abbrev Step (rows cols : Nat) (f : Img) (a b : Nat × Nat) : Prop := Adj a b ∧ IsSet rows cols f b

abbrev Path (rows cols : Nat) (f : Img) := Relation.ReflTransGen (Step rows cols f)

theorem Adj.symm {p q : Nat × Nat} (h : Adj p q) : Adj q p := ⟨fun e => h.1 e.symm, h.2.2.1, h.2.1, h.2.2.2.2, h.2.2.2.1⟩

theorem Path.isSet {rows cols : Nat} {f : Img} {a b : Nat × Nat} (h : Path rows cols f a b) (ha : IsSet rows cols f a) :
    IsSet rows cols f b := by
  cases h with
  | refl => exact ha
  | tail _ h => exact h.2

theorem Path.symm {rows cols : Nat} {f : Img} {a b : Nat × Nat} (h : Path rows cols f a b) (ha : IsSet rows cols f a) :
    Path rows cols f b a := by
  induction h with
  | refl => exact .refl
  | tail hab hbc ih =>
    exact Relation.ReflTransGen.head ⟨Adj.symm hbc.1, Path.isSet hab ha⟩ ih

theorem Path.mono {rows cols : Nat} {f g : Img} (h : ∀ p, IsSet rows cols g p → IsSet rows cols f p) {a b : Nat × Nat}
    (hp : Path rows cols g a b) : Path rows cols f a b := by
  induction hp with
  | refl => exact .refl
  | tail _ h' ih => exact ih.tail ⟨h'.1, h _ h'.2⟩

/-- Going once around the pixel: the following set neighbour touching this one, if any. -/
def next (b : Fin 8 → Bool) (k : Fin 8) : Fin 8 :=
  bif b (k + 1) then k + 1 else bif (k.val % 2 == 0) && b (k + 2) then k + 2 else k

def walk (b : Fin 8 → Bool) : Nat → Fin 8 → Fin 8
  | 0, k => k
  | n + 1, k => walk b n (next b k)

/-- When the crossing number is one, all set neighbours lead to the same last one. -/
theorem walk_meet : ∀ b0 b1 b2 b3 b4 b5 b6 b7, xhB (vec b0 b1 b2 b3 b4 b5 b6 b7) b0 = 1 →
    ∀ k l : Fin 8, vec b0 b1 b2 b3 b4 b5 b6 b7 k = true → vec b0 b1 b2 b3 b4 b5 b6 b7 l = true →
      walk (vec b0 b1 b2 b3 b4 b5 b6 b7) 7 k = walk (vec b0 b1 b2 b3 b4 b5 b6 b7) 7 l := by
  decide +kernel

theorem nb_adj_succ (p : Nat × Nat) (h1 : 1 ≤ p.1) (h2 : 1 ≤ p.2) : ∀ k, Adj (nb p k) (nb p (k + 1)) := by
  apply fin8
  obtain ⟨a, b⟩ := p
  refine ⟨?_, ?_, ?_, ?_, ?_, ?_, ?_, ?_⟩ <;> simp only [nb, Adj, ne_eq, Prod.mk.injEq, Fin.reduceAdd] at * <;> omega

theorem nb_adj_even (p : Nat × Nat) (h1 : 1 ≤ p.1) (h2 : 1 ≤ p.2) : ∀ k : Fin 8, k.val % 2 = 0 → Adj (nb p k) (nb p (k + 2)) := by
  apply fin8
  obtain ⟨a, b⟩ := p
  refine ⟨?_, ?_, ?_, ?_, ?_, ?_, ?_, ?_⟩ <;> intro hk <;> first | (exact absurd hk (by decide)) | skip
  all_goals simp only [nb, Adj, ne_eq, Prod.mk.injEq, Fin.reduceAdd] at *
  all_goals omega

theorem isSet_set (rows cols : Nat) (f : Img) (p q : Nat × Nat) :
    IsSet rows cols (set f p.1 p.2 0) q ↔ IsSet rows cols f q ∧ q ≠ p := by
  simp only [IsSet, set_apply]
  by_cases h : q = p
  · simp [h]
  · rw [if_neg h]; tauto

theorem nb_set (rows cols : Nat) (f : Img) (p : Nat × Nat) (hi : Inner rows cols p) (k : Fin 8) (hk : bits f p k = true) :
    IsSet rows cols (set f p.1 p.2 0) (nb p k) :=
  (isSet_set rows cols f p _).2 ⟨(bits_isSet rows cols f p hi k).1 hk, fun e => (nb_adj p hi.1 hi.2.2.1 k).1 e.symm⟩

theorem walk_path (rows cols : Nat) (f : Img) (p : Nat × Nat) (hi : Inner rows cols p) (n : Nat) : ∀ k, bits f p k = true →
    Path rows cols (set f p.1 p.2 0) (nb p k) (nb p (walk (bits f p) n k)) := by
  induction n with
  | zero => intro k _; exact .refl
  | succ n ih =>
    intro k hk
    rw [walk, next]
    by_cases h1 : bits f p (k + 1) = true
    · rw [h1, cond_true]
      exact Relation.ReflTransGen.head ⟨nb_adj_succ p hi.1 hi.2.2.1 k, nb_set rows cols f p hi _ h1⟩ (ih _ h1)
    · rw [Bool.not_eq_true] at h1
      rw [h1, cond_false]
      by_cases h2 : ((k.val % 2 == 0) && bits f p (k + 2)) = true
      · rw [h2, cond_true]
        rw [Bool.and_eq_true, beq_iff_eq] at h2
        exact Relation.ReflTransGen.head ⟨nb_adj_even p hi.1 hi.2.2.1 k h2.1, nb_set rows cols f p hi _ h2.2⟩ (ih _ h2.2)
      · rw [Bool.not_eq_true] at h2
        rw [h2, cond_false]
        exact ih k hk

/-- The set neighbours of a pixel with crossing number one are connected without it. -/
theorem nb_path (rows cols : Nat) (f : Img) (p : Nat × Nat) (hi : Inner rows cols p) (hx : xhB (bits f p) (bits f p 0) = 1)
    (k l : Fin 8) (hk : bits f p k = true) (hl : bits f p l = true) :
    Path rows cols (set f p.1 p.2 0) (nb p k) (nb p l) := by
  have h1 := walk_path rows cols f p hi 7 k hk
  have h2 := walk_path rows cols f p hi 7 l hl
  have e : walk (bits f p) 7 k = walk (bits f p) 7 l := by
    have := walk_meet (bits f p 0) (bits f p 1) (bits f p 2) (bits f p 3) (bits f p 4) (bits f p 5) (bits f p 6) (bits f p 7)
    rw [vec_eta] at this
    exact this hx k l hk hl
  rw [e] at h1
  exact h1.trans (Path.symm h2 (nb_set rows cols f p hi l hl))

theorem SameComponents.refl (rows cols : Nat) (f : Img) : SameComponents rows cols f f :=
  ⟨fun _ h => h, fun _ _ _ _ => Iff.rfl, fun p h => ⟨p, h, h, .refl⟩⟩

theorem SameComponents.trans {rows cols : Nat} {f g k : Img} (h1 : SameComponents rows cols f g)
    (h2 : SameComponents rows cols g k) : SameComponents rows cols f k := by
  refine ⟨fun p hp => h1.subset p (h2.subset p hp), fun p q hp hq => ?_, fun p hp => ?_⟩
  · exact (h2.linked p q hp hq).trans (h1.linked p q (h2.subset p hp) (h2.subset q hq))
  · obtain ⟨q, hq, hpq⟩ := h1.inhabited p hp
    obtain ⟨r, hr, hqr⟩ := h2.inhabited q hq
    exact ⟨r, hr, hp, hpq.2.trans ((h1.linked q r hq (h2.subset r hr)).1 hqr).2⟩

/-- Removing a pixel with crossing number one keeps the components. -/
theorem remove_simple (rows cols : Nat) (f : Img) (p : Nat × Nat) (hi : Inner rows cols p) (hp : IsSet rows cols f p)
    (hx : xhB (bits f p) (bits f p 0) = 1) : SameComponents rows cols f (set f p.1 p.2 0) := by
  have hsub : ∀ q, IsSet rows cols (set f p.1 p.2 0) q → IsSet rows cols f q := fun q hq => ((isSet_set rows cols f p q).1 hq).1
  have hex : ∃ k, bits f p k = true := by
    by_contra hne
    push Not at hne
    simp only [Bool.not_eq_true] at hne
    simp only [xhB, hne] at hx
    exact absurd hx (by decide)
  refine ⟨hsub, fun a c ha hc => ⟨fun h => ⟨hsub a ha, Path.mono hsub h.2⟩, fun h => ⟨ha, ?_⟩⟩, fun a ha => ?_⟩
  · have hap := ((isSet_set rows cols f p a).1 ha).2
    have key : ∀ d, Path rows cols f a d →
        (d ≠ p → Path rows cols (set f p.1 p.2 0) a d) ∧
        (d = p → ∃ k, bits f p k = true ∧ Path rows cols (set f p.1 p.2 0) a (nb p k)) := by
      intro d hd
      induction hd with
      | refl => exact ⟨fun _ => .refl, fun e => absurd e hap⟩
      | @tail d e hd he ih =>
        refine ⟨fun hne => ?_, fun heq => ?_⟩
        · by_cases hdp : d = p
          · obtain ⟨k, hk, hak⟩ := ih.2 hdp
            subst hdp
            obtain ⟨l, rfl⟩ := adj_nb d e hi.1 hi.2.2.1 he.1
            exact hak.trans (nb_path rows cols f d hi hx k l hk ((bits_isSet rows cols f d hi l).2 he.2))
          · exact (ih.1 hdp).tail ⟨he.1, (isSet_set rows cols f p e).2 ⟨he.2, hne⟩⟩
        · subst heq
          have hdp : d ≠ e := he.1.1
          obtain ⟨k, hk⟩ := adj_nb e d hi.1 hi.2.2.1 (Adj.symm he.1)
          have hda := ih.1 hdp
          refine ⟨k, ?_, hk ▸ hda⟩
          rw [bits_isSet rows cols f e hi, ← hk]
          exact hsub d (Path.isSet hda ha)
    exact (key c h.2).1 ((isSet_set rows cols f p c).1 hc).2
  · by_cases hap : a = p
    · obtain ⟨k, hk⟩ := hex
      subst hap
      have := (bits_isSet rows cols f a hi k).1 hk
      exact ⟨nb a k, nb_set rows cols f a hi k hk, ha, .single ⟨nb_adj a hi.1 hi.2.2.1 k, this⟩⟩
    · exact ⟨a, (isSet_set rows cols f p a).2 ⟨ha, hap⟩, ha, .refl⟩

theorem llsB_xh (it : Bool) (b : Fin 8 → Bool) (g : Bool) (h : llsB false it b g = true) : xhB b g = 1 := by
  simp only [llsB, cond_false, Nat.add_zero, Bool.and_eq_true, decide_eq_true_eq] at h
  exact h.1.1.1

theorem round_components (rows cols n : Nat) (f g : Img) (h : round intended .lamLeeSuen rows cols n f = some g) :
    SameComponents rows cols f g := by
  refine round_rel _ (SameComponents.refl rows cols) (fun _ _ _ => SameComponents.trans) intended rows cols n ?_ f g h
  intro it f g p hp hs
  rcases llsPixel_cases _ _ _ f g p (f (p.1 + 1) p.2) rfl hs with e | ⟨e, hn, hb⟩
  · subst e; exact SameComponents.refl _ _ _
  · subst e
    exact remove_simple rows cols f p hp ⟨by have := hp.2.1; omega, by have := hp.2.2.2; omega, hn⟩ (llsB_xh it _ _ hb)

/-! ## Undefined behaviour of the out-of-bounds read -/

theorem llsDecide_strict (fixed it : Bool) (f : Img) (p : Nat × Nat) :
    llsDecide fixed it (lut f p.1 p.2) none = none ↔ f (p.1 + 1) (p.2 + 1) = 0 := by
  have hor : ∀ a : Bool, orM (some a) none = if a then some true else none := by intro a; cases a <;> rfl
  by_cases h : f (p.1 + 1) (p.2 + 1) = 0
  · have : (f (p.1 + 1) (p.2 + 1) != 0) = false := by rw [h]; rfl
    simp only [h, iff_true]
    rw [llsDecide, Option.map_eq_none_iff, counters]
    have h2 : (sum4 fun k => orM (rd (lut f p.1 p.2) none (2 * (k + 1) - 1)) (rd (lut f p.1 p.2) none (2 * (k + 1)))) = none := by
      simp [sum4, rd, lut, orM_some, hor, h]
    rw [h2]
    cases (sum4 fun k => norM (rd (lut f p.1 p.2) none (2 * (k + 1) - 2))
      (orM (rd (lut f p.1 p.2) none (2 * (k + 1) - 1)) (rd (lut f p.1 p.2) none (2 * (k + 1))))) with
    | none => rfl
    | some a =>
      rw [Option.bind_some]
      cases (sum4 fun k => orM (rd (lut f p.1 p.2) none (2 * (k + 1) - 2)) (rd (lut f p.1 p.2) none (2 * (k + 1) - 1))) <;> rfl
  · have : (f (p.1 + 1) (p.2 + 1) != 0) = true := bne_iff_ne.2 h
    have h' : ¬f (p.1 + 1) (p.2 + 1) = 0#8 := h
    simp only [h, iff_false]
    cases fixed <;>
    simp [llsDecide, counters, sum4, rd, lut, orM_some, norM_some, hor, h']

theorem llsPixel_strict (fixed it : Bool) (f g : Img) (p : Nat × Nat)
    (h : llsPixel fixed it (fun _ _ _ => none) f p = some g) : g = f ∨ g = set f p.1 p.2 0 := by
  rw [llsPixel] at h
  split at h
  · injection h with h; exact .inl h.symm
  · rw [Option.map_eq_some_iff] at h
    obtain ⟨d, _, h⟩ := h
    split at h
    · exact .inr h.symm
    · exact .inl h.symm

theorem llsFold_strict (fixed it : Bool) (p : Nat × Nat) (l : List (Nat × Nat)) (hp : p ∈ l) :
    ∀ f : Img, f p.1 p.2 ≠ 0 → f (p.1 + 1) (p.2 + 1) = 0 → l.foldlM (llsPixel fixed it (fun _ _ _ => none)) f = none := by
  induction l with
  | nil => cases hp
  | cons q l ih =>
    intro f h1 h2
    rw [List.foldlM_cons]
    by_cases e : q = p
    · subst e
      have : llsPixel fixed it (fun _ _ _ => none) f q = none := by
        rw [llsPixel, if_neg h1, (llsDecide_strict fixed it f q).2 h2]; rfl
      rw [this]; rfl
    · cases hs : llsPixel fixed it (fun _ _ _ => none) f q with
      | none => rfl
      | some g =>
        have hl : p ∈ l := by
          rcases List.mem_cons.1 hp with h | h
          · exact absurd h.symm e
          · exact h
        refine ih hl g ?_ ?_
        · rcases llsPixel_strict fixed it f g q hs with e' | e' <;> subst e'
          · exact h1
          · rw [set_apply, if_neg (fun h => e h.symm)]; exact h1
        · rcases llsPixel_strict fixed it f g q hs with e' | e' <;> subst e'
          · exact h2
          · have := set_apply f q (p.1 + 1, p.2 + 1) 0
            dsimp only at this
            rw [this]
            split
            · rfl
            · exact h2

/-! ## More about the loop -/

theorem loop_zs (b b' : Build) (rows cols fuel : Nat) : ∀ n prev cur,
    loop b .zhangSuen rows cols fuel n prev cur = loop b' .zhangSuen rows cols fuel n prev cur := by
  induction fuel with
  | zero => intros; rfl
  | succ fuel ih =>
    intro n prev cur
    rw [loop, loop]
    simp only [round]
    rw [ih]

theorem loop_more (b : Build) (mode : Mode) (rows cols k fuel : Nat) : ∀ n prev cur out,
    loop b mode rows cols fuel n prev cur = .done out → loop b mode rows cols (fuel + k) n prev cur = .done out := by
  induction fuel with
  | zero => intro n prev cur out h; cases h
  | succ fuel ih =>
    intro n prev cur out h
    rw [Nat.add_right_comm, loop]
    rw [loop] at h
    cases hr : round b mode rows cols n cur with
    | none => rw [hr] at h; cases h
    | some g =>
      rw [hr] at h
      dsimp only at h ⊢
      cases hs : same rows cols g prev with
      | true => rw [hs] at h; exact h
      | false => rw [hs] at h; exact ih _ _ _ _ h

theorem benign_intended : Benign intended := fun _ _ _ _ _ => rfl

theorem steady_intended : Steady intended := ⟨benign_intended, fun _ _ => rfl⟩

/-- In Zhang-Suen mode the build does not matter. -/
theorem thins_zs (b b' : Build) (rows cols : Nat) (f out : Img) (h : Thins b .zhangSuen rows cols f out) :
    Thins b' .zhangSuen rows cols f out := by
  obtain ⟨fuel, h⟩ := h
  refine ⟨fuel, ?_⟩
  rw [thinning] at h ⊢
  rw [loop_zs b' b]
  exact h

theorem thins_size {b : Build} {mode : Mode} {rows cols : Nat} {f out : Img} (h : Thins b mode rows cols f out) :
    (rows > 3 ∧ cols > 3) ∧ ∃ fuel, loop b mode rows cols fuel 0 (fun _ _ => 0) f = .done out := by
  obtain ⟨fuel, h⟩ := h
  rw [thinning] at h
  split at h
  · injection h with h; exact ⟨by assumption, fuel, h⟩
  · cases h

theorem round_steady (b : Build) (hb : Steady b) (mode : Mode) (rows cols n m : Nat) (f : Img) :
    round b mode rows cols n f = round b mode rows cols m f := by
  cases mode with
  | zhangSuen => rfl
  | lamLeeSuen => simp only [round, hb.2 n m]

/-- A result is a fixed point of the rounds. -/
theorem thins_fixed (b : Build) (hb : Steady b) (mode : Mode) (rows cols : Nat) (f out : Img)
    (h : Thins b mode rows cols f out) (n : Nat) : round b mode rows cols n out = some out := by
  obtain ⟨_, fuel, h⟩ := thins_size h
  obtain ⟨-, -, h3⟩ := loop_inv b hb.1 mode rows cols (fun _ _ => True) (fun _ => trivial) (fun _ _ _ _ _ => trivial)
    (fun _ _ _ _ => trivial) fuel 0 _ f out h
  rcases h3 with ⟨hz, -⟩ | ⟨m, hm⟩
  · obtain ⟨g, hg⟩ := round_some b hb.1 mode rows cols n out
    rw [hg]
    congr 1
    rcases (round_ok b hb.1 mode rows cols n out g hg).count with e | hlt
    · exact e
    · have : count rows cols out = 0 := by
        unfold count
        rw [List.countP_eq_zero]
        intro p hp
        rw [mem_pixels] at hp
        rw [hz p.1 p.2 hp.1 hp.2]
        exact Bool.false_ne_true
      omega
  · rw [round_steady b hb mode rows cols n m]; exact hm

/-! ## Fixed points satisfy no removal condition -/

theorem PassOK.antisymm {rows cols : Nat} {f g : Img} (h1 : PassOK rows cols f g) (h2 : PassOK rows cols g f) : g = f := by
  rcases h1.count with e | l1
  · exact e
  · rcases h2.count with e | l2
    · exact e.symm
    · omega

theorem ring_bits (f : Img) (p : Nat × Nat) :
    ring f p.1 p.2 = [bits f p 4, bits f p 5, bits f p 6, bits f p 7, bits f p 0, bits f p 1, bits f p 2, bits f p 3] := rfl

theorem zsB_ring : ∀ it b0 b1 b2 b3 b4 b5 b6 b7, ZhangSuenRemoves it [b4, b5, b6, b7, b0, b1, b2, b3] →
    zsB it (vec b0 b1 b2 b3 b4 b5 b6 b7) = true := by decide +kernel

theorem ring_zsB : ∀ it b0 b1 b2 b3 b4 b5 b6 b7, zsB it (vec b0 b1 b2 b3 b4 b5 b6 b7) = true →
    ZhangSuenRemoves it [b4, b5, b6, b7, b0, b1, b2, b3] := by decide +kernel

theorem llsB_ring : ∀ it b0 b1 b2 b3 b4 b5 b6 b7, LamLeeSuenRemoves it [b4, b5, b6, b7, b0, b1, b2, b3] →
    llsB false it (vec b0 b1 b2 b3 b4 b5 b6 b7) b0 = true := by decide +kernel

theorem ring_llsB : ∀ it b0 b1 b2 b3 b4 b5 b6 b7, llsB false it (vec b0 b1 b2 b3 b4 b5 b6 b7) b0 = true →
    LamLeeSuenRemoves it [b4, b5, b6, b7, b0, b1, b2, b3] := by decide +kernel

theorem zsB_of_removes (it : Bool) (f : Img) (p : Nat × Nat) (h : ZhangSuenRemoves it (ring f p.1 p.2)) :
    zsB it (bits f p) = true := by
  rw [ring_bits] at h
  have := zsB_ring it _ _ _ _ _ _ _ _ h
  rwa [vec_eta] at this

theorem llsB_of_removes (it : Bool) (f : Img) (p : Nat × Nat) (h : LamLeeSuenRemoves it (ring f p.1 p.2)) :
    llsB false it (bits f p) (bits f p 0) = true := by
  rw [ring_bits] at h
  have := llsB_ring it _ _ _ _ _ _ _ _ h
  rwa [vec_eta] at this

theorem zsPass_fix (rows cols : Nat) (it : Bool) (f : Img) (h : zsPass rows cols it f = f) (p : Nat × Nat)
    (hi : Inner rows cols p) (hp : f p.1 p.2 ≠ 0) : ¬ZhangSuenRemoves it (ring f p.1 p.2) := by
  intro hr
  have hz := zsPass_apply rows cols it f p.1 p.2
  obtain ⟨_, _, _, _⟩ := hi
  rw [if_pos ⟨by omega, by omega, by omega, by omega, by rw [zsAt_bits]; exact zsB_of_removes it f p hr⟩, h] at hz
  exact hp hz

theorem llsFold_fix (rows cols : Nat) (fixed it : Bool) (oob : Img → Nat → Nat → Option (BitVec 8))
    (hb : ∀ f i j, (oob f i j).isSome) (l : List (Nat × Nat)) (hl : ∀ p ∈ l, Inner rows cols p) (f : Img)
    (h : l.foldlM (llsPixel fixed it oob) f = some f) : ∀ p ∈ l, llsPixel fixed it oob f p = some f := by
  have hok : ∀ f g p, Inner rows cols p → llsPixel fixed it oob f p = some g → PassOK rows cols f g := by
    intro f g p hi hs
    obtain ⟨v, hv⟩ := Option.isSome_iff_exists.1 (hb f p.1 p.2)
    exact llsPixel_ok rows cols _ _ _ f g p v hv hi hs
  induction l with
  | nil => intro p hp; cases hp
  | cons q l ih =>
    rw [List.foldlM_cons] at h
    cases e : llsPixel fixed it oob f q with
    | none => rw [e] at h; cases h
    | some k =>
      rw [e] at h
      have h1 := hok f k q (hl q List.mem_cons_self) e
      have h2 := llsFold_rel _ (PassOK.refl rows cols) (fun _ _ _ => PassOK.trans) fixed it oob l
        (fun f g p hp => hok f g p (hl p (List.mem_cons_of_mem _ hp))) k f h
      have hk := PassOK.antisymm h1 h2
      subst hk
      intro p hp
      rcases List.mem_cons.1 hp with hp | hp
      · subst hp; exact e
      · exact ih (fun p hp => hl p (List.mem_cons_of_mem _ hp)) h p hp

theorem llsPass_fix (rows cols : Nat) (it : Bool) (f : Img)
    (h : llsPass rows cols false it (fun f i j => some (f (i + 1) j)) f = some f) (p : Nat × Nat)
    (hi : Inner rows cols p) (hp : f p.1 p.2 ≠ 0) : ¬LamLeeSuenRemoves it (ring f p.1 p.2) := by
  intro hr
  have := llsFold_fix rows cols false it _ (fun _ _ _ => rfl) (interior rows cols) (mem_interior rows cols) f h p
    (interior_mem rows cols p hi)
  rw [llsPixel, if_neg hp, llsDecide_some, Option.map_some] at this
  have hb := llsB_of_removes it f p hr
  have e : bits f p 0 = (f (p.1 + 1) p.2 != 0) := rfl
  rw [e] at hb
  rw [hb] at this
  injection this with this
  have h0 := congrFun (congrFun this p.1) p.2
  rw [if_pos rfl, set_apply, if_pos rfl] at h0
  exact hp h0.symm

theorem round_zs_fix (b : Build) (rows cols n : Nat) (f : Img) (h : round b .zhangSuen rows cols n f = some f) (it : Bool) :
    zsPass rows cols it f = f := by
  simp only [round, Option.some.injEq] at h
  have h1 := zsPass_ok rows cols false f
  have h2 := zsPass_ok rows cols true (zsPass rows cols false f)
  rw [h] at h2
  have e := PassOK.antisymm h1 h2
  cases it with
  | false => exact e
  | true => rw [e] at h; exact h

theorem round_lls_fix (rows cols n : Nat) (f : Img) (h : round intended .lamLeeSuen rows cols n f = some f) (it : Bool) :
    llsPass rows cols false it (fun f i j => some (f (i + 1) j)) f = some f := by
  have hok : ∀ it f g, llsPass rows cols false it (fun f i j => some (f (i + 1) j)) f = some g → PassOK rows cols f g := by
    intro it f g hg
    refine llsFold_rel _ (PassOK.refl rows cols) (fun _ _ _ => PassOK.trans) false it _ _ ?_ f g hg
    intro f g p hp hs
    exact llsPixel_ok rows cols _ _ _ f g p _ rfl (mem_interior _ _ _ hp) hs
  simp only [round, intended] at h
  cases e : llsPass rows cols false false (fun f i j => some (f (i + 1) j)) f with
  | none => rw [e] at h; cases h
  | some k =>
    rw [e, Option.bind_some] at h
    have hk := PassOK.antisymm (hok _ _ _ e) (hok _ _ _ h)
    subst hk
    cases it with
    | false => exact e
    | true => exact h

end Litiv.Thinning
