import Verif.Spec.Maxima
import Mathlib.Tactic.Ring
import Mathlib.Data.Nat.Basic
import Mathlib.Data.List.Induction

namespace Litiv.Maxima
open Spec

/-! ## Non-maximum suppression -/

theorem mem_region (y0 y1 x0 x1 : Nat) (p : Nat × Nat) :
    p ∈ region y0 y1 x0 x1 ↔ y0 ≤ p.1 ∧ p.1 < y1 ∧ x0 ≤ p.2 ∧ p.2 < x1 := by
  obtain ⟨a, b⟩ := p
  simp only [region, List.mem_flatMap, List.mem_map, List.mem_range'_1, Prod.mk.injEq]
  constructor
  · rintro ⟨y, hy, x, hx, rfl, rfl⟩
    omega
  · intro h
    exact ⟨a, by omega, b, by omega, rfl, rfl⟩

theorem maxLoc_fold (f : Vals) (l : List (Nat × Nat)) : ∀ b : Nat × Nat, ∃ c,
    l.foldl (fun (best : Option (Nat × Nat)) (p : Nat × Nat) =>
      match best with
      | none => some p
      | some b => if f p.1 p.2 > f b.1 b.2 then some p else some b) (some b) = some c ∧
    ∃ l1 l2, b :: l = l1 ++ c :: l2 ∧ (∀ p ∈ l1, f p.1 p.2 < f c.1 c.2) ∧ ∀ p ∈ l2, f p.1 p.2 ≤ f c.1 c.2 := by
  induction l using List.reverseRecOn with
  | nil => intro b; exact ⟨b, rfl, [], [], rfl, by simp, by simp⟩
  | append_singleton l a ih =>
    intro b
    obtain ⟨c, hc, l1, l2, hl, h1, h2⟩ := ih b
    rw [List.foldl_append, hc]
    simp only [List.foldl_cons, List.foldl_nil]
    by_cases h : f a.1 a.2 > f c.1 c.2
    · rw [if_pos h]
      refine ⟨a, rfl, b :: l, [], by simp, ?_, by simp⟩
      rw [hl]
      intro p hp
      rcases List.mem_append.1 hp with h' | h'
      · have := h1 p h'; omega
      · rcases List.mem_cons.1 h' with rfl | h''
        · exact h
        · have := h2 p h''; omega
    · rw [if_neg h]
      refine ⟨c, rfl, l1, l2 ++ [a], ?_, h1, ?_⟩
      · rw [← List.cons_append, hl]; simp
      · intro p hp
        rcases List.mem_append.1 hp with h' | h'
        · exact h2 p h'
        · rw [List.mem_singleton] at h'; subst h'; omega

theorem maxLoc_nil (f : Vals) : maxLoc f [] = none := rfl

theorem maxLoc_cons (f : Vals) (b : Nat × Nat) (l : List (Nat × Nat)) : ∃ c, maxLoc f (b :: l) = some c ∧
    ∃ l1 l2, b :: l = l1 ++ c :: l2 ∧ (∀ p ∈ l1, f p.1 p.2 < f c.1 c.2) ∧ ∀ p ∈ l2, f p.1 p.2 ≤ f c.1 c.2 := by
  unfold maxLoc
  rw [List.foldl_cons]
  exact maxLoc_fold f l b

theorem maxLoc_some {f : Vals} {l : List (Nat × Nat)} {c : Nat × Nat} (h : maxLoc f l = some c) :
    ∃ l1 l2, l = l1 ++ c :: l2 ∧ (∀ p ∈ l1, f p.1 p.2 < f c.1 c.2) ∧ ∀ p ∈ l2, f p.1 p.2 ≤ f c.1 c.2 := by
  cases l with
  | nil => rw [maxLoc_nil] at h; cases h
  | cons b l =>
    obtain ⟨c', hc, h'⟩ := maxLoc_cons f b l
    rw [hc] at h
    injection h with h
    subst h
    exact h'

theorem maxLoc_mem {f : Vals} {l : List (Nat × Nat)} {c : Nat × Nat} (h : maxLoc f l = some c) :
    c ∈ l ∧ ∀ p ∈ l, f p.1 p.2 ≤ f c.1 c.2 := by
  obtain ⟨l1, l2, rfl, h1, h2⟩ := maxLoc_some h
  refine ⟨by simp, fun p hp => ?_⟩
  rcases List.mem_append.1 hp with h' | h'
  · exact Int.le_of_lt (h1 p h')
  · rcases List.mem_cons.1 h' with rfl | h''
    · exact Int.le_refl _
    · exact h2 p h''

theorem maxLoc_none {f : Vals} {l : List (Nat × Nat)} (h : maxLoc f l = none) : l = [] := by
  cases l with
  | nil => rfl
  | cons b l =>
    obtain ⟨c, hc, _⟩ := maxLoc_cons f b l
    rw [hc] at h; cases h

/-- The maximum of a list is exceeded iff every element is, and zero if there is none. -/
theorem lt_maxVal (f : Vals) (l : List (Nat × Nat)) (v : Int) :
    v > maxVal f (maxLoc f l) ↔ (∀ p ∈ l, f p.1 p.2 < v) ∧ (l = [] → 0 < v) := by
  cases h : maxLoc f l with
  | none =>
    have := maxLoc_none h
    subst this
    simp [maxVal]
  | some c =>
    obtain ⟨hm, hle⟩ := maxLoc_mem h
    simp only [maxVal]
    constructor
    · intro hv
      refine ⟨fun p hp => ?_, fun he => by rw [he] at hm; cases hm⟩
      have := hle p hp
      omega
    · intro ⟨h1, _⟩
      exact h1 c hm

theorem maxVal_nonneg (f : Vals) (l : List (Nat × Nat)) (h : ∀ p ∈ l, 0 ≤ f p.1 p.2) : 0 ≤ maxVal f (maxLoc f l) := by
  cases hm : maxLoc f l with
  | none => exact Int.le_refl _
  | some c => exact h c (maxLoc_mem hm).1

/-- The selected pixels of a block. -/
def blockSel (rows cols w : Nat) (mask : Nat → Nat → Bool) (m n : Nat) : List (Nat × Nat) :=
  (region m (min (m + w + 1) rows) n (min (n + w + 1) cols)).filter fun (p : Nat × Nat) => mask p.1 p.2

theorem mem_blockSel (rows cols w : Nat) (mask : Nat → Nat → Bool) (m n : Nat) (p : Nat × Nat) :
    p ∈ blockSel rows cols w mask m n ↔ Selected rows cols mask p ∧ m ≤ p.1 ∧ p.1 < m + w + 1 ∧ n ≤ p.2 ∧ p.2 < n + w + 1 := by
  rw [blockSel, List.mem_filter, mem_region, Selected]
  constructor
  · rintro ⟨h, hm⟩
    exact ⟨⟨by omega, by omega, hm⟩, by omega, by omega, by omega, by omega⟩
  · rintro ⟨⟨h1, h2, h3⟩, h⟩
    exact ⟨by omega, h3⟩

theorem mem_others (rows cols w : Nat) (mask : Nat → Nat → Bool) (m n : Nat) (p : Nat × Nat)
    (hm : m ≤ p.1) (hm' : p.1 < m + w + 1) (hn : n ≤ p.2) (hn' : p.2 < n + w + 1) (q : Nat × Nat) :
    q ∈ others rows cols w mask m n ((p.1 : Int), (p.2 : Int)) ↔
      Selected rows cols mask q ∧ Near w p q ∧ ¬ (m ≤ q.1 ∧ q.1 < m + w + 1 ∧ n ≤ q.2 ∧ q.2 < n + w + 1) := by
  simp only [others, List.mem_filter, mem_region, Bool.and_eq_true, Bool.not_eq_true', Bool.and_eq_false_iff, decide_eq_false_iff_not,
    Selected, Near]
  constructor
  · rintro ⟨h1, h2, h3⟩
    refine ⟨⟨by omega, by omega, h2⟩, ⟨by omega, by omega, by omega, by omega⟩, ?_⟩
    omega
  · rintro ⟨⟨h1, h2, h3⟩, h4, h5⟩
    refine ⟨by omega, h3, ?_⟩
    omega

/-- What a block with a selected pixel does. -/
theorem blockMark_some {rows cols w : Nat} {f : Vals} {mask : Nat → Nat → Bool} {m n : Nat} {p : Nat × Nat}
    (h : maxLoc f (blockSel rows cols w mask m n) = some p) :
    blockMark rows cols w f mask m n =
      some (if f p.1 p.2 > maxVal f (maxLoc f (others rows cols w mask m n ((p.1 : Int), (p.2 : Int)))) then some p else none) := by
  unfold blockMark
  rw [show (region m (min (m + w + 1) rows) n (min (n + w + 1) cols)).filter (fun (p : Nat × Nat) => mask p.1 p.2) =
    blockSel rows cols w mask m n from rfl, h]
  show (if f p.1 p.2 > maxVal f (maxLoc f (others rows cols w mask m n ((p.1 : Int), (p.2 : Int)))) then
    (if 0 ≤ (p.1 : Int) ∧ 0 ≤ (p.2 : Int) then some (some ((p.1 : Int).toNat, (p.2 : Int).toNat)) else none) else some none) = _
  by_cases hgt : f p.1 p.2 > maxVal f (maxLoc f (others rows cols w mask m n ((p.1 : Int), (p.2 : Int))))
  · rw [if_pos hgt, if_pos hgt, if_pos ⟨by omega, by omega⟩]; rfl
  · rw [if_neg hgt, if_neg hgt]

theorem mem_others_inside (rows cols w : Nat) (mask : Nat → Nat → Bool) (m n : Nat) (cc : Int × Int) (q : Nat × Nat)
    (h : q ∈ others rows cols w mask m n cc) : Selected rows cols mask q := by
  simp only [others, List.mem_filter, mem_region, Bool.and_eq_true] at h
  obtain ⟨h1, h2, _⟩ := h
  exact ⟨by omega, by omega, h2⟩

theorem blockMark_none {rows cols w : Nat} {f : Vals} {mask : Nat → Nat → Bool} {m n : Nat}
    (hpos : ∀ p, Selected rows cols mask p → 0 ≤ f p.1 p.2)
    (h : maxLoc f (blockSel rows cols w mask m n) = none) : blockMark rows cols w f mask m n = some none := by
  unfold blockMark
  rw [show (region m (min (m + w + 1) rows) n (min (n + w + 1) cols)).filter (fun (p : Nat × Nat) => mask p.1 p.2) =
    blockSel rows cols w mask m n from rfl, h]
  have := maxVal_nonneg f (others rows cols w mask m n (candidate m n none)) fun p hp => hpos p (mem_others_inside _ _ _ _ _ _ _ _ hp)
  dsimp only
  rw [if_neg (by simp only [maxVal] at this ⊢; omega)]

theorem mem_starts (n step m : Nat) (hs : 0 < step) : m ∈ starts n step ↔ m < n ∧ m % step = 0 := by
  rw [starts, List.mem_map]
  constructor
  · rintro ⟨k, hk, rfl⟩
    rw [List.mem_range] at hk
    refine ⟨?_, Nat.mul_mod_left k step⟩
    rw [Nat.lt_div_iff_mul_lt hs] at hk
    omega
  · rintro ⟨h1, h2⟩
    have e : m / step * step = m := by have := Nat.div_add_mod m step; rw [Nat.mul_comm] at this; omega
    refine ⟨m / step, ?_, e⟩
    rw [List.mem_range, Nat.lt_div_iff_mul_lt hs, Nat.mul_comm, Nat.mul_comm step, e]
    omega

theorem mem_blocks (rows cols w : Nat) (b : Nat × Nat) :
    b ∈ blocks rows cols w ↔ (b.1 < rows ∧ b.1 % (w + 1) = 0) ∧ b.2 < cols ∧ b.2 % (w + 1) = 0 := by
  obtain ⟨m, n⟩ := b
  simp only [blocks, List.mem_flatMap, List.mem_map, Prod.mk.injEq]
  constructor
  · rintro ⟨m', hm, n', hn, rfl, rfl⟩
    exact ⟨(mem_starts _ _ _ (by omega)).1 hm, (mem_starts _ _ _ (by omega)).1 hn⟩
  · rintro ⟨h1, h2⟩
    exact ⟨m, (mem_starts _ _ _ (by omega)).2 h1, n, (mem_starts _ _ _ (by omega)).2 h2, rfl, rfl⟩

theorem nms_fold (rows cols w : Nat) (f : Vals) (mask : Nat → Nat → Bool) (mk : Nat × Nat → Option (Nat × Nat))
    (l : List (Nat × Nat)) (hl : ∀ b ∈ l, blockMark rows cols w f mask b.1 b.2 = some (mk b)) : ∀ out, ∃ out',
    l.foldl (fun (acc : Option (Nat → Nat → Bool)) (b : Nat × Nat) =>
      acc.bind fun (out : Nat → Nat → Bool) =>
        (blockMark rows cols w f mask b.1 b.2).map fun (mark : Option (Nat × Nat)) =>
          match mark with
          | none => out
          | some p => fun y x => if y = p.1 ∧ x = p.2 then true else out y x) (some out) = some out' ∧
    ∀ y x, out' y x = true ↔ out y x = true ∨ ∃ b ∈ l, mk b = some (y, x) := by
  induction l with
  | nil => intro out; exact ⟨out, rfl, by simp⟩
  | cons b l ih =>
    intro out
    rw [List.foldl_cons, Option.bind_some, hl b (by simp), Option.map_some]
    obtain ⟨out', h1, h2⟩ := ih (fun b hb => hl b (by simp [hb])) (match mk b with
          | none => out
          | some p => fun y x => if y = p.1 ∧ x = p.2 then true else out y x)
    refine ⟨out', h1, fun y x => ?_⟩
    rw [h2]
    cases hmk : mk b with
    | none => simp [hmk]
    | some p =>
      dsimp only
      by_cases e : y = p.1 ∧ x = p.2
      · rw [if_pos e]
        obtain ⟨rfl, rfl⟩ := e
        simp [hmk]
      · rw [if_neg e]
        have : some p ≠ some (y, x) := by
          intro he; injection he with he; subst he; exact e ⟨rfl, rfl⟩
        simp [hmk, this]

/-- The tile of a pixel. -/
def tile (w : Nat) (p : Nat × Nat) : Nat × Nat := (p.1 / (w + 1) * (w + 1), p.2 / (w + 1) * (w + 1))

theorem tile_bounds (w : Nat) (p : Nat × Nat) :
    (tile w p).1 ≤ p.1 ∧ p.1 < (tile w p).1 + w + 1 ∧ (tile w p).2 ≤ p.2 ∧ p.2 < (tile w p).2 + w + 1 := by
  have h1 := Nat.div_add_mod p.1 (w + 1)
  have h2 := Nat.div_add_mod p.2 (w + 1)
  have h3 := Nat.mod_lt p.1 (show 0 < w + 1 by omega)
  have h4 := Nat.mod_lt p.2 (show 0 < w + 1 by omega)
  rw [Nat.mul_comm] at h1 h2
  simp only [tile]
  omega

theorem div_eq_of_mem (w m a : Nat) (hm : m % (w + 1) = 0) (h1 : m ≤ a) (h2 : a < m + w + 1) : a / (w + 1) * (w + 1) = m := by
  have e := Nat.div_add_mod m (w + 1)
  rw [hm, Nat.add_zero, Nat.mul_comm] at e
  have : a / (w + 1) = m / (w + 1) := by
    apply Nat.div_eq_of_lt_le
    · rw [e]; exact h1
    · rw [Nat.succ_mul, e]; omega
  rw [this, e]

theorem tile_of_mem {rows cols w : Nat} {b : Nat × Nat} (hb : b ∈ blocks rows cols w) (p : Nat × Nat)
    (h : b.1 ≤ p.1 ∧ p.1 < b.1 + w + 1 ∧ b.2 ≤ p.2 ∧ p.2 < b.2 + w + 1) : tile w p = b := by
  rw [mem_blocks] at hb
  obtain ⟨⟨_, h1⟩, _, h2⟩ := hb
  rw [tile, div_eq_of_mem w b.1 p.1 h1 h.1 h.2.1, div_eq_of_mem w b.2 p.2 h2 h.2.2.1 h.2.2.2]

theorem tile_mem {rows cols w : Nat} {p : Nat × Nat} (h1 : p.1 < rows) (h2 : p.2 < cols) : tile w p ∈ blocks rows cols w := by
  rw [mem_blocks]
  have := tile_bounds w p
  exact ⟨⟨by omega, Nat.mul_mod_left _ _⟩, by omega, Nat.mul_mod_left _ _⟩

theorem sameTile_iff (w : Nat) (p q : Nat × Nat) : SameTile w p q ↔
    ((tile w p).1 ≤ q.1 ∧ q.1 < (tile w p).1 + w + 1 ∧ (tile w p).2 ≤ q.2 ∧ q.2 < (tile w p).2 + w + 1) := by
  constructor
  · rintro ⟨h1, h2⟩
    have := tile_bounds w q
    simp only [tile] at this ⊢
    rw [h1, h2]
    exact this
  · intro h
    have e1 := div_eq_of_mem w (tile w p).1 q.1 (Nat.mul_mod_left _ _) h.1 h.2.1
    have e2 := div_eq_of_mem w (tile w p).2 q.2 (Nat.mul_mod_left _ _) h.2.2.1 h.2.2.2
    simp only [tile] at e1 e2
    exact ⟨(Nat.eq_of_mul_eq_mul_right (by omega) e1).symm, (Nat.eq_of_mul_eq_mul_right (by omega) e2).symm⟩

/-- What block `b` marks. -/
def markOf (rows cols w : Nat) (f : Vals) (mask : Nat → Nat → Bool) (b : Nat × Nat) : Option (Nat × Nat) :=
  match maxLoc f (blockSel rows cols w mask b.1 b.2) with
  | none => none
  | some p => if f p.1 p.2 > maxVal f (maxLoc f (others rows cols w mask b.1 b.2 ((p.1 : Int), (p.2 : Int)))) then some p else none

theorem blockMark_markOf {rows cols w : Nat} {f : Vals} {mask : Nat → Nat → Bool} (hp : Plain rows cols f mask) {b : Nat × Nat}
    (hb : b ∈ blocks rows cols w) : blockMark rows cols w f mask b.1 b.2 = some (markOf rows cols w f mask b) := by
  unfold markOf
  cases h : maxLoc f (blockSel rows cols w mask b.1 b.2) with
  | none =>
    dsimp only
    rcases hp with hp | hp
    · have hnil := maxLoc_none h
      have hmem : b ∈ blockSel rows cols w mask b.1 b.2 := by
        rw [mem_blocks] at hb
        rw [mem_blockSel]
        exact ⟨⟨hb.1.1, hb.2.1, hp _ _⟩, by omega, by omega, by omega, by omega⟩
      rw [hnil] at hmem
      cases hmem
    · exact blockMark_none hp h
  | some p => exact blockMark_some h

/-- The pixels marked. -/
theorem nms_spec {rows cols w : Nat} {f : Vals} {mask : Nat → Nat → Bool} (hp : Plain rows cols f mask) :
    ∃ out, nonMaxSuppression rows cols w f mask = some out ∧
      ∀ y x, out y x = true ↔ ∃ b ∈ blocks rows cols w, markOf rows cols w f mask b = some (y, x) := by
  obtain ⟨out, h1, h2⟩ := nms_fold rows cols w f mask (markOf rows cols w f mask) (blocks rows cols w)
    (fun b hb => blockMark_markOf hp hb) (fun _ _ => false)
  exact ⟨out, h1, fun y x => by rw [h2]; simp⟩

/-- Marked pixels in terms of the image. -/
theorem markOf_iff {rows cols w : Nat} {f : Vals} {mask : Nat → Nat → Bool} {b p : Nat × Nat} (hb : b ∈ blocks rows cols w) :
    markOf rows cols w f mask b = some p ↔ b = tile w p ∧ maxLoc f (blockSel rows cols w mask b.1 b.2) = some p ∧
      (∀ q, Selected rows cols mask q → Near w p q → ¬ SameTile w p q → f q.1 q.2 < f p.1 p.2) ∧
      ((∀ q, Selected rows cols mask q → Near w p q → SameTile w p q) → 0 < f p.1 p.2) := by
  have key : ∀ {p'}, maxLoc f (blockSel rows cols w mask b.1 b.2) = some p' → b = tile w p' ∧
      ∀ q, q ∈ others rows cols w mask b.1 b.2 ((p'.1 : Int), (p'.2 : Int)) ↔
        Selected rows cols mask q ∧ Near w p' q ∧ ¬ SameTile w p' q := by
    intro p' h
    have hm := (mem_blockSel _ _ _ _ _ _ _).1 (maxLoc_mem h).1
    have ht : tile w p' = b := tile_of_mem hb p' hm.2
    refine ⟨ht.symm, fun q => ?_⟩
    rw [mem_others _ _ _ _ _ _ p' hm.2.1 hm.2.2.1 hm.2.2.2.1 hm.2.2.2.2, sameTile_iff, ht]
  have cond : ∀ {p'}, maxLoc f (blockSel rows cols w mask b.1 b.2) = some p' →
      (f p'.1 p'.2 > maxVal f (maxLoc f (others rows cols w mask b.1 b.2 ((p'.1 : Int), (p'.2 : Int)))) ↔
        (∀ q, Selected rows cols mask q → Near w p' q → ¬ SameTile w p' q → f q.1 q.2 < f p'.1 p'.2) ∧
        ((∀ q, Selected rows cols mask q → Near w p' q → SameTile w p' q) → 0 < f p'.1 p'.2)) := by
    intro p' h
    rw [lt_maxVal]
    have hk := (key h).2
    constructor
    · rintro ⟨h1, h2⟩
      refine ⟨fun q hq hn hs => h1 q ((hk q).2 ⟨hq, hn, hs⟩), fun hall => h2 ?_⟩
      rw [List.eq_nil_iff_forall_not_mem]
      intro q hq
      obtain ⟨a, b, c⟩ := (hk q).1 hq
      exact c (hall q a b)
    · rintro ⟨h1, h2⟩
      refine ⟨fun q hq => ?_, fun hnil => h2 fun q hq hn => ?_⟩
      · obtain ⟨a, b, c⟩ := (hk q).1 hq
        exact h1 q a b c
      · by_contra hs
        have := (hk q).2 ⟨hq, hn, hs⟩
        rw [hnil] at this
        cases this
  constructor
  · intro h
    unfold markOf at h
    cases hmx : maxLoc f (blockSel rows cols w mask b.1 b.2) with
    | none => rw [hmx] at h; cases h
    | some p' =>
      rw [hmx] at h
      dsimp only at h
      split at h
      · rename_i hgt
        injection h with h
        subst h
        exact ⟨(key hmx).1, rfl, (cond hmx).1 hgt⟩
      · cases h
  · rintro ⟨h1, h2, h3⟩
    unfold markOf
    rw [h2]
    dsimp only
    rw [if_pos ((cond h2).2 h3)]

theorem region_sorted (y0 y1 x0 x1 : Nat) : (region y0 y1 x0 x1).Pairwise Before := by
  unfold region
  rw [List.pairwise_flatMap]
  constructor
  · intro y _
    rw [List.pairwise_map]
    exact (List.pairwise_lt_range' (s := x0) (n := x1 - x0)).imp fun h => Or.inr ⟨rfl, h⟩
  · refine (List.pairwise_lt_range' (s := y0) (n := y1 - y0)).imp fun h => ?_
    intro p hp q hq
    rw [List.mem_map] at hp hq
    obtain ⟨_, _, rfl⟩ := hp
    obtain ⟨_, _, rfl⟩ := hq
    exact Or.inl h

/-- The candidate of a block is its first maximum. -/
theorem maxLoc_blockSel {rows cols w : Nat} {f : Vals} {mask : Nat → Nat → Bool} {m n : Nat} {p : Nat × Nat} :
    maxLoc f (blockSel rows cols w mask m n) = some p ↔
      p ∈ blockSel rows cols w mask m n ∧ ∀ q ∈ blockSel rows cols w mask m n, q ≠ p →
        (f q.1 q.2 < f p.1 p.2 ∨ (f q.1 q.2 = f p.1 p.2 ∧ Before p q)) := by
  have first : ∀ {p}, maxLoc f (blockSel rows cols w mask m n) = some p → p ∈ blockSel rows cols w mask m n ∧
      ∀ q ∈ blockSel rows cols w mask m n, q ≠ p → (f q.1 q.2 < f p.1 p.2 ∨ (f q.1 q.2 = f p.1 p.2 ∧ Before p q)) := by
    intro p h
    refine ⟨(maxLoc_mem h).1, fun q hq hne => ?_⟩
    obtain ⟨l1, l2, hl, h1, h2⟩ := maxLoc_some h
    have hsort : (blockSel rows cols w mask m n).Pairwise Before := (region_sorted _ _ _ _).filter _
    rw [hl] at hq hsort
    rcases List.mem_append.1 hq with h' | h'
    · exact Or.inl (h1 q h')
    · rcases List.mem_cons.1 h' with rfl | h''
      · exact absurd rfl hne
      · have hb := (List.pairwise_cons.1 (List.pairwise_append.1 hsort).2.1).1 q h''
        have := h2 q h''
        rcases Int.lt_or_eq_of_le this with h3 | h3
        · exact Or.inl h3
        · exact Or.inr ⟨h3, hb⟩
  constructor
  · exact first
  · rintro ⟨hm, hall⟩
    cases h : maxLoc f (blockSel rows cols w mask m n) with
    | none => rw [maxLoc_none h] at hm; cases hm
    | some p' =>
      obtain ⟨hm', hall'⟩ := first h
      by_cases e : p' = p
      · rw [e]
      · exfalso
        have h1 := hall p' hm' e
        have h2 := hall' p hm fun e' => e e'.symm
        unfold Before at h1 h2
        omega

/-! ## Directional local maxima -/

theorem allOf_iff (h : Nat) (test : Nat → Bool) : allOf h test = true ↔ ∀ n, n < h → test n = true := by
  have : ∀ (l : List Nat) (b : Bool), l.foldl (fun (res : Bool) (n : Nat) => res && test n) b = (b && l.all test) := by
    intro l
    induction l with
    | nil => intro b; simp
    | cons a l ih => intro b; rw [List.foldl_cons, ih, List.all_cons, Bool.and_assoc]
  rw [allOf, this]
  simp

theorem toSize_mul (k : Int) (s : BitVec 64) (h1 : -(2 ^ 63) ≤ k * s.toNat) (h2 : k * s.toNat < 2 ^ 63) :
    (toSize k * s).toInt = k * s.toNat := by
  have : s = BitVec.ofInt 64 (s.toNat : Int) := by rw [BitVec.ofInt_natCast, BitVec.ofNat_toNat, BitVec.setWidth_eq]
  rw [toSize]
  conv_lhs => rw [this]
  rw [← BitVec.ofInt_mul, BitVec.toInt_ofInt, Int.bmod_eq_of_le]
  · simpa using h1
  · simpa using h2

theorem toSize_diag (k l : Int) (s t : BitVec 64) (h1 : -(2 ^ 63) ≤ k * s.toNat + l * t.toNat) (h2 : k * s.toNat + l * t.toNat < 2 ^ 63) :
    (toSize k * s + toSize l * t).toInt = k * s.toNat + l * t.toNat := by
  have hs : s = BitVec.ofInt 64 (s.toNat : Int) := by rw [BitVec.ofInt_natCast, BitVec.ofNat_toNat, BitVec.setWidth_eq]
  have ht : t = BitVec.ofInt 64 (t.toNat : Int) := by rw [BitVec.ofInt_natCast, BitVec.ofNat_toNat, BitVec.setWidth_eq]
  rw [toSize, toSize]
  conv_lhs => rw [hs, ht]
  rw [← BitVec.ofInt_mul, ← BitVec.ofInt_mul, ← BitVec.ofInt_add, BitVec.toInt_ofInt, Int.bmod_eq_of_le]
  · simpa using h1
  · simpa using h2

theorem elem_zero (g : Int → Int) (i : Int) : elem g i 0 = g i := by
  rw [elem, show (0 : BitVec 64).toInt = 0 from rfl, Int.add_zero]

/-- The two loops together. -/
theorem peak_iff (h : Nat) (g : Int → Int) (i d : Int) (b a : Nat → BitVec 64)
    (before : ∀ n, n < h → elem g i (b n) = g (i - ((n + 1 : Nat) : Int) * d))
    (after : ∀ n, n < h → elem g i (a n) = g (i + ((n + 1 : Nat) : Int) * d)) :
    ((∀ n, n < h → decide (g i > elem g i (b n)) = true) ∧ ∀ n, n < h → decide (g i ≥ elem g i (a n)) = true) ↔ PeakAlong h g i d := by
  constructor
  · rintro ⟨h1, h2⟩ k hk hk'
    have e1 := of_decide_eq_true (h1 (k - 1) (by omega))
    have e2 := of_decide_eq_true (h2 (k - 1) (by omega))
    rw [before _ (by omega), show k - 1 + 1 = k by omega] at e1
    rw [after _ (by omega), show k - 1 + 1 = k by omega] at e2
    exact ⟨e1, e2⟩
  · intro hp
    refine ⟨fun n hn => decide_eq_true ?_, fun n hn => decide_eq_true ?_⟩
    · rw [before n hn]; exact (hp (n + 1) (by omega) (by omega)).1
    · rw [after n hn]; exact (hp (n + 1) (by omega) (by omega)).2

theorem straight_exact (h : Nat) (g : Int → Int) (i : Int) (c : BitVec 64) (hc : h * c.toNat < 2 ^ 63) :
    (allOf h (fun (n : Nat) => decide (elem g i 0 > elem g i (toSize (-(n : Int) - 1) * c))) &&
      allOf h (fun (n : Nat) => decide (elem g i 0 ≥ elem g i (toSize ((n : Int) + 1) * c)))) = true ↔ PeakAlong h g i c.toNat := by
  have bound : ∀ n, n < h → ((n + 1) * c.toNat : Nat) < 2 ^ 63 := by
    intro n hn
    have : (n + 1) * c.toNat ≤ h * c.toNat := Nat.mul_le_mul_right _ hn
    omega
  rw [Bool.and_eq_true, allOf_iff, allOf_iff, elem_zero]
  refine peak_iff h g i c.toNat _ _ (fun n hn => ?_) (fun n hn => ?_)
  · have b := bound n hn
    have e : (-(n : Int) - 1) * c.toNat = -(((n + 1) * c.toNat : Nat) : Int) := by push_cast; ring
    rw [elem, toSize_mul _ _ (by rw [e]; omega) (by rw [e]; omega), e]
    congr 1
  · have b := bound n hn
    have e : ((n : Int) + 1) * c.toNat = (((n + 1) * c.toNat : Nat) : Int) := by push_cast; ring
    rw [elem, toSize_mul _ _ (by rw [e]; omega) (by rw [e]; omega), e]
    congr 1

end Litiv.Maxima
