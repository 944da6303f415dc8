import Verif.Spec.SegmProj
import Mathlib.Tactic.SplitIfs
import Mathlib.Tactic.Ring

/-!
# Lemmas about the projection of disparities
-/

namespace Litiv.SegmProj
open Spec

/-! ## votes -/

/-- a base pixel votes for slot `s` of column `k` -/
def Hit (c : Cfg) (roi : Nat → Bool) (base : Nat → Nat) (k' k s : Nat) : Prop :=
  base k' < c.nReal ∧ offsetCol c k' (base k') = (k : Int) ∧ k < c.cols ∧ roi k = true ∧ s = (c.nReal - 1) - base k'

theorem vote_hit (c : Cfg) (roi : Nat → Bool) (base : Nat → Nat) (v : Nat → Nat → Nat) (k' k s : Nat)
    (h : Hit c roi base k' k s) : vote c roi base v k' k s = v k s + 1 := by
  obtain ⟨h1, h2, h3, h4, h5⟩ := h
  unfold vote
  dsimp only
  rw [if_pos h1, h2, if_pos ⟨by omega, by omega, by simpa using h4⟩]
  unfold bump
  rw [if_pos ⟨by simp, h5⟩]

theorem vote_miss (c : Cfg) (roi : Nat → Bool) (base : Nat → Nat) (v : Nat → Nat → Nat) (k' k s : Nat)
    (h : ¬Hit c roi base k' k s) : vote c roi base v k' k s = v k s := by
  unfold vote
  dsimp only
  by_cases h1 : base k' < c.nReal
  · rw [if_pos h1]
    by_cases h2 : 0 ≤ offsetCol c k' (base k') ∧ offsetCol c k' (base k') < c.cols ∧
        roi (offsetCol c k' (base k')).toNat = true
    · rw [if_pos h2]
      unfold bump
      rw [if_neg]
      rintro ⟨h3, h4⟩
      obtain ⟨h5, h6, h7⟩ := h2
      refine h ⟨h1, by omega, by omega, by rw [h3]; exact h7, h4⟩
    · rw [if_neg h2]
  · rw [if_neg h1]

/-- two base pixels never vote for the same slot of a column -/
theorem hit_unique (c : Cfg) (roi : Nat → Bool) (base : Nat → Nat) (a b k s : Nat) (ha : Hit c roi base a k s)
    (hb : Hit c roi base b k s) : a = b := by
  obtain ⟨h1, h2, _, _, h5⟩ := ha
  obtain ⟨g1, g2, _, _, g5⟩ := hb
  have e : base a = base b := by omega
  unfold offsetCol at h2 g2
  rw [e] at h2
  split_ifs at h2 g2 <;> omega

theorem votes_prefix (c : Cfg) (roi : Nat → Bool) (base : Nat → Nat) (k s n : Nat) :
    ((∃ k', k' < n ∧ Hit c roi base k' k s) →
      (List.range n).foldl (vote c roi base) (fun _ _ => 0) k s = 1) ∧
    ((∀ k', k' < n → ¬Hit c roi base k' k s) →
      (List.range n).foldl (vote c roi base) (fun _ _ => 0) k s = 0) := by
  induction n with
  | zero => exact ⟨fun ⟨k', h, _⟩ => by omega, fun _ => rfl⟩
  | succ n ih =>
    rw [List.range_succ, List.foldl_append]
    simp only [List.foldl_cons, List.foldl_nil]
    constructor
    · rintro ⟨k', h1, h2⟩
      by_cases e : k' = n
      · subst e
        rw [vote_hit c roi base _ k' k s h2, ih.2]
        intro q hq hh
        have := hit_unique c roi base q k' k s hh h2
        omega
      · rw [vote_miss, ih.1 ⟨k', by omega, h2⟩]
        intro hh
        exact e (hit_unique c roi base k' n k s h2 hh)
    · intro h
      rw [vote_miss c roi base _ n k s (h n (by omega)), ih.2 (fun k' hk => h k' (by omega))]

theorem votes_pos (c : Cfg) (roi : Nat → Bool) (base : Nat → Nat) (k s : Nat)
    (h : ∃ k', k' < c.cols ∧ Hit c roi base k' k s) : votes c roi base k s = 1 :=
  (votes_prefix c roi base k s c.cols).1 h

theorem votes_zero (c : Cfg) (roi : Nat → Bool) (base : Nat → Nat) (k s : Nat)
    (h : ∀ k', k' < c.cols → ¬Hit c roi base k' k s) : votes c roi base k s = 0 :=
  (votes_prefix c roi base k s c.cols).2 h

/-- the votes for a label are those of the pixels that see the column with it -/
theorem hit_iff (c : Cfg) (roi : Nat → Bool) (base : Nat → Nat) (k s : Nat) (hk : k < c.cols) (hr : roi k = true)
    (hs : s < c.nReal) :
    (∃ k', k' < c.cols ∧ Hit c roi base k' k s) ↔ Sees c base k ((c.nReal - 1) - s) := by
  unfold Sees Hit offsetCol disparity
  constructor
  · rintro ⟨k', h1, h2, h3, _, _, h6⟩
    have e : base k' = c.nReal - 1 - s := by omega
    refine ⟨by omega, k', h1, e, ?_⟩
    rw [e] at h3
    split_ifs at h3 ⊢ <;> omega
  · rintro ⟨h1, k', h2, h3, h4⟩
    refine ⟨k', h2, by omega, ?_, hk, hr, by omega⟩
    rw [h3]
    split_ifs at h4 ⊢ <;> omega

/-! ## the winner -/

theorem max_prefix (f : Nat → Nat) (m : Nat) :
    let b := (List.range' 1 m).foldl (fun b i => if f b < f i then i else b) 0
    b ≤ m ∧ (∀ i, i ≤ m → f i ≤ f b) ∧ ∀ i, i < b → f i < f b := by
  induction m with
  | zero =>
    refine ⟨le_refl _, fun i hi => ?_, fun i hi => ?_⟩
    · have : i = 0 := by omega
      subst this
      exact le_refl _
    · exact absurd hi (by simp)
  | succ m ih =>
    rw [List.range'_concat, List.foldl_append]
    simp only [List.foldl_cons, List.foldl_nil, Nat.one_mul]
    obtain ⟨h1, h2, h3⟩ := ih
    by_cases h : f ((List.range' 1 m).foldl (fun b i => if f b < f i then i else b) 0) < f (1 + m)
    · rw [if_pos h]
      refine ⟨by omega, fun i hi => ?_, fun i hi => ?_⟩
      · by_cases e : i ≤ m
        · exact le_of_lt (lt_of_le_of_lt (h2 i e) h)
        · have : i = 1 + m := by omega
          rw [this]
      · exact lt_of_le_of_lt (h2 i (by omega)) h
    · rw [if_neg h]
      refine ⟨by omega, fun i hi => ?_, h3⟩
      by_cases e : i ≤ m
      · exact h2 i e
      · have : i = 1 + m := by omega
        rw [this]
        omega

theorem max_spec (f : Nat → Nat) (n : Nat) (hn : 0 < n) :
    maxElement f n < n ∧ (∀ i, i < n → f i ≤ f (maxElement f n)) ∧ ∀ i, i < maxElement f n → f i < f (maxElement f n) := by
  obtain ⟨h1, h2, h3⟩ := max_prefix f (n - 1)
  exact ⟨by unfold maxElement; omega, fun i hi => h2 i (by omega), h3⟩

theorem max_empty (f : Nat → Nat) : maxElement f 0 = 0 := rfl

/-- the votes of the winner: one if the column is seen, none otherwise -/
theorem winner_votes (c : Cfg) (roi : Nat → Bool) (base : Nat → Nat) (k : Nat) (hk : k < c.cols) (hr : roi k = true) :
    (maxElement (votes c roi base k) c.nReal ≠ c.nReal ∧ votes c roi base k (maxElement (votes c roi base k) c.nReal) > 0 ∧
      Sees c base k ((c.nReal - 1) - maxElement (votes c roi base k) c.nReal) ∧
      ∀ l, Sees c base k l → l ≤ (c.nReal - 1) - maxElement (votes c roi base k) c.nReal) ∨
    ((maxElement (votes c roi base k) c.nReal = c.nReal ∨
        votes c roi base k (maxElement (votes c roi base k) c.nReal) = 0) ∧ ∀ l, ¬Sees c base k l) := by
  rcases Nat.eq_zero_or_pos c.nReal with h0 | hn
  · right
    refine ⟨Or.inl (by rw [h0]; rfl), fun l h => ?_⟩
    have := h.1
    omega
  · obtain ⟨h1, h2, h3⟩ := max_spec (votes c roi base k) c.nReal hn
    set m := maxElement (votes c roi base k) c.nReal with hm
    by_cases hz : votes c roi base k m = 0
    · right
      refine ⟨Or.inr hz, fun l hl => ?_⟩
      have e : c.nReal - 1 - (c.nReal - 1 - l) = l := by have := hl.1; omega
      have hh := (hit_iff c roi base k (c.nReal - 1 - l) hk hr (by have := hl.1; omega)).2 (by rw [e]; exact hl)
      have h4 := votes_pos c roi base k _ hh
      have h5 := h2 (c.nReal - 1 - l) (by have := hl.1; omega)
      omega
    · left
      have hex : ∃ k', k' < c.cols ∧ Hit c roi base k' k m := by
        by_contra hcon
        refine hz (votes_zero c roi base k m fun k' hk' hh => hcon ⟨k', hk', hh⟩)
      refine ⟨by omega, by omega, (hit_iff c roi base k m hk hr h1).1 hex, fun l hl => ?_⟩
      by_contra hlt
      have hl1 := hl.1
      have e : c.nReal - 1 - (c.nReal - 1 - l) = l := by omega
      have hh := (hit_iff c roi base k (c.nReal - 1 - l) hk hr (by omega)).2 (by rw [e]; exact hl)
      have h4 := votes_pos c roi base k _ hh
      have h5 := h3 (c.nReal - 1 - l) (by omega)
      have h6 := votes_pos c roi base k m hex
      omega

/-! ## the second pass -/

/-- the pixels of the second pass that were visited have their final value, the others their initial one -/
theorem fill_suffix (c : Cfg) (roi : Nat → Bool) (row : Nat → Nat) (n : Nat) (hn : n ≤ c.cols) :
    ∀ k, ((List.range' (c.cols - n) n).reverse.foldl (fillCell c roi) row) k =
      if c.cols - n ≤ k ∧ k < c.cols then fillRow c roi row k else row k := by
  have key : ∀ (l : List Nat) (w : Nat → Nat) (k : Nat), k ∉ l → (l.foldl (fillCell c roi) w) k = w k := by
    intro l
    induction l with
    | nil => intros; rfl
    | cons a l ih =>
      intro w k hk
      simp only [List.mem_cons, not_or] at hk
      rw [List.foldl_cons, ih _ k hk.2]
      unfold fillCell
      split_ifs
      · exact Function.update_of_ne hk.1 _ _
      · exact Function.update_of_ne hk.1 _ _
      · rfl
  intro k
  have hsplit : (List.range c.cols).reverse =
      (List.range' (c.cols - n) n).reverse ++ (List.range' 0 (c.cols - n)).reverse := by
    rw [← List.reverse_append, List.range_eq_range']
    congr 1
    have := List.range'_append (s := 0) (m := c.cols - n) (n := n) (step := 1)
    rw [Nat.one_mul, Nat.zero_add] at this
    rw [this]
    congr 1
    omega
  by_cases h : c.cols - n ≤ k ∧ k < c.cols
  · rw [if_pos h]
    unfold fillRow
    rw [hsplit, List.foldl_append, key (List.range' 0 (c.cols - n)).reverse]
    simp only [List.mem_reverse, List.mem_range'_1]
    omega
  · rw [if_neg h, key]
    simp only [List.mem_reverse, List.mem_range'_1]
    omega

/-- the final value of a pixel, in terms of the final values to its right and the initial ones up to it -/
theorem fill_cell (c : Cfg) (roi : Nat → Bool) (row : Nat → Nat) (k : Nat) (hk : k < c.cols) :
    fillRow c roi row k =
      fillCell c roi (fun j => if k + 1 ≤ j ∧ j < c.cols then fillRow c roi row j else row j) k k := by
  have h1 := fill_suffix c roi row (c.cols - k) (by omega) k
  rw [show c.cols - (c.cols - k) = k from by omega, if_pos ⟨le_refl _, hk⟩] at h1
  rw [← h1]
  have e : List.range' k (c.cols - k) = k :: List.range' (k + 1) (c.cols - (k + 1)) := by
    rw [show c.cols - k = (c.cols - (k + 1)) + 1 from by omega, List.range'_succ]
  rw [e, List.reverse_cons, List.foldl_append]
  simp only [List.foldl_cons, List.foldl_nil]
  congr 1
  funext j
  have h2 := fill_suffix c roi row (c.cols - (k + 1)) (by omega) j
  rw [show c.cols - (c.cols - (k + 1)) = k + 1 from by omega] at h2
  exact h2

theorem fill_outside (c : Cfg) (roi : Nat → Bool) (row : Nat → Nat) (k : Nat) (hk : k < c.cols) (hr : roi k = false) :
    fillRow c roi row k = c.dontCare := by
  rw [fill_cell c roi row k hk]
  unfold fillCell
  rw [if_pos hr, Function.update_self]

theorem fill_kept (c : Cfg) (roi : Nat → Bool) (row : Nat → Nat) (k : Nat) (hk : k < c.cols) (hr : roi k = true)
    (h : row k ≠ c.dontCare) : fillRow c roi row k = row k := by
  rw [fill_cell c roi row k hk]
  unfold fillCell
  have e : ¬(k + 1 ≤ k ∧ k < c.cols) := by omega
  rw [if_neg (by simp [hr]), if_neg (by simp only [if_neg e]; exact h)]
  simp only [if_neg e]

/-- the search of a hole -/
theorem find_range (g : Nat → Option Nat) (n : Nat) :
    (∃ o x, o < n ∧ g o = some x ∧ (∀ o', o' < o → g o' = none) ∧ (List.range n).findSome? g = some x) ∨
    ((∀ o, o < n → g o = none) ∧ (List.range n).findSome? g = none) := by
  induction n with
  | zero => exact Or.inr ⟨fun o h => by omega, rfl⟩
  | succ n ih =>
    rw [List.range_succ, List.findSome?_append]
    rcases ih with ⟨o, x, h1, h2, h3, h4⟩ | ⟨h1, h2⟩
    · exact Or.inl ⟨o, x, by omega, h2, h3, by rw [h4]; rfl⟩
    · rw [h2]
      cases e : g n with
      | none =>
        refine Or.inr ⟨fun o ho => ?_, by simp [e]⟩
        by_cases hh : o = n
        · rw [hh, e]
        · exact h1 o (by omega)
      | some x => exact Or.inl ⟨n, x, by omega, e, fun o' ho => h1 o' ho, by simp [e]⟩

theorem fill_hole (c : Cfg) (roi : Nat → Bool) (row : Nat → Nat) (k : Nat) (hk : k < c.cols) (hr : roi k = true)
    (h : row k = c.dontCare) :
    fillRow c roi row k = ((List.range (c.dmax + 1)).findSome?
      (probe c roi (fun j => if k + 1 ≤ j ∧ j < c.cols then fillRow c roi row j else row j) k)).getD 0 := by
  rw [fill_cell c roi row k hk]
  unfold fillCell
  have e : ¬(k + 1 ≤ k ∧ k < c.cols) := by omega
  rw [if_neg (by simp [hr]), if_pos (by simp only [if_neg e]; exact h), Function.update_self]

/-- what the search of a hole finds at a distance -/
theorem probe_some (c : Cfg) (roi : Nat → Bool) (row : Nat → Nat) (k o x : Nat) (h : probe c roi row k o = some x) :
    x ≠ c.dontCare := by
  unfold probe at h
  split_ifs at h with h1 h2
  · cases Option.some.inj h
    exact h1.2.2
  · cases Option.some.inj h
    exact h2.2.2

theorem fill_inside (c : Cfg) (roi : Nat → Bool) (row : Nat → Nat) (hz : 0 < c.nReal) (k : Nat) (hk : k < c.cols)
    (hr : roi k = true) : fillRow c roi row k ≠ c.dontCare := by
  by_cases h : row k = c.dontCare
  · rw [fill_hole c roi row k hk hr h]
    rcases find_range (probe c roi (fun j => if k + 1 ≤ j ∧ j < c.cols then fillRow c roi row j else row j) k)
      (c.dmax + 1) with ⟨o, x, _, h2, _, h4⟩ | ⟨_, h4⟩
    · rw [h4]
      exact probe_some c roi _ k o x h2
    · rw [h4]
      show (0 : Nat) ≠ c.nReal
      omega
  · rw [fill_kept c roi row k hk hr h]
    exact h

/-- the search of a hole at a distance, in terms of final values to the right and initial ones to the left -/
theorem probe_cases (c : Cfg) (roi : Nat → Bool) (row : Nat → Nat) (hz : 0 < c.nReal) (k o : Nat) (hk : k < c.cols)
    (h : row k = c.dontCare) :
    let p := probe c roi (fun j => if k + 1 ≤ j ∧ j < c.cols then fillRow c roi row j else row j) k o
    (1 ≤ o ∧ k + o < c.cols ∧ roi (k + o) = true ∧ p = some (fillRow c roi row (k + o))) ∨
    (1 ≤ o ∧ ¬(k + o < c.cols ∧ roi (k + o) = true) ∧ o ≤ k ∧ Usable c roi row (k - o) ∧ p = some (row (k - o))) ∨
    (p = none ∧ (1 ≤ o → NoneAt c roi row k o)) := by
  dsimp only
  have e : ¬(k + 1 ≤ k ∧ k < c.cols) := by omega
  rcases Nat.eq_zero_or_pos o with h0 | h1
  · subst h0
    refine Or.inr (Or.inr ⟨?_, fun hh => by omega⟩)
    unfold probe
    simp only [Nat.add_zero, Nat.sub_zero, if_neg e, h, ne_eq, not_true_eq_false, and_false, if_false]
  · by_cases hp : k + o < c.cols ∧ roi (k + o) = true
    · left
      refine ⟨h1, hp.1, hp.2, ?_⟩
      unfold probe
      have hv : k + 1 ≤ k + o ∧ k + o < c.cols := ⟨by omega, hp.1⟩
      simp only [if_pos hv]
      rw [if_pos ⟨hp.1, hp.2, fill_inside c roi row hz _ hp.1 hp.2⟩]
    · have hv : ¬(k + 1 ≤ k - o ∧ k - o < c.cols) := by omega
      have hp' : ∀ x : Prop, ¬(k + o < c.cols ∧ roi (k + o) = true ∧ x) := fun x hx => hp ⟨hx.1, hx.2.1⟩
      by_cases hq : o ≤ k ∧ roi (k - o) = true ∧ row (k - o) ≠ c.dontCare
      · right; left
        refine ⟨h1, hp, hq.1, ⟨by omega, hq.2⟩, ?_⟩
        unfold probe
        rw [if_neg (hp' _)]
        simp only [if_neg hv]
        rw [if_pos hq]
      · right; right
        refine ⟨?_, fun _ => ⟨hp, fun hh => hq ⟨hh.1, hh.2.2⟩⟩⟩
        unfold probe
        rw [if_neg (hp' _)]
        simp only [if_neg hv]
        rw [if_neg hq]

/-! ## the outputs -/

theorem finish_fst (c : Cfg) (roi : Nat → Nat → Bool) (b9 b5 : (Nat → Nat → Nat) → Nat → Nat → Nat)
    (prim : Nat → Nat → Nat) : (finish c roi b9 b5 prim).1 = b5 prim := by
  unfold finish
  split_ifs <;> rfl

theorem finish_snd (c : Cfg) (roi : Nat → Nat → Bool) (b9 b5 : (Nat → Nat → Nat) → Nat → Nat → Nat)
    (prim : Nat → Nat → Nat) :
    (finish c roi b9 b5 prim).2 = project c roi b9 (if c.baseRight then prim else b5 prim) := by
  unfold finish
  split_ifs <;> rfl

/-! ## the median -/

theorem mem_insertSorted (a x : Nat) (l : List Nat) : x ∈ insertSorted a l ↔ x = a ∨ x ∈ l := by
  induction l with
  | nil => simp [insertSorted]
  | cons b l ih =>
    unfold insertSorted
    split_ifs
    · simp
    · simp only [List.mem_cons, ih]
      tauto

theorem length_insertSorted (a : Nat) (l : List Nat) : (insertSorted a l).length = l.length + 1 := by
  induction l with
  | nil => rfl
  | cons b l ih =>
    unfold insertSorted
    split_ifs
    · rfl
    · simp [ih]

theorem mem_sortList (x : Nat) (l : List Nat) : x ∈ sortList l ↔ x ∈ l := by
  induction l with
  | nil => simp [sortList]
  | cons b l ih =>
    show x ∈ insertSorted b (sortList l) ↔ _
    rw [mem_insertSorted, ih, List.mem_cons]

theorem length_sortList (l : List Nat) : (sortList l).length = l.length := by
  induction l with
  | nil => rfl
  | cons b l ih =>
    show (insertSorted b (sortList l)).length = _
    rw [length_insertSorted, ih, List.length_cons]

theorem length_window (rows cols h : Nat) (img : Nat → Nat → Nat) (r k : Nat) :
    (window rows cols h img r k).length = (2 * h + 1) * (2 * h + 1) := by
  unfold window
  rw [List.length_flatMap]
  simp

theorem clamp_lt (n : Nat) (x : Int) (hn : 0 < n) : clamp n x < n := by
  unfold clamp
  split_ifs <;> omega

/-- a median is the value of a pixel of the image -/
theorem median_from (rows cols h : Nat) (img : Nat → Nat → Nat) (r k : Nat) (hr : 0 < rows) (hk : 0 < cols) :
    ∃ r' k', r' < rows ∧ k' < cols ∧ medianBlur rows cols h img r k = img r' k' := by
  have hl : (2 * h + 1) * (2 * h + 1) / 2 < (sortList (window rows cols h img r k)).length := by
    rw [length_sortList, length_window]
    have : 0 < (2 * h + 1) * (2 * h + 1) := Nat.mul_pos (by omega) (by omega)
    omega
  unfold medianBlur
  rw [List.getElem?_eq_getElem hl]
  simp only [Option.getD_some]
  have hm := (mem_sortList _ _).1 (List.getElem_mem hl)
  unfold window at hm
  rw [List.mem_flatMap] at hm
  obtain ⟨i, _, hm⟩ := hm
  rw [List.mem_map] at hm
  obtain ⟨j, _, hm⟩ := hm
  exact ⟨_, _, clamp_lt _ _ hr, clamp_lt _ _ hk, hm.symm⟩

end Litiv.SegmProj
