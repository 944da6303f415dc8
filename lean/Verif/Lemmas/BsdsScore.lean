import Verif.Spec.BsdsScore
import Verif.Props.Seq
import Verif.Props.MathSeq
import Mathlib.Tactic.FieldSimp
import Mathlib.Tactic.Ring
import Mathlib.Tactic.Linarith
import Mathlib.Tactic.Positivity
import Mathlib.Tactic.NormNum

/-!
# Lemmas on the scores of the edge map evaluation
-/

namespace Litiv.BsdsScore
open Spec
open Bsds (Counts)

theorem fMeasure_isF (r p : ℚ) (hr : 0 ≤ r) (hp : 0 ≤ p) : IsF r p (fMeasure r p) := by
  unfold IsF fMeasure
  by_cases h : r + p > 0
  · rw [if_pos h]
    refine ⟨?_, fun h0 => by linarith⟩
    have : r + p ≠ 0 := ne_of_gt h
    field_simp
  · rw [if_neg h]
    have h1 : r = 0 := by linarith
    subst h1
    simp

theorem isF_unique {r p f f' : ℚ} (h : IsF r p f) (h' : IsF r p f') : f = f' := by
  by_cases h0 : r + p = 0
  · rw [h.2 h0, h'.2 h0]
  · exact mul_right_cancel₀ h0 (h.1.trans h'.1.symm)

theorem isF_pos {r p f : ℚ} (hr : 0 ≤ r) (hp : 0 ≤ p) (h : IsF r p f) : 0 ≤ f := by
  rw [isF_unique h (fMeasure_isF r p hr hp)]
  unfold fMeasure
  by_cases h : r + p > 0
  · rw [if_pos h]; positivity
  · rw [if_neg h]

theorem at_eq (a b : ℚ) (n : Nat) (hn : n ≤ 100) :
    ((100 - n : Nat) : ℚ) / 100 * a + (n : ℚ) / 100 * b = At a b n := by
  rw [Nat.cast_sub hn]
  unfold At
  push_cast
  ring

theorem at_nonneg (a b : ℚ) (n : Nat) (hn : n ≤ 100) (ha : 0 ≤ a) (hb : 0 ≤ b) : 0 ≤ At a b n := by
  rw [← at_eq a b n hn]
  positivity

/-- One interpolation step. -/
theorem tryInterp_spec (a b res : Score) (n : Nat) (hn : n ≤ 100) (ha : Valid a) (hb : Valid b) :
    (tryInterp a b res n = res ∨ (tryInterp a b res n).thr = At a.thr b.thr n ∧ (tryInterp a b res n).recall = At a.recall b.recall n ∧
      (tryInterp a b res n).prec = At a.prec b.prec n ∧ Valid (tryInterp a b res n)) ∧
    res.f ≤ (tryInterp a b res n).f ∧
    (∀ f, IsF (At a.recall b.recall n) (At a.prec b.prec n) f → f ≤ (tryInterp a b res n).f) := by
  have e1 := at_eq a.recall b.recall n hn
  have e2 := at_eq a.prec b.prec n hn
  have e3 := at_eq a.thr b.thr n hn
  have p1 := at_nonneg a.recall b.recall n hn ha.1 hb.1
  have p2 := at_nonneg a.prec b.prec n hn ha.2.1 hb.2.1
  have hF := fMeasure_isF _ _ p1 p2
  unfold tryInterp
  dsimp only
  rw [e1, e2, e3]
  by_cases h : fMeasure (At a.recall b.recall n) (At a.prec b.prec n) > res.f
  · rw [if_pos h]
    exact ⟨.inr ⟨rfl, rfl, rfl, p1, p2, hF⟩, le_of_lt h, fun f hf => le_of_eq (isF_unique hf hF)⟩
  · rw [if_neg h]
    exact ⟨.inl rfl, le_refl _, fun f hf => by rw [isF_unique hf hF]; exact not_lt.1 h⟩

theorem fold_spec (a b : Score) (ha : Valid a) (hb : Valid b) (ns : List Nat) (hns : ∀ n ∈ ns, n ≤ 100) (res : Score) :
    (ns.foldl (tryInterp a b) res = res ∨ ∃ n ≤ 100, (ns.foldl (tryInterp a b) res).thr = At a.thr b.thr n ∧
      (ns.foldl (tryInterp a b) res).recall = At a.recall b.recall n ∧ (ns.foldl (tryInterp a b) res).prec = At a.prec b.prec n ∧
      Valid (ns.foldl (tryInterp a b) res)) ∧
    res.f ≤ (ns.foldl (tryInterp a b) res).f ∧
    (∀ n ∈ ns, ∀ f, IsF (At a.recall b.recall n) (At a.prec b.prec n) f → f ≤ (ns.foldl (tryInterp a b) res).f) := by
  induction ns generalizing res with
  | nil => exact ⟨.inl rfl, le_refl _, fun n hn => by simp at hn⟩
  | cons n ns ih =>
    obtain ⟨t1, t2, t3⟩ := tryInterp_spec a b res n (hns n (by simp)) ha hb
    obtain ⟨i1, i2, i3⟩ := ih (fun m hm => hns m (by simp [hm])) (tryInterp a b res n)
    rw [List.foldl_cons]
    refine ⟨?_, t2.trans i2, fun m hm f hf => ?_⟩
    · rcases i1 with i1 | i1
      · rw [i1]
        rcases t1 with t1 | t1
        · exact .inl t1
        · exact .inr ⟨n, hns n (by simp), t1⟩
      · exact .inr i1
    · rcases List.mem_cons.1 hm with rfl | hm
      · exact (t3 f hf).trans i2
      · exact i3 m hm f hf

theorem consecutive_cons {l : List Score} {a b s : Score} (h : Consecutive l a b) : Consecutive (s :: l) a b := by
  obtain ⟨i, h1, h2⟩ := h
  exact ⟨i + 1, by simpa using h1, by simpa using h2⟩

theorem consecutive_iff (s t : Score) (l : List Score) (a b : Score) :
    Consecutive (s :: t :: l) a b ↔ (a = s ∧ b = t) ∨ Consecutive (t :: l) a b := by
  constructor
  · rintro ⟨i, h1, h2⟩
    match i, h1, h2 with
    | 0, h1, h2 => left; simp at h1 h2; exact ⟨h1.symm, h2.symm⟩
    | i + 1, h1, h2 => right; exact ⟨i, by simpa using h1, by simpa using h2⟩
  · rintro (⟨rfl, rfl⟩ | h)
    · exact ⟨0, by simp, by simp⟩
    · exact consecutive_cons h

theorem scan_spec (l : List Score) (a res : Score) (hv : ∀ s ∈ a :: l, Valid s) :
    (scan a l res = res ∨ ∃ x y n, Consecutive (a :: l) x y ∧ n ≤ 100 ∧ (scan a l res).thr = At x.thr y.thr n ∧
      (scan a l res).recall = At x.recall y.recall n ∧ (scan a l res).prec = At x.prec y.prec n ∧ Valid (scan a l res)) ∧
    res.f ≤ (scan a l res).f ∧
    (∀ x y n f, Consecutive (a :: l) x y → n ≤ 100 → IsF (At x.recall y.recall n) (At x.prec y.prec n) f → f ≤ (scan a l res).f) := by
  induction l generalizing a res with
  | nil =>
    refine ⟨.inl rfl, le_refl _, ?_⟩
    rintro x y n f ⟨i, _, h2⟩
    simp at h2
  | cons b l ih =>
    obtain ⟨f1, f2, f3⟩ := fold_spec a b (hv a (by simp)) (hv b (by simp)) (List.range 101)
      (fun n hn => by have := List.mem_range.1 hn; omega) res
    obtain ⟨i1, i2, i3⟩ := ih b ((List.range 101).foldl (tryInterp a b) res) (fun s hs => hv s (List.mem_cons_of_mem _ hs))
    rw [scan]
    refine ⟨?_, f2.trans i2, fun x y n f hc hn hf => ?_⟩
    · rcases i1 with i1 | ⟨x, y, n, hc, i1⟩
      · rw [i1]
        rcases f1 with f1 | ⟨n, hn, f1⟩
        · exact .inl f1
        · exact .inr ⟨a, b, n, ⟨0, by simp, by simp⟩, hn, f1⟩
      · exact .inr ⟨x, y, n, consecutive_cons hc, i1⟩
    · rcases (consecutive_iff _ _ _ _ _).1 hc with ⟨rfl, rfl⟩ | hc
      · exact (f3 n (List.mem_range.2 (by omega)) f hf).trans i2
      · exact i3 x y n f hc hn hf

/-! ## Ratios -/

theorem ratio_isRatio (a b : Nat) : IsRatio a b (ratio a b) := by
  unfold IsRatio ratio
  by_cases h : b > 0
  · rw [if_pos h]
    left
    have : (b : ℚ) ≠ 0 := by exact_mod_cast (by omega : b ≠ 0)
    exact ⟨div_mul_cancel₀ _ this, by omega⟩
  · rw [if_neg h]
    right
    exact ⟨by omega, rfl⟩

theorem ratio_nonneg (a b : Nat) : 0 ≤ ratio a b := by
  unfold ratio
  split_ifs
  · positivity
  · exact le_refl _

theorem scoreOf_spec (t : Nat) (c : Counts) : ScoreOf t c.indivTP c.indivTPFN c.totalTP c.totalTPFP (scoreOf t c) := by
  refine ⟨?_, ratio_isRatio _ _, ratio_isRatio _ _, fMeasure_isF _ _ (ratio_nonneg _ _) (ratio_nonneg _ _)⟩
  unfold scoreOf
  dsimp only
  ring

theorem scoreOf_valid (t : Nat) (c : Counts) : Valid (scoreOf t c) :=
  ⟨ratio_nonneg _ _, ratio_nonneg _ _, fMeasure_isF _ _ (ratio_nonneg _ _) (ratio_nonneg _ _)⟩

theorem mem_zipWith_valid (ths : List Nat) (img : List Counts) : ∀ s ∈ List.zipWith scoreOf ths img, Valid s := by
  intro s hs
  obtain ⟨i, hi⟩ := List.mem_iff_getElem?.1 hs
  rw [List.getElem?_zipWith] at hi
  revert hi
  rcases ths[i]? with _ | t <;> rcases img[i]? with _ | c <;> simp
  rintro rfl
  exact scoreOf_valid t c

/-! ## Largest element -/

theorem maxLoop_spec (l pre : List Score) (best : Nat) (b : Score) (hb : pre[best]? = some b)
    (h1 : ∀ (j : Nat) (s : Score), pre[j]? = some s → s.f ≤ b.f) (h2 : ∀ (j : Nat) (s : Score), j < best → pre[j]? = some s → s.f < b.f) :
    ∃ m, (pre ++ l)[maxLoop l pre.length best b.f]? = some m ∧ (∀ (j : Nat) (s : Score), (pre ++ l)[j]? = some s → s.f ≤ m.f) ∧
      ∀ (j : Nat) (s : Score), j < maxLoop l pre.length best b.f → (pre ++ l)[j]? = some s → s.f < m.f := by
  induction l generalizing pre best b with
  | nil => exact ⟨b, by simpa [maxLoop] using hb, by simpa using h1, by simpa [maxLoop] using h2⟩
  | cons s l ih =>
    have hlt : best < pre.length := (List.getElem?_eq_some_iff.1 hb).1
    have e : pre ++ s :: l = (pre ++ [s]) ++ l := by simp
    have el : pre.length + 1 = (pre ++ [s]).length := by simp
    have key : ∀ (j : Nat) (t : Score), (pre ++ [s])[j]? = some t → pre[j]? = some t ∨ (j = pre.length ∧ t = s) := by
      intro j t h
      rw [List.getElem?_append] at h
      by_cases hj : j < pre.length
      · rw [if_pos hj] at h; exact .inl h
      · rw [if_neg hj] at h
        have : j - pre.length = 0 := by
          by_contra hc
          rw [List.getElem?_eq_none (by simp; omega)] at h
          cases h
        rw [this] at h
        simp at h
        exact .inr ⟨by omega, h.symm⟩
    rw [maxLoop, e]
    by_cases hf : b.f < s.f
    · rw [if_pos hf, el]
      have := ih (pre ++ [s]) pre.length s (by simp)
        (fun j t ht => by
          rcases key j t ht with h | ⟨_, rfl⟩
          · exact le_of_lt (lt_of_le_of_lt (h1 j t h) hf)
          · exact le_refl _)
        (fun j t hj ht => by
          rcases key j t ht with h | ⟨h, _⟩
          · exact lt_of_le_of_lt (h1 j t h) hf
          · omega)
      exact this
    · rw [if_neg hf, el]
      exact ih (pre ++ [s]) best b (by rw [List.getElem?_append_left hlt]; exact hb)
        (fun j t ht => by
          rcases key j t ht with h | ⟨_, rfl⟩
          · exact h1 j t h
          · exact not_lt.1 hf)
        (fun j t hj ht => by
          rcases key j t ht with h | ⟨h, _⟩
          · exact h2 j t hj h
          · omega)

theorem maxIdx_spec (l : List Score) (hl : l ≠ []) :
    ∃ m, l[maxIdx l]? = some m ∧ (∀ (j : Nat) (s : Score), l[j]? = some s → s.f ≤ m.f) ∧
      ∀ (j : Nat) (s : Score), j < maxIdx l → l[j]? = some s → s.f < m.f := by
  match l, hl with
  | s :: l, _ =>
    have := maxLoop_spec l [s] 0 s (by simp)
      (fun j t ht => by
        match j, ht with
        | 0, ht => simp at ht; rw [ht]
        | j + 1, ht => simp at ht)
      (fun j t hj => by omega)
    simpa [maxIdx] using this

/-! ## Cumulated counters -/

theorem foldl_zip_getElem (imgs : List (List Counts)) (acc : List Counts) (k : Nat) (c : Counts) (hc : acc[k]? = some c)
    (hi : ∀ img ∈ imgs, k < img.length) :
    (imgs.foldl (List.zipWith addCounts) acc)[k]? = some
      ⟨c.indivTP + (imgs.map fun img => (img.getD k ⟨0, 0, 0, 0⟩).indivTP).sum,
       c.indivTPFN + (imgs.map fun img => (img.getD k ⟨0, 0, 0, 0⟩).indivTPFN).sum,
       c.totalTP + (imgs.map fun img => (img.getD k ⟨0, 0, 0, 0⟩).totalTP).sum,
       c.totalTPFP + (imgs.map fun img => (img.getD k ⟨0, 0, 0, 0⟩).totalTPFP).sum⟩ := by
  induction imgs generalizing acc c with
  | nil => simpa using hc
  | cons img imgs ih =>
    rw [List.foldl_cons]
    have hk := hi img (by simp)
    have e : img[k]? = some (img.getD k ⟨0, 0, 0, 0⟩) := by
      rw [List.getElem?_eq_getElem hk]; simp [List.getD, List.getElem?_eq_getElem hk]
    rw [ih (List.zipWith addCounts acc img) (addCounts c (img.getD k ⟨0, 0, 0, 0⟩))
      (by rw [List.getElem?_zipWith, hc, e]) (fun i hi' => hi i (by simp [hi']))]
    simp only [addCounts, List.map_cons, List.sum_cons, Nat.add_assoc]

theorem foldl_zip_length (imgs : List (List Counts)) (acc : List Counts) (hi : ∀ img ∈ imgs, img.length = acc.length) :
    (imgs.foldl (List.zipWith addCounts) acc).length = acc.length := by
  induction imgs generalizing acc with
  | nil => rfl
  | cons img imgs ih =>
    rw [List.foldl_cons]
    have h : (List.zipWith addCounts acc img).length = acc.length := by
      rw [List.length_zipWith, hi img (by simp), Nat.min_self]
    rw [ih _ (fun i hi' => by rw [h]; exact hi i (by simp [hi'])), h]

theorem sumMax_spec (ths : List Nat) (imgs : List (List Counts)) (acc : Counts)
    (hi : ∀ img ∈ imgs, maxIdx (List.zipWith scoreOf ths img) < img.length) :
    sumMax ths imgs acc = some
      ⟨acc.indivTP + (imgs.map fun img => (img.getD (maxIdx (List.zipWith scoreOf ths img)) ⟨0, 0, 0, 0⟩).indivTP).sum,
       acc.indivTPFN + (imgs.map fun img => (img.getD (maxIdx (List.zipWith scoreOf ths img)) ⟨0, 0, 0, 0⟩).indivTPFN).sum,
       acc.totalTP + (imgs.map fun img => (img.getD (maxIdx (List.zipWith scoreOf ths img)) ⟨0, 0, 0, 0⟩).totalTP).sum,
       acc.totalTPFP + (imgs.map fun img => (img.getD (maxIdx (List.zipWith scoreOf ths img)) ⟨0, 0, 0, 0⟩).totalTPFP).sum⟩ := by
  induction imgs generalizing acc with
  | nil => simp [sumMax]
  | cons img imgs ih =>
    rw [sumMax]
    have hk := hi img (by simp)
    have e : img[maxIdx (List.zipWith scoreOf ths img)]? = some (img.getD (maxIdx (List.zipWith scoreOf ths img)) ⟨0, 0, 0, 0⟩) := by
      rw [List.getElem?_eq_getElem hk]; simp [List.getD, List.getElem?_eq_getElem hk]
    rw [e, Option.bind_some, ih _ (fun i h => hi i (by simp [h]))]
    simp only [addCounts, List.map_cons, List.sum_cons, Nat.add_assoc]

/-! ## Unique recalls -/

theorem unique_go (f : Nat → ℚ) (x : Nat) (xs : List Nat) (hs : (x :: xs).Pairwise fun a b => f a ≤ f b) :
    (∃ z, (Seq.stdUnique.go (fun a b => f a == f b) x xs).head? = some z ∧ f z = f x) ∧
    (∃ z, (Seq.stdUnique.go (fun a b => f a == f b) x xs).getLast? = some z ∧ ∀ y ∈ x :: xs, f y ≤ f z) ∧
    (∀ z ∈ Seq.stdUnique.go (fun a b => f a == f b) x xs, z ∈ x :: xs) ∧
    ((Seq.stdUnique.go (fun a b => f a == f b) x xs).length ≤ 1 ↔ ∀ y ∈ xs, f y = f x) := by
  induction xs generalizing x with
  | nil => simp [Seq.stdUnique.go]
  | cons y ys ih =>
    have hxy : f x ≤ f y := (List.pairwise_cons.1 hs).1 y (by simp)
    have hys : (y :: ys).Pairwise fun a b => f a ≤ f b := (List.pairwise_cons.1 hs).2
    unfold Seq.stdUnique.go
    by_cases h : f x = f y
    · rw [if_pos (by simpa using h)]
      have hx : (x :: ys).Pairwise fun a b => f a ≤ f b := by
        rw [List.pairwise_cons] at hys ⊢
        exact ⟨fun b hb => h ▸ hys.1 b hb, hys.2⟩
      obtain ⟨h1, ⟨z, h2, h2'⟩, h3, h4⟩ := ih x hx
      refine ⟨h1, ⟨z, h2, fun w hw => ?_⟩, fun w hw => ?_, h4.trans ?_⟩
      · rcases List.mem_cons.1 hw with rfl | hw
        · exact h2' _ (by simp)
        · rcases List.mem_cons.1 hw with rfl | hw
          · rw [← h]; exact h2' _ (by simp)
          · exact h2' _ (by simp [hw])
      · have := h3 w hw
        simp only [List.mem_cons] at this ⊢
        tauto
      · simp [h.symm]
    · rw [if_neg (by simpa using h)]
      obtain ⟨⟨z0, h1, h1'⟩, ⟨z, h2, h2'⟩, h3, h4⟩ := ih y hys
      have hne : Seq.stdUnique.go (fun a b => f a == f b) y ys ≠ [] := by intro hc; rw [hc] at h1; simp at h1
      refine ⟨⟨x, rfl, rfl⟩, ⟨z, ?_, fun w hw => ?_⟩, fun w hw => ?_, ?_⟩
      · rw [List.getLast?_cons, h2]; simp
      · rcases List.mem_cons.1 hw with rfl | hw
        · exact hxy.trans (h2' y (by simp))
        · exact h2' w hw
      · rcases List.mem_cons.1 hw with rfl | hw
        · simp
        · exact List.mem_cons_of_mem _ (h3 w hw)
      · constructor
        · intro hl
          rw [List.length_cons] at hl
          exact absurd (List.length_eq_zero_iff.1 (by omega)) hne
        · intro hall
          exact absurd (hall y (by simp)).symm h

theorem sumArea_below (vals : List ℚ) (n : Nat) (h : n ≤ vals.length) : ∃ a, sumArea vals n = .value a := by
  induction n with
  | zero => exact ⟨0, rfl⟩
  | succ n ih =>
    obtain ⟨a, ha⟩ := ih (by omega)
    rw [sumArea, ha, List.getElem?_eq_getElem (by omega)]
    exact ⟨_, rfl⟩

theorem sumArea_past (vals : List ℚ) : sumArea vals (vals.length + 1) = .outOfBounds := by
  obtain ⟨a, ha⟩ := sumArea_below vals vals.length (le_refl _)
  rw [sumArea, ha, List.getElem?_eq_none (le_refl _)]

theorem interp1_inside (knots : List (ℚ × ℚ)) (x : ℚ) (f b : ℚ × ℚ) (hf : knots.head? = some f) (hb : knots.getLast? = some b)
    (h1 : f.1 ≤ x) (h2 : x ≤ b.1) : (MathSeq.interp1 knots x).isSome := by
  have hne : knots.map (·.1) ≠ [] := by
    intro hc
    rw [List.map_eq_nil_iff] at hc
    rw [hc] at hf; simp at hf
  obtain ⟨i, hi1, hi2⟩ := MathSeq.findNN_firstMin x (knots.map (·.1)) (fun a b => |a - b|) hne
  obtain ⟨m, hm, _⟩ := id hi2
  have hi : i < knots.length := by
    have := (List.getElem?_eq_some_iff.1 hm).1
    simpa using this
  have hs : i < (MathSeq.slopes knots 0).length := by rw [MathSeq.slopes_length]; exact hi
  rw [MathSeq.interp1_of_nearest knots x i f b knots[i] (MathSeq.slopes knots 0)[i] hf hb h1 h2 hi2
    (List.getElem?_eq_getElem hi) (List.getElem?_eq_getElem hs)]
  rfl

theorem mapM_some {α β : Type} (f : α → Option β) (l : List α) (h : ∀ a ∈ l, (f a).isSome) :
    ∃ r, l.mapM f = some r ∧ r.length = l.length := by
  induction l with
  | nil => exact ⟨[], rfl, rfl⟩
  | cons a l ih =>
    obtain ⟨b, hb⟩ := Option.isSome_iff_exists.1 (h a (by simp))
    obtain ⟨r, hr, hl⟩ := ih fun x hx => h x (by simp [hx])
    exact ⟨b :: r, by simp [List.mapM_cons, hb, hr], by simp [hl]⟩

theorem mapM_none {α β : Type} (f : α → Option β) (l : List α) (a : α) (ha : a ∈ l) (h : f a = none) : l.mapM f = none := by
  induction l with
  | nil => simp at ha
  | cons x l ih =>
    rw [List.mapM_cons]
    rcases List.mem_cons.1 ha with rfl | ha
    · rw [h]; rfl
    · rcases f x with _ | y
      · rfl
      · rw [ih ha]; rfl

end Litiv.BsdsScore
