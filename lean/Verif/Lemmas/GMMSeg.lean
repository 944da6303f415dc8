import Verif.Spec.GMMSeg
import Verif.Props.GMM

/-!
# Lemmas about foreground/background training
-/

namespace Litiv.GMMSeg

open Litiv.GMM

theorem addSample_congr (D : Nat) (g : Gmm) (c : Nat) (x y : Nat → ℝ) (h : ∀ d, d < D → x d = y d) : addSample D g (c, x) = addSample D g (c, y) := by
  rw [addSample_eq, addSample_eq]
  congr 1
  · funext c' d
    by_cases hd : c' = c ∧ d < D
    · rw [if_pos hd, if_pos hd]; dsimp only; rw [h d hd.2]
    · rw [if_neg hd, if_neg hd]
  · funext c' i j
    by_cases hd : c' = c ∧ i < D ∧ j < D
    · rw [if_pos hd, if_pos hd]; dsimp only; rw [h i hd.2.1, h j hd.2.2]
    · rw [if_neg hd, if_neg hd]

/-- The buffer holds the pixels of the list. -/
def Holds (D : Nat) (img : Nat → Nat → ℝ) (b : Buf) (P : List Nat) : Prop :=
  b.count = P.length ∧ ∀ i (hi : i < P.length) d, d < D → b.cells (i * D + d) = img P[i] d

theorem push_holds (D : Nat) (img : Nat → Nat → ℝ) (b : Buf) (P : List Nat) (h : Holds D img b P) (k : Nat) :
    Holds D img (b.push D (img k)) (P ++ [k]) := by
  obtain ⟨h1, h2⟩ := h
  refine ⟨by simp [Buf.push, h1], ?_⟩
  intro i hi d hd
  unfold Buf.push
  dsimp only
  rw [put_fold]
  rw [List.length_append, List.length_singleton] at hi
  rcases Nat.lt_or_ge i P.length with hl | hl
  · have hlt : i * D + d < b.count * D := by
      rw [h1, mul_comm i, mul_comm P.length]
      exact blk_lt D P.length i d hl hd
    rw [if_neg (by omega), List.getElem_append_left hl]
    exact h2 i hl d hd
  · have : i = b.count := by omega
    subst this
    rw [if_pos (by omega), Nat.add_sub_cancel_left, List.getElem_append_right hl]
    simp

theorem separate_spec (D : Nat) (img : Nat → Nat → ℝ) (mask roi : Nat → Bool) (n : Nat) (bg fg : Nat → ℝ) :
    Holds D img (separate D img mask roi n bg fg).1 (Spec.segment mask roi n false) ∧
    Holds D img (separate D img mask roi n bg fg).2 (Spec.segment mask roi n true) := by
  unfold separate Spec.segment
  induction n with
  | zero => exact ⟨⟨rfl, fun i hi => absurd hi (by simp)⟩, ⟨rfl, fun i hi => absurd hi (by simp)⟩⟩
  | succ n ih =>
    rw [List.range_succ, List.foldl_append, List.foldl_cons, List.foldl_nil, List.filter_append, List.filter_append]
    obtain ⟨i1, i2⟩ := ih
    cases hr : roi n with
    | false =>
      have := And.intro i1 i2
      simpa [hr] using this
    | true =>
      cases hm : mask n with
      | false =>
        refine ⟨?_, ?_⟩
        · simpa [hr, hm] using push_holds D img _ _ i1 n
        · simpa [hr, hm] using i2
      | true =>
        refine ⟨?_, ?_⟩
        · simpa [hr, hm] using i1
        · simpa [hr, hm] using push_holds D img _ _ i2 n

theorem labelled_eq (img : Nat → Nat → ℝ) (P : List Nat) (lab : Nat → Nat) :
    Spec.labelled img P lab = (List.range P.length).map fun i => (lab i, img (P.getD i 0)) := by
  apply List.ext_getElem
  · simp [Spec.labelled]
  · intro i h1 h2
    have hi : i < P.length := by simpa [Spec.labelled] using h1
    simp [Spec.labelled, hi]

theorem holds_samples (D : Nat) (img : Nat → Nat → ℝ) (b : Buf) (P : List Nat) (h : Holds D img b P) :
    ((List.range b.count).map fun i => (List.range D).map fun d => b.cells (i * D + d)) = P.map fun k => (List.range D).map (img k) := by
  apply List.ext_getElem
  · simp [h.1]
  · intro i h1 h2
    have hi : i < P.length := by simpa using h2
    simp only [List.getElem_map, List.getElem_range]
    apply List.map_congr_left
    intro d hd
    exact h.2 i hi d (List.mem_range.1 hd)

theorem train_fold (D : Nat) (img : Nat → Nat → ℝ) (b : Buf) (P : List Nat) (h : Holds D img b P) (lab : Nat → Nat) (g : Gmm) :
    (List.range b.count).foldl (fun g i => addSample D g (lab i, fun d => b.cells (i * D + d))) g = (Spec.labelled img P lab).foldl (addSample D) g := by
  rw [labelled_eq, List.foldl_map, h.1]
  have hgen : ∀ n, n ≤ P.length → (List.range n).foldl (fun g i => addSample D g (lab i, fun d => b.cells (i * D + d))) g =
      (List.range n).foldl (fun g i => addSample D g (lab i, img (P.getD i 0))) g := by
    intro n hn
    induction n with
    | zero => rfl
    | succ n ih =>
      rw [List.range_succ, List.foldl_append, List.foldl_append, ih (by omega)]
      simp only [List.foldl_cons, List.foldl_nil]
      apply addSample_congr
      intro d hd
      rw [h.2 n (by omega) d hd]
      congr 1
      rw [List.getD_eq_getElem?_getD, List.getElem?_eq_getElem (by omega), Option.getD_some]
  exact hgen P.length le_rfl

theorem train_spec (km : Kmeans) (C D : Nat) (g : Gmm) (img : Nat → Nat → ℝ) (b : Buf) (P : List Nat) (h : Holds D img b P) :
    train km C D g b =
      if P.length ≤ D then learn luEps C D g []
      else (km (P.map fun k => (List.range D).map (img k)) C).bind fun lab => learn luEps C D g (Spec.labelled img P lab) := by
  unfold train
  dsimp only
  by_cases hc : P.length ≤ D
  · rw [if_neg (by rw [h.1]; omega), if_pos hc]
    rfl
  · rw [if_pos (by rw [h.1]; omega), if_neg hc, holds_samples D img b P h]
    congr 1
    funext lab
    rw [train_fold D img b P h]
    rfl

theorem assign_eq (C1 C2 D : Nat) (img : Nat → Nat → ℝ) (mask roi : Nat → Bool) (n : Nat) (gb gf : Gmm) (old : Nat → Int) (k : Nat) :
    assign C1 C2 D img mask roi n gb gf old k =
      if k < n ∧ roi k = true then ((if mask k then best C2 D gf (img k) else best C1 D gb (img k) : Nat) : Int) else old k := by
  unfold assign
  induction n with
  | zero => simp
  | succ n ih =>
    rw [List.range_succ, List.foldl_append, List.foldl_cons, List.foldl_nil]
    generalize (List.range n).foldl (fun (m : Nat → Int) k =>
      if roi k then (fun j => if j = k then ((if mask k then best C2 D gf (img k) else best C1 D gb (img k) : Nat) : Int) else m j) else m) old = m at ih ⊢
    by_cases hr : roi n = true
    · rw [if_pos hr]
      by_cases hk : k = n
      · subst hk
        rw [if_pos rfl, if_pos (show k < k + 1 ∧ roi k = true from ⟨by omega, hr⟩)]
      · rw [if_neg hk, ih]
        by_cases h2 : k < n ∧ roi k = true
        · rw [if_pos h2, if_pos (show k < n + 1 ∧ roi k = true from ⟨by omega, h2.2⟩)]
        · rw [if_neg h2, if_neg (fun h => h2 ⟨by omega, h.2⟩)]
    · rw [if_neg hr, ih]
      by_cases h2 : k < n ∧ roi k = true
      · rw [if_pos h2, if_pos (show k < n + 1 ∧ roi k = true from ⟨by omega, h2.2⟩)]
      · rw [if_neg h2, if_neg]
        rintro ⟨h3, h4⟩
        rcases Nat.lt_succ_iff_lt_or_eq.1 h3 with h5 | rfl
        · exact h2 ⟨h5, h4⟩
        · exact hr h4

theorem relearnLoop_eq (C1 C2 D : Nat) (img : Nat → Nat → ℝ) (mask roi : Nat → Bool) (n : Nat) (labels : Nat → Int) (gb gf : Gmm) :
    relearnLoop C1 C2 D img mask roi n labels gb gf =
      ((Spec.valid C1 img labels (Spec.segment mask roi n false)).foldl (addSample D) gb,
       (Spec.valid C2 img labels (Spec.segment mask roi n true)).foldl (addSample D) gf) := by
  unfold relearnLoop Spec.segment Spec.valid
  induction n with
  | zero => rfl
  | succ n ih =>
    rw [List.range_succ, List.foldl_append, List.foldl_cons, List.foldl_nil, ih]
    cases hr : roi n with
    | false => simp [hr]
    | true =>
      cases hm : mask n with
      | false =>
        by_cases hl : 0 ≤ labels n ∧ labels n < C1
        · simp [hr, hm, hl]
        · simp only [hr, hm, if_true, List.filter_append]
          simp [hr, hm, hl]
      | true =>
        by_cases hl : 0 ≤ labels n ∧ labels n < C2
        · simp [hr, hm, hl]
        · simp only [hr, hm, if_true, List.filter_append]
          simp [hr, hm, hl]

end Litiv.GMMSeg
