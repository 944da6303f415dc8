import Verif.Model.MI
import Verif.Spec.MI
import Mathlib.Data.List.Forall2
import Mathlib.Data.List.Nodup
import Mathlib.Tactic

/-! # Lemmas about histogram loops -/

namespace Litiv.MI

/-- What is known of a histogram `h'` obtained from `h` by adding at the positions `ks`. -/
structure Good {κ α : Type} [DecidableEq κ] (kind : Kind) (incr : α → α) (h : Hist κ α) (ks : List κ) (h' : Hist κ α) : Prop where
  val : ∀ k, h'.val k = incr^[ks.count k] (h.val k)
  dense : kind = .dense → h'.keys = h.keys
  sparse : kind = .sparse → ∀ k, k ∈ h'.keys ↔ k ∈ h.keys ∨ k ∈ ks
  nodup : h.keys.Nodup → h'.keys.Nodup

theorem Good.refl {κ α : Type} [DecidableEq κ] (kind : Kind) (incr : α → α) (h : Hist κ α) : Good kind incr h [] h :=
  ⟨fun _ => rfl, fun _ => rfl, fun _ k => by simp, id⟩

theorem Good.step {κ α : Type} [DecidableEq κ] {kind : Kind} {incr : α → α} {h h1 h2 : Hist κ α} {k : κ} {ks : List κ}
    (g1 : Good kind incr h [k] h1) (g2 : Good kind incr h1 ks h2) : Good kind incr h (k :: ks) h2 := by
  refine ⟨fun k' => ?_, fun hd => (g2.dense hd).trans (g1.dense hd), fun hs k' => ?_, fun hn => g2.nodup (g1.nodup hn)⟩
  · rw [g2.val, g1.val, ← Function.iterate_add_apply, ← List.count_append, ]
    congr 1
    rw [List.count_append, List.count_cons (l := ks)]
    rw [List.count_cons]
    simp
  · rw [g2.sparse hs, g1.sparse hs]
    simp
    tauto

theorem modify_good {κ α : Type} [DecidableEq κ] (kind : Kind) (incr : α → α) (h : Hist κ α) (k : κ)
    (hk : kind = .dense → k ∈ h.keys) : ∃ h', h.modify kind k incr = some h' ∧ Good kind incr h [k] h' := by
  unfold Hist.modify
  have hval : ∀ k', (if k' = k then incr (h.val k) else h.val k') = incr^[[k].count k'] (h.val k') := by
    intro k'
    by_cases e : k' = k
    · subst e; simp
    · have : ([k] : List κ).count k' = 0 := by
        rw [List.count_eq_zero]; simpa using e
      simp [e, this]
  by_cases hm : k ∈ h.keys
  · refine ⟨_, if_pos hm, hval, fun _ => rfl, fun _ k' => ?_, id⟩
    constructor
    · exact Or.inl
    · rintro (h1 | h1)
      · exact h1
      · rw [List.mem_singleton.1 h1]; exact hm
  · rw [if_neg hm]
    cases kind with
    | dense => exact absurd (hk rfl) hm
    | sparse =>
      refine ⟨_, rfl, hval, (fun hd => by cases hd), fun _ k' => by simp, fun hn => ?_⟩
      rw [List.nodup_append]
      refine ⟨hn, by simp, ?_⟩
      intro a ha b hb
      rw [List.mem_singleton.1 hb]
      rintro rfl
      exact hm ha

theorem mapM_forall₂ {α β : Type} (f : α → Option β) (R : α → β → Prop) : ∀ (l : List α),
    (∀ x ∈ l, ∃ y, f x = some y ∧ R x y) → ∃ ys, l.mapM f = some ys ∧ List.Forall₂ R l ys
  | [], _ => ⟨[], rfl, .nil⟩
  | x :: l, h => by
    obtain ⟨y, hy, hr⟩ := h x (by simp)
    obtain ⟨ys, hys, hf⟩ := mapM_forall₂ f R l fun x' hx' => h x' (by simp [hx'])
    exact ⟨y :: ys, by simp [hy, hys], .cons hr hf⟩

theorem forall₂_get {α β : Type} {R : α → β → Prop} {l : List α} {ys : List β} (h : List.Forall₂ R l ys) (i : Nat) (x : α)
    (hx : l[i]? = some x) : ∃ y, ys[i]? = some y ∧ R x y := by
  induction h generalizing i with
  | nil => simp at hx
  | cons hr hf ih =>
    cases i with
    | zero => simp at hx; subst hx; exact ⟨_, by simp, hr⟩
    | succ i => simp at hx; simpa using ih i hx

theorem zip_get {α β : Type} {l : List α} {b : List β} {i : Nat} {x : α} {y : β} (h1 : l[i]? = some x) (h2 : b[i]? = some y) :
    (l.zip b)[i]? = some (x, y) := by
  rw [List.getElem?_zip_eq_some]; exact ⟨h1, h2⟩

theorem mem_zip_idx {α β : Type} {l : List α} {b : List β} {p : α × β} (h : p ∈ l.zip b) :
    ∃ i : Nat, l[i]? = some p.1 ∧ b[i]? = some p.2 := by
  obtain ⟨i, hi⟩ := List.mem_iff_getElem?.1 h
  exact ⟨i, (List.getElem?_zip_eq_some.1 hi)⟩

/-- The main loop: each histogram receives its own column. -/
theorem addElem_good {α : Type} (kind : Kind) (incr : α → α) : ∀ (bs : List (List Int)) (ms : List (Hist Int α)) (j : Hist (List Int) α),
    (∀ b ∈ bs, b.length = ms.length) →
    (kind = .dense → ∀ b ∈ bs, b ∈ j.keys ∧ ∀ (i : Nat) (m : Hist Int α) (v : Int), ms[i]? = some m → b[i]? = some v → v ∈ m.keys) →
    ∃ ms' j', bs.foldlM (addElem kind incr) (ms, j) = some (ms', j') ∧ ms'.length = ms.length ∧
      (∀ (i : Nat) (m : Hist Int α), ms[i]? = some m → ∃ m', ms'[i]? = some m' ∧ Good kind incr m (bs.map fun b => b.getD i 0) m') ∧ Good kind incr j bs j'
  | [], ms, j, _, _ => ⟨ms, j, rfl, rfl, fun _ m hm => ⟨m, hm, Good.refl ..⟩, Good.refl ..⟩
  | b :: bs, ms, j, hlen, hd => by
    obtain ⟨ms1, hms1, hf⟩ := mapM_forall₂ (fun (p : Hist Int α × Int) => p.1.modify kind p.2 incr)
      (fun p m' => Good kind incr p.1 [p.2] m') (ms.zip b) (fun p hp => by
        obtain ⟨i, h1, h2⟩ := mem_zip_idx hp
        exact modify_good kind incr p.1 p.2 fun hk => (hd hk b (by simp)).2 i _ _ h1 h2)
    obtain ⟨j1, hj1, gj1⟩ := modify_good kind incr j b fun hk => (hd hk b (by simp)).1
    have hbl := hlen b (by simp)
    have hl1 : ms1.length = ms.length := by
      rw [← hf.length_eq, List.length_zip, hbl, Nat.min_self]
    have hcol : ∀ (i : Nat) (m : Hist Int α), ms[i]? = some m → ∃ m1, ms1[i]? = some m1 ∧ Good kind incr m [b.getD i 0] m1 := by
      intro i m hm
      have hi : i < b.length := by
        rw [hbl]; exact (List.getElem?_eq_some_iff.1 hm).1
      have := forall₂_get hf i (m, b[i]) (zip_get hm (List.getElem?_eq_getElem hi))
      obtain ⟨m1, h1, g⟩ := this
      exact ⟨m1, h1, by simpa [List.getD_eq_getElem?_getD, List.getElem?_eq_getElem hi] using g⟩
    obtain ⟨ms', j', hfold, hl', hcol', gj'⟩ := addElem_good kind incr bs ms1 j1
      (fun b' hb' => by rw [hl1]; exact hlen b' (by simp [hb'])) (fun hk b' hb' => by
        refine ⟨by rw [gj1.dense hk]; exact (hd hk b' (by simp [hb'])).1, ?_⟩
        intro i m1 v hm1 hv
        have hi : i < ms.length := by rw [← hl1]; exact (List.getElem?_eq_some_iff.1 hm1).1
        obtain ⟨m1', e, g⟩ := hcol i ms[i] (List.getElem?_eq_getElem hi)
        rw [hm1] at e
        cases e
        rw [g.dense hk]
        exact (hd hk b' (by simp [hb'])).2 i _ v (List.getElem?_eq_getElem hi) hv)
    refine ⟨ms', j', ?_, hl'.trans hl1, ?_, gj1.step gj'⟩
    · rw [List.foldlM_cons]
      have : addElem kind incr (ms, j) b = some (ms1, j1) := by
        unfold addElem
        simp only [hms1, hj1]
      rw [this]
      exact hfold
    · intro i m hm
      obtain ⟨m1, h1, g1⟩ := hcol i m hm
      obtain ⟨m', h', g'⟩ := hcol' i m1 h1
      exact ⟨m', h', g1.step g'⟩

theorem scale_fold {κ : Type} [DecidableEq κ] (kind : Kind) (incr : ℚ) (c : Hist κ Nat) : ∀ (ks : List κ) (h : Hist κ ℚ),
    (kind = .dense → ∀ k ∈ ks, k ∈ h.keys) →
    ∃ h', ks.foldlM (fun (h : Hist κ ℚ) (k : κ) => h.modify kind k fun _ => (c.val k : ℚ) * incr) h = some h' ∧
      (∀ k, h'.val k = if k ∈ ks then (c.val k : ℚ) * incr else h.val k) ∧
      (kind = .dense → h'.keys = h.keys) ∧ (kind = .sparse → ∀ k, k ∈ h'.keys ↔ k ∈ h.keys ∨ k ∈ ks) ∧ (h.keys.Nodup → h'.keys.Nodup)
  | [], h, _ => ⟨h, rfl, fun _ => by simp, fun _ => rfl, fun _ _ => by simp, id⟩
  | k :: ks, h, hk => by
    obtain ⟨h1, e1, g1⟩ := modify_good kind (fun _ => (c.val k : ℚ) * incr) h k fun hd => hk hd k (by simp)
    obtain ⟨h2, e2, v2, d2, s2, n2⟩ := scale_fold kind incr c ks h1 fun hd k' hk' => by
      rw [g1.dense hd]; exact hk hd k' (by simp [hk'])
    refine ⟨h2, ?_, ?_, fun hd => (d2 hd).trans (g1.dense hd), fun hs k' => ?_, fun hn => n2 (g1.nodup hn)⟩
    · rw [List.foldlM_cons, e1]; exact e2
    · intro k'
      rw [v2 k', g1.val k']
      by_cases h1 : k' ∈ ks
      · simp [h1]
      · by_cases e : k' = k
        · subst e; simp [h1]
        · have : ([k] : List κ).count k' = 0 := by
            rw [List.count_eq_zero]; simpa using e
          simp [h1, e, this]
    · rw [s2 hs, g1.sparse hs]
      simp
      tauto

end Litiv.MI
