import Verif.Model.EdgeLBSP
import Verif.Spec.EdgeLBSP
import Verif.Lemmas.Consensus
import Mathlib.Data.Finset.Card
import Mathlib.Data.Finset.Prod
import Mathlib.Tactic.IntervalCases
import Mathlib.Algebra.Order.Ring.Int

/-! Lemmas for `Props/EdgeLBSP`: the suppression pass and the hysteresis loop. -/

namespace Litiv.EdgeLBSP
open Spec
open Consensus (foldlM_inv)

section
variable (R C : Nat) (good strong : Nat → Nat → Bool)

/-- A pixel of the image that may belong to an edge. -/
def Cand (p : Nat × Nat) : Prop := p.1 < R ∧ p.2 < C ∧ good p.1 p.2 = true

/-- Joined by candidates to a treated pixel with label 2. -/
def Linked (done : Nat × Nat → Prop) (s : Scan) (p : Nat × Nat) : Prop :=
  ∃ q, done q ∧ s.lab q.1 q.2 = 2 ∧ Relation.ReflTransGen (Step (Cand R C good)) p q

structure PInv (done : Nat × Nat → Prop) (y0 : Nat) (s : Scan) : Prop where
  img : ∀ p, done p → p.1 < R ∧ p.2 < C
  bad : ∀ p, done p → good p.1 p.2 = false → s.lab p.1 p.2 = 1
  ok : ∀ p, done p → good p.1 p.2 = true → s.lab p.1 p.2 = 0 ∨ (s.lab p.1 p.2 = 2 ∧ strong p.1 p.2 = true)
  link : ∀ p, done p → good p.1 p.2 = true → strong p.1 p.2 = true → Linked R C good done s p
  stk : ∀ q : Int × Int, q ∈ s.stack ↔ ∃ p : Nat × Nat, done p ∧ q = ((p.1 : Int), (p.2 : Int)) ∧ s.lab p.1 p.2 = 2
  pad : ∀ y x : Int, (y < 0 ∨ (R : Int) ≤ y) → s.lab y x = 1
  side : ∀ y : Nat, y0 ≤ y → y < R → s.lab y (-1) = 1 ∧ s.lab y C = 1

theorem step_symm {cand : Nat × Nat → Prop} {p q : Nat × Nat} (h : Step cand p q) : Step cand q p :=
  ⟨h.2.1, h.1, h.2.2.1.symm, h.2.2.2.2.1, h.2.2.2.1, h.2.2.2.2.2.2, h.2.2.2.2.2.1⟩

theorem rtg_symm {cand : Nat × Nat → Prop} {p q : Nat × Nat} (h : Relation.ReflTransGen (Step cand) p q) :
    Relation.ReflTransGen (Step cand) q p := by
  induction h with
  | refl => exact .refl
  | tail _ hs ih => exact .head (step_symm hs) ih

theorem setLab_ne (s : Scan) (y x : Int) (v : BitVec 8) {y' x' : Int} (h : ¬ (y' = y ∧ x' = x)) : (setLab s y x v).lab y' x' = s.lab y' x' := by
  unfold setLab
  exact if_neg h

theorem setLab_same (s : Scan) (y x : Int) (v : BitVec 8) : (setLab s y x v).lab y x = v := by
  unfold setLab
  exact if_pos ⟨rfl, rfl⟩

/-- What changes when pixel `(y, x)` gets label `v` (and is pushed if `v` is 2). -/
theorem PInv.extend {done : Nat × Nat → Prop} {y0 : Nat} {s : Scan} (I : PInv R C good strong done y0 s) {y x : Nat} (hy : y < R) (hx : x < C)
    (hn : ¬ done (y, x)) (v : BitVec 8) (s' : Scan) (hlab : ∀ y' x' : Int, ¬ (y' = y ∧ x' = x) → s'.lab y' x' = s.lab y' x')
    (hv : s'.lab y x = v) (hbad : good y x = false → v = 1) (hok : good y x = true → v = 0 ∨ (v = 2 ∧ strong y x = true))
    (hst : s'.stack = if v = 2 then ((y : Int), (x : Int)) :: s.stack else s.stack)
    (hlink : good y x = true → strong y x = true → Linked R C good (fun p => done p ∨ p = (y, x)) s' (y, x)) :
    PInv R C good strong (fun p => done p ∨ p = (y, x)) y0 s' := by
  have old : ∀ p : Nat × Nat, done p → s'.lab p.1 p.2 = s.lab p.1 p.2 := by
    intro p hp
    refine hlab _ _ fun h => hn ?_
    have : p = (y, x) := Prod.ext (by exact_mod_cast h.1) (by exact_mod_cast h.2)
    rw [← this]; exact hp
  refine ⟨?_, ?_, ?_, ?_, ?_, ?_, ?_⟩
  · rintro p (h | rfl)
    · exact I.img p h
    · exact ⟨hy, hx⟩
  · rintro p (h | rfl) hg
    · rw [old p h]; exact I.bad p h hg
    · dsimp only; rw [hv]; exact hbad hg
  · rintro p (h | rfl) hg
    · rw [old p h]; exact I.ok p h hg
    · dsimp only; rw [hv]; exact hok hg
  · rintro p (h | rfl) hg hs
    · obtain ⟨q, h1, h2, h3⟩ := I.link p h hg hs
      exact ⟨q, Or.inl h1, by rw [old q h1]; exact h2, h3⟩
    · exact hlink hg hs
  · intro q
    rw [hst]
    by_cases h2 : v = 2
    · rw [if_pos h2, List.mem_cons, I.stk]
      constructor
      · rintro (rfl | ⟨p, a, b, c⟩)
        · exact ⟨(y, x), Or.inr rfl, rfl, by dsimp only; rw [hv, h2]⟩
        · exact ⟨p, Or.inl a, b, by rw [old p a]; exact c⟩
      · rintro ⟨p, a | a, b, c⟩
        · exact Or.inr ⟨p, a, b, by rw [← old p a]; exact c⟩
        · left; rw [b, a]
    · rw [if_neg h2, I.stk]
      constructor
      · rintro ⟨p, a, b, c⟩
        exact ⟨p, Or.inl a, b, by rw [old p a]; exact c⟩
      · rintro ⟨p, a | a, b, c⟩
        · exact ⟨p, a, b, by rw [← old p a]; exact c⟩
        · rw [a] at c
          dsimp only at c
          rw [hv] at c
          exact absurd c h2
  · intro y' x' h
    rw [hlab _ _ (by omega)]
    exact I.pad y' x' h
  · intro y' h1 h2
    rw [hlab _ _ (by omega), hlab _ _ (by omega)]
    exact I.side y' h1 h2

/-- The flag of the suppression pass: the pixel on the left is joined to a pixel with label 2. -/
def Flag (done : Nat × Nat → Prop) (s : Scan) (y x : Nat) (nb : Bool) : Prop :=
  nb = true → ∃ x', x = x' + 1 ∧ good y x' = true ∧ Linked R C good done s (y, x')

theorem linked_mono {done done' : Nat × Nat → Prop} {s s' : Scan} (hd : ∀ p, done p → done' p)
    (hl : ∀ p : Nat × Nat, done p → s'.lab p.1 p.2 = s.lab p.1 p.2) {p : Nat × Nat} (h : Linked R C good done s p) :
    Linked R C good done' s' p := by
  obtain ⟨q, h1, h2, h3⟩ := h
  exact ⟨q, hd q h1, by rw [hl q h1]; exact h2, h3⟩

theorem nmsCol_spec {done : Nat × Nat → Prop} {s : Scan} {nb : Bool} {y x : Nat} (I : PInv R C good strong done y s) (hy : y < R) (hx : x < C)
    (hn : ¬ done (y, x)) (hbelow : y + 1 < R → done (y + 1, x)) (hf : Flag R C good done s y x nb) (hcap : s.stack.length < s.cap) :
    ∃ s' nb', nmsCol R C (good y) (strong y) y (s, nb) x = some (s', nb') ∧ PInv R C good strong (fun p => done p ∨ p = (y, x)) y s' ∧
      Flag R C good (fun p => done p ∨ p = (y, x)) s' y (x + 1) nb' ∧ s'.cap = s.cap ∧ s'.stack.length ≤ s.stack.length + 1 := by
  have hne : ∀ (s' : Scan) (v : BitVec 8), (∀ y' x' : Int, ¬ (y' = y ∧ x' = x) → s'.lab y' x' = s.lab y' x') →
      ∀ p : Nat × Nat, done p → s'.lab p.1 p.2 = s.lab p.1 p.2 := by
    intro s' v h p hp
    refine h _ _ fun h => hn ?_
    have : p = (y, x) := Prod.ext (by exact_mod_cast h.1) (by exact_mod_cast h.2)
    rw [← this]; exact hp
  have cand : good y x = true → Cand R C good (y, x) := fun h => ⟨hy, hx, h⟩
  unfold nmsCol
  by_cases hg : good y x = true
  · rw [if_pos hg]
    dsimp only
    by_cases hp : (!nb && strong y x && decide (s.lab ((y : Int) + 1) x ≠ 2)) = true
    · rw [if_pos hp]
      simp only [Bool.and_eq_true, Bool.not_eq_true', decide_eq_true_eq] at hp
      have hin : inMap R C y x = true := by unfold inMap; rw [decide_eq_true_eq]; omega
      unfold push
      rw [if_pos ⟨hin, hcap⟩]
      dsimp only [Option.map_some]
      have l1 : ∀ y' x' : Int, ¬ (y' = y ∧ x' = x) → ({ setLab s y x 2 with stack := ((y : Int), (x : Int)) :: s.stack } : Scan).lab y' x' = s.lab y' x' :=
        fun y' x' h => setLab_ne s _ _ _ h
      have lk : Linked R C good (fun p => done p ∨ p = (y, x)) { setLab s y x 2 with stack := ((y : Int), (x : Int)) :: s.stack } (y, x) :=
        ⟨(y, x), Or.inr rfl, setLab_same s _ _ _, .refl⟩
      refine ⟨_, _, rfl, ?_, ?_, rfl, by simp⟩
      · refine I.extend R C good strong hy hx hn 2 _ l1 (setLab_same s _ _ _) (fun h => by rw [h] at hg; cases hg) (fun _ => Or.inr ⟨rfl, hp.1.2⟩) ?_
          (fun _ _ => lk)
        rw [if_pos rfl]
      · intro _
        exact ⟨x, rfl, hg, lk⟩
    · rw [if_neg hp]
      simp only [Bool.and_eq_true, Bool.not_eq_true', decide_eq_true_eq, not_and, not_not] at hp
      have l1 : ∀ y' x' : Int, ¬ (y' = y ∧ x' = x) → (setLab s y x 0).lab y' x' = s.lab y' x' := fun y' x' h => setLab_ne s _ _ _ h
      have viaLeft : nb = true → Linked R C good (fun p => done p ∨ p = (y, x)) (setLab s y x 0) (y, x) := by
        intro hnb
        obtain ⟨x', rfl, hg', hl⟩ := hf hnb
        obtain ⟨q, h1, h2, h3⟩ := linked_mono R C good (fun p => Or.inl) (hne _ 0 l1) hl
        refine ⟨q, h1, h2, .head ?_ h3⟩
        refine ⟨cand hg, ⟨hy, by dsimp only; omega, hg'⟩, ?_⟩
        unfold Touch
        dsimp only
        refine ⟨fun h => ?_, by omega, by omega, by omega, by omega⟩
        have := (Prod.mk.inj h).2
        omega
      refine ⟨_, _, rfl, ?_, ?_, rfl, Nat.le_succ _⟩
      · refine I.extend R C good strong hy hx hn 0 _ l1 (setLab_same s _ _ _) (fun h => by rw [h] at hg; cases hg) (fun _ => Or.inl rfl) ?_ ?_
        · rw [if_neg (by decide)]; rfl
        · intro _ hs
          by_cases hnb : nb = true
          · exact viaLeft hnb
          · have h2 := hp ⟨by simpa using hnb, hs⟩
            by_cases hy1 : y + 1 < R
            · have hd := hbelow hy1
              have h2' : s.lab ((y + 1 : Nat) : Int) (x : Int) = 2 := by push_cast; exact h2
              have hgb : good (y + 1) x = true := by
                by_contra hc
                have := I.bad _ hd (by simpa using hc)
                dsimp only at this
                rw [h2'] at this
                exact absurd this (by decide)
              refine ⟨(y + 1, x), Or.inl hd, ?_, .single ⟨cand hg, ⟨hy1, hx, hgb⟩, ?_⟩⟩
              · rw [hne _ 0 l1 _ hd]; exact h2'
              · unfold Touch
                dsimp only
                refine ⟨fun h => ?_, by omega, by omega, by omega, by omega⟩
                have := (Prod.mk.inj h).1
                omega
            · have := I.pad ((y : Int) + 1) x (Or.inr (by omega))
              rw [this] at h2
              exact absurd h2 (by decide)
      · intro hnb
        exact ⟨x, rfl, hg, viaLeft hnb⟩
  · rw [if_neg hg]
    have l1 : ∀ y' x' : Int, ¬ (y' = y ∧ x' = x) → (setLab s y x 1).lab y' x' = s.lab y' x' := fun y' x' h => setLab_ne s _ _ _ h
    refine ⟨_, _, rfl, ?_, fun h => (by cases h), rfl, Nat.le_succ _⟩
    refine I.extend R C good strong hy hx hn 1 _ l1 (setLab_same s _ _ _) (fun _ => rfl) (fun h => absurd h hg) ?_ (fun h => absurd h hg)
    rw [if_neg (by decide)]; rfl

/-- Pixels treated when rows `y0` and below have been treated. -/
def RowsDone (y0 : Nat) (p : Nat × Nat) : Prop := y0 ≤ p.1 ∧ p.1 < R ∧ p.2 < C

theorem PInv.congr {done done' : Nat × Nat → Prop} (h : ∀ p, done p ↔ done' p) {y0 : Nat} {s : Scan} (I : PInv R C good strong done y0 s) :
    PInv R C good strong done' y0 s := by
  have : done = done' := funext fun p => propext (h p)
  rw [← this]; exact I

theorem reserve_lab (n : Nat) (s : Scan) : (reserve n s).lab = s.lab := by unfold reserve; split <;> rfl
theorem reserve_stack (n : Nat) (s : Scan) : (reserve n s).stack = s.stack := by unfold reserve; split <;> rfl
theorem reserve_cap (n : Nat) (s : Scan) : s.stack.length + n ≤ (reserve n s).cap := by
  unfold reserve; split
  · exact le_max_right _ _
  · omega

theorem nmsRow_spec {y : Nat} (hy : y < R) {s : Scan} (I : PInv R C good strong (RowsDone R C (y + 1)) (y + 1) s) :
    ∃ s', nmsRow R C (good y) (strong y) y s = some s' ∧ PInv R C good strong (RowsDone R C y) y s' := by
  set s1 := setLab (setLab (setLab (setLab s y (-2) 1) y (-1) 1) y C 1) y ((C : Int) + 1) 1 with hs1
  have lab1 : ∀ y' x' : Int, ¬ (y' = y ∧ (x' = -2 ∨ x' = -1 ∨ x' = C ∨ x' = (C : Int) + 1)) → s1.lab y' x' = s.lab y' x' := by
    intro y' x' h
    rw [hs1, setLab_ne _ _ _ _ (by omega), setLab_ne _ _ _ _ (by omega), setLab_ne _ _ _ _ (by omega), setLab_ne _ _ _ _ (by omega)]
  have labm : s1.lab y (-1) = 1 := by
    rw [hs1, setLab_ne _ _ _ _ (by omega), setLab_ne _ _ _ _ (by omega), setLab_same]
  have labc : s1.lab y C = 1 := by
    rw [hs1, setLab_ne _ _ _ _ (by omega), setLab_same]
  have st1 : s1.stack = s.stack := by rw [hs1]; rfl
  have old : ∀ p : Nat × Nat, RowsDone R C (y + 1) p → s1.lab p.1 p.2 = s.lab p.1 p.2 := by
    intro p hp
    refine lab1 _ _ fun h => ?_
    have := hp.1
    omega
  have I1 : PInv R C good strong (RowsDone R C (y + 1)) y (reserve C s1) := by
    refine ⟨I.img, ?_, ?_, ?_, ?_, ?_, ?_⟩
    · intro p hp hg; rw [reserve_lab, old p hp]; exact I.bad p hp hg
    · intro p hp hg; rw [reserve_lab, old p hp]; exact I.ok p hp hg
    · intro p hp hg hs
      exact linked_mono R C good (fun _ h => h) (fun p hp => by rw [reserve_lab]; exact old p hp) (I.link p hp hg hs)
    · intro q
      rw [reserve_stack, st1, I.stk]
      constructor
      · rintro ⟨p, a, b, c⟩
        exact ⟨p, a, b, by rw [reserve_lab, old p a]; exact c⟩
      · rintro ⟨p, a, b, c⟩
        exact ⟨p, a, b, by rw [reserve_lab, old p a] at c; exact c⟩
    · intro y' x' h
      rw [reserve_lab, lab1 _ _ (by omega)]
      exact I.pad y' x' h
    · intro y' h1 h2
      rw [reserve_lab]
      by_cases e : y' = y
      · subst e; exact ⟨labm, labc⟩
      · rw [lab1 _ _ (by omega), lab1 _ _ (by omega)]
        exact I.side y' (by omega) h2
  have hcap := reserve_cap C s1
  obtain ⟨⟨s', nb'⟩, e, h1, -, -, -⟩ := foldlM_inv (nmsCol R C (good y) (strong y) y) (List.range C)
    (fun pre a => PInv R C good strong (fun p => RowsDone R C (y + 1) p ∨ (p.1 = y ∧ p.2 < pre.length)) y a.1 ∧
      Flag R C good (fun p => RowsDone R C (y + 1) p ∨ (p.1 = y ∧ p.2 < pre.length)) a.1 y pre.length a.2 ∧
      a.1.cap = (reserve C s1).cap ∧ a.1.stack.length ≤ s1.stack.length + pre.length)
    (fun pre x post a hl ⟨h1, h2, h3, h4⟩ => by
      obtain ⟨s0, nb⟩ := a
      dsimp only at h3 h4
      have hlen : pre.length < C := by
        have := congrArg List.length hl
        simp at this
        omega
      have hxe : x = pre.length := by
        have h : (List.range C)[pre.length]? = (pre ++ x :: post)[pre.length]? := by rw [← hl]
        rw [List.getElem?_range hlen, List.getElem?_append_right (le_refl _)] at h
        simp at h
        exact h.symm
      subst hxe
      have hmem : ∀ p : Nat × Nat, ((RowsDone R C (y + 1) p ∨ (p.1 = y ∧ p.2 < pre.length)) ∨ p = (y, pre.length)) ↔
          (RowsDone R C (y + 1) p ∨ (p.1 = y ∧ p.2 < (pre ++ [pre.length]).length)) := by
        intro p
        rw [List.length_append, List.length_singleton]
        constructor
        · rintro ((h | h) | rfl)
          · exact Or.inl h
          · exact Or.inr ⟨h.1, by omega⟩
          · exact Or.inr ⟨rfl, by dsimp only; omega⟩
        · rintro (h | h)
          · exact Or.inl (Or.inl h)
          · by_cases e : p.2 = pre.length
            · exact Or.inr (Prod.ext h.1 e)
            · exact Or.inl (Or.inr ⟨h.1, by omega⟩)
      obtain ⟨s', nb', e, a1, a2, a3, a4⟩ := nmsCol_spec R C good strong h1 hy hlen
        (by rintro (h | h)
            · have := h.1; dsimp only at this; omega
            · dsimp only at h; omega)
        (fun hy1 => Or.inl ⟨le_refl _, hy1, hlen⟩) h2 (by rw [h3]; omega)
      have hd := funext fun p => propext (hmem p)
      rw [hd] at a1 a2
      refine ⟨(s', nb'), e, a1, ?_, by rw [← h3]; exact a3, ?_⟩
      · rw [List.length_append, List.length_singleton]
        rw [List.length_append, List.length_singleton] at a2
        exact a2
      · rw [List.length_append, List.length_singleton]
        show s'.stack.length ≤ _
        omega) (reserve C s1, false)
    ⟨I1.congr R C good strong (fun p => by simp), fun h => (by cases h), rfl, by rw [reserve_stack]; simp⟩
  refine ⟨s', ?_, ?_⟩
  · unfold nmsRow
    dsimp only
    rw [← hs1, e]
    rfl
  · refine h1.congr R C good strong fun p => ?_
    rw [List.length_range]
    unfold RowsDone
    constructor
    · rintro (⟨a, b, c⟩ | ⟨a, b⟩)
      · exact ⟨by omega, b, c⟩
      · exact ⟨by omega, by omega, b⟩
    · rintro ⟨a, b, c⟩
      by_cases e : p.1 = y
      · exact Or.inr ⟨e, c⟩
      · exact Or.inl ⟨by omega, b, c⟩

/-! ## The hysteresis loop -/

/-- Number of labels 0. -/
def zeros (s : Scan) : Nat := ((Finset.range R ×ˢ Finset.range C).filter fun (p : Nat × Nat) => s.lab p.1 p.2 = 0).card

theorem zeros_le (s : Scan) : zeros R C s ≤ R * C := by
  unfold zeros
  refine (Finset.card_filter_le _ _).trans ?_
  rw [Finset.card_product, Finset.card_range, Finset.card_range]

theorem zeros_push (s s' : Scan) (y x : Nat) (hy : y < R) (hx : x < C) (h0 : s.lab y x = 0)
    (h : ∀ y' x' : Int, s'.lab y' x' = if y' = y ∧ x' = x then 2 else s.lab y' x') : zeros R C s' + 1 ≤ zeros R C s := by
  unfold zeros
  refine Finset.card_lt_card ?_
  rw [Finset.ssubset_iff_of_subset]
  · refine ⟨(y, x), ?_, ?_⟩
    · rw [Finset.mem_filter, Finset.mem_product, Finset.mem_range, Finset.mem_range]
      exact ⟨⟨hy, hx⟩, h0⟩
    · rw [Finset.mem_filter]
      rintro ⟨-, h2⟩
      rw [h, if_pos ⟨rfl, rfl⟩] at h2
      exact absurd h2 (by decide)
  · intro p hp
    rw [Finset.mem_filter] at hp ⊢
    refine ⟨hp.1, ?_⟩
    have h2 := hp.2
    rw [h] at h2
    split at h2
    · exact absurd h2 (by decide)
    · exact h2

/-- Reached from a strong candidate. -/
abbrev Hyst (p : Nat × Nat) : Prop := Hysteresis (Cand R C good) (fun q => strong q.1 q.2 = true) p

/-- Invariant of the loop; `ex` is a pixel being treated, whose neighbours in `ds` have been examined. -/
structure FInv (ex : Option (Nat × Nat)) (ds : List (Int × Int)) (s : Scan) : Prop where
  bad : ∀ y x : Nat, y < R → x < C → good y x = false → s.lab y x = 1
  ok : ∀ y x : Nat, y < R → x < C → good y x = true → s.lab y x = 0 ∨ (s.lab y x = 2 ∧ Hyst R C good strong (y, x))
  ring : ∀ y x : Int, -1 ≤ y → y ≤ R → -1 ≤ x → x ≤ C → ¬ (0 ≤ y ∧ y < R ∧ 0 ≤ x ∧ x < C) → s.lab y x = 1
  stk : ∀ q ∈ s.stack, ∃ y x : Nat, y < R ∧ x < C ∧ q = ((y : Int), (x : Int)) ∧ s.lab y x = 2
  closed : ∀ y x : Nat, y < R → x < C → s.lab y x = 2 →
    ((y : Int), (x : Int)) ∈ s.stack ∨ ex = some (y, x) ∨ ∀ d ∈ dirs, s.lab ((y : Int) + d.1) ((x : Int) + d.2) ≠ 0
  part : ∀ p, ex = some p → ∀ d ∈ ds, s.lab ((p.1 : Int) + d.1) ((p.2 : Int) + d.2) ≠ 0
  link : ∀ y x : Nat, y < R → x < C → good y x = true → strong y x = true →
    ∃ q : Nat × Nat, q.1 < R ∧ q.2 < C ∧ s.lab q.1 q.2 = 2 ∧ Relation.ReflTransGen (Step (Cand R C good)) (y, x) q

theorem dirs_touch (y x y' x' : Nat) (d : Int × Int) (hd : d ∈ dirs) (h1 : (y' : Int) = y + d.1) (h2 : (x' : Int) = x + d.2) :
    Touch (y, x) (y', x') := by
  unfold dirs at hd
  simp only [List.mem_cons, List.not_mem_nil, or_false] at hd
  unfold Touch
  dsimp only
  refine ⟨fun h => ?_, ?_, ?_, ?_, ?_⟩
  · obtain ⟨a, b⟩ := Prod.mk.inj h
    rcases hd with rfl | rfl | rfl | rfl | rfl | rfl | rfl | rfl <;> dsimp only at h1 h2 <;> omega
  all_goals rcases hd with rfl | rfl | rfl | rfl | rfl | rfl | rfl | rfl <;> dsimp only at h1 h2 <;> omega

theorem touch_dirs {y x y' x' : Nat} (h : Touch (y, x) (y', x')) : (((y' : Int) - y), ((x' : Int) - x)) ∈ dirs := by
  unfold Touch at h
  dsimp only at h
  obtain ⟨h0, h1, h2, h3, h4⟩ := h
  have a1 : -1 ≤ (y' : Int) - y ∧ (y' : Int) - y ≤ 1 := by omega
  have a2 : -1 ≤ (x' : Int) - x ∧ (x' : Int) - x ≤ 1 := by omega
  have a3 : ¬ ((y' : Int) - y = 0 ∧ (x' : Int) - x = 0) := by
    rintro ⟨e1, e2⟩
    exact h0 (Prod.ext (by dsimp only; omega) (by dsimp only; omega))
  revert a1 a2 a3
  generalize (y' : Int) - y = a
  generalize (x' : Int) - x = b
  intro a1 a2 a3
  obtain ⟨a1, a1'⟩ := a1
  obtain ⟨a2, a2'⟩ := a2
  interval_cases a <;> interval_cases b <;> first | decide | exact absurd ⟨rfl, rfl⟩ a3

theorem dirs_range (d : Int × Int) (hd : d ∈ dirs) : -1 ≤ d.1 ∧ d.1 ≤ 1 ∧ -1 ≤ d.2 ∧ d.2 ≤ 1 := by
  revert d
  decide

theorem visitN_spec {y x : Nat} (hy : y < R) (hx : x < C) {ds : List (Int × Int)} {s : Scan} {d : Int × Int} (hd : d ∈ dirs)
    (I : FInv R C good strong (some (y, x)) ds s) (hp : Hyst R C good strong (y, x)) (hg : good y x = true) (hcap : s.stack.length < s.cap) :
    ∃ s', visitN R C ((y : Int), (x : Int)) s d = some s' ∧ FInv R C good strong (some (y, x)) (ds ++ [d]) s' ∧ s'.cap = s.cap ∧
      s'.stack.length ≤ s.stack.length + 1 ∧ zeros R C s' + s'.stack.length ≤ zeros R C s + s.stack.length := by
  obtain ⟨d1, d2, d3, d4⟩ := dirs_range d hd
  have hin : inMap R C ((y : Int) + d.1) ((x : Int) + d.2) = true := by
    unfold inMap; rw [decide_eq_true_eq]; omega
  unfold visitN
  dsimp only
  rw [if_pos hin]
  by_cases h0 : s.lab ((y : Int) + d.1) ((x : Int) + d.2) = 0
  · rw [if_pos h0]
    have himg : 0 ≤ (y : Int) + d.1 ∧ (y : Int) + d.1 < R ∧ 0 ≤ (x : Int) + d.2 ∧ (x : Int) + d.2 < C := by
      by_contra hc
      have := I.ring _ _ (by omega) (by omega) (by omega) (by omega) hc
      rw [h0] at this
      exact absurd this (by decide)
    obtain ⟨y', hy'⟩ := Int.eq_ofNat_of_zero_le himg.1
    obtain ⟨x', hx'⟩ := Int.eq_ofNat_of_zero_le himg.2.2.1
    rw [hy'] at himg h0 hin
    rw [hx'] at himg h0 hin
    rw [hy', hx']
    have hyR : y' < R := by omega
    have hxC : x' < C := by omega
    have hg' : good y' x' = true := by
      by_contra hc
      have := I.bad y' x' hyR hxC (by simpa using hc)
      rw [h0] at this
      exact absurd this (by decide)
    have hh : Hyst R C good strong (y', x') := by
      obtain ⟨q, a, b, c⟩ := hp
      exact ⟨q, a, b, c.tail ⟨⟨hy, hx, hg⟩, ⟨hyR, hxC, hg'⟩, dirs_touch y x y' x' d hd hy'.symm hx'.symm⟩⟩
    unfold push
    rw [if_pos ⟨hin, hcap⟩]
    have lab : ∀ a b : Int, ({ setLab s y' x' 2 with stack := ((y' : Int), (x' : Int)) :: s.stack } : Scan).lab a b =
        if a = (y' : Int) ∧ b = (x' : Int) then 2 else s.lab a b := fun a b => rfl
    have nz : ∀ a b : Int, s.lab a b ≠ 0 → ({ setLab s y' x' 2 with stack := ((y' : Int), (x' : Int)) :: s.stack } : Scan).lab a b ≠ 0 := by
      intro a b h
      rw [lab]
      split
      · decide
      · exact h
    refine ⟨_, rfl, ⟨?_, ?_, ?_, ?_, ?_, ?_, ?_⟩, rfl, by simp, ?_⟩
    · intro a b ha hb hgb
      rw [lab, if_neg]
      · exact I.bad a b ha hb hgb
      · rintro ⟨e1, e2⟩
        have e1 : a = y' := by exact_mod_cast e1
        have e2 : b = x' := by exact_mod_cast e2
        rw [e1, e2, hg'] at hgb
        cases hgb
    · intro a b ha hb hgb
      rw [lab]
      by_cases e : (a : Int) = (y' : Int) ∧ (b : Int) = (x' : Int)
      · rw [if_pos e]
        have e1 : a = y' := by exact_mod_cast e.1
        have e2 : b = x' := by exact_mod_cast e.2
        rw [e1, e2]
        exact Or.inr ⟨rfl, hh⟩
      · rw [if_neg e]
        exact I.ok a b ha hb hgb
    · intro a b h1 h2 h3 h4 h5
      rw [lab, if_neg (by omega)]
      exact I.ring a b h1 h2 h3 h4 h5
    · intro q hq
      rcases List.mem_cons.1 hq with rfl | hq
      · exact ⟨y', x', hyR, hxC, rfl, by rw [lab, if_pos ⟨rfl, rfl⟩]⟩
      · obtain ⟨a, b, ha, hb, e, h2⟩ := I.stk q hq
        refine ⟨a, b, ha, hb, e, ?_⟩
        rw [lab]
        split
        · rfl
        · exact h2
    · intro a b ha hb h2
      rw [lab] at h2
      by_cases e : (a : Int) = (y' : Int) ∧ (b : Int) = (x' : Int)
      · left
        rw [e.1, e.2]
        exact List.mem_cons_self
      · rw [if_neg e] at h2
        rcases I.closed a b ha hb h2 with h | h | h
        · exact Or.inl (List.mem_cons_of_mem _ h)
        · exact Or.inr (Or.inl h)
        · exact Or.inr (Or.inr fun d hd => nz _ _ (h d hd))
    · intro p hpe d' hd'
      rcases List.mem_append.1 hd' with h | h
      · exact nz _ _ (I.part p hpe d' h)
      · rw [List.mem_singleton] at h
        rw [h]
        injection hpe with hpe
        rw [← hpe]
        dsimp only
        rw [lab, if_pos ⟨hy', hx'⟩]
        decide
    · intro a b ha hb hgb hs
      obtain ⟨q, q1, q2, q3, q4⟩ := I.link a b ha hb hgb hs
      refine ⟨q, q1, q2, ?_, q4⟩
      rw [lab]
      split
      · rfl
      · exact q3
    · have := zeros_push R C s { setLab s y' x' 2 with stack := ((y' : Int), (x' : Int)) :: s.stack } y' x' hyR hxC h0 lab
      rw [List.length_cons]
      show zeros R C { setLab s y' x' 2 with stack := ((y' : Int), (x' : Int)) :: s.stack } + (s.stack.length + 1) ≤ zeros R C s + s.stack.length
      omega
  · rw [if_neg h0]
    refine ⟨s, rfl, ⟨I.bad, I.ok, I.ring, I.stk, I.closed, ?_, I.link⟩, rfl, Nat.le_succ _, le_refl _⟩
    intro p hpe d' hd'
    rcases List.mem_append.1 hd' with h | h
    · exact I.part p hpe d' h
    · rw [List.mem_singleton] at h
      rw [h]
      injection hpe with hpe
      rw [← hpe]
      exact h0

theorem flood_spec : ∀ (fuel : Nat) (s : Scan), FInv R C good strong none [] s → zeros R C s + s.stack.length ≤ fuel →
    ∃ s', flood R C fuel s = some s' ∧ FInv R C good strong none [] s' ∧ s'.stack = [] := by
  intro fuel
  induction fuel with
  | zero =>
    intro s I hf
    have : s.stack = [] := List.length_eq_zero_iff.1 (by omega)
    refine ⟨s, ?_, I, this⟩
    unfold flood
    rw [if_pos this]
  | succ fuel ih =>
    intro s I hf
    unfold flood
    cases hs : s.stack with
    | nil => exact ⟨s, rfl, I, hs⟩
    | cons q rest =>
      dsimp only
      obtain ⟨y, x, hy, hx, hq, h2⟩ := I.stk q (by rw [hs]; exact List.mem_cons_self)
      have hg : good y x = true := by
        by_contra hc
        have := I.bad y x hy hx (by simpa using hc)
        rw [h2] at this
        exact absurd this (by decide)
      have hp : Hyst R C good strong (y, x) := by
        rcases I.ok y x hy hx hg with h | h
        · rw [h2] at h; exact absurd h (by decide)
        · exact h.2
      have I0 : FInv R C good strong (some (y, x)) [] { reserve 8 s with stack := rest } := by
        refine ⟨?_, ?_, ?_, ?_, ?_, ?_, ?_⟩ <;> dsimp only <;> try rw [reserve_lab]
        · exact I.bad
        · exact I.ok
        · exact I.ring
        · intro q hq
          exact I.stk q (by rw [hs]; exact List.mem_cons_of_mem _ hq)
        · intro a b ha hb h
          rcases I.closed a b ha hb h with h | h | h
          · rw [hs] at h
            rcases List.mem_cons.1 h with h | h
            · right; left
              rw [hq] at h
              have e1 := (Prod.mk.inj h).1
              have e2 := (Prod.mk.inj h).2
              have e1 : a = y := by exact_mod_cast e1
              have e2 : b = x := by exact_mod_cast e2
              rw [e1, e2]
            · exact Or.inl h
          · cases h
          · exact Or.inr (Or.inr h)
        · intro p _ d hd; simp at hd
        · exact I.link
      have hcap : rest.length + 9 ≤ (reserve 8 s).cap := by
        have := reserve_cap 8 s
        rw [hs, List.length_cons] at this
        omega
      obtain ⟨s', e, I', -, -, hz⟩ := foldlM_inv (visitN R C q) dirs
        (fun pre t => FInv R C good strong (some (y, x)) pre t ∧ t.cap = (reserve 8 s).cap ∧ t.stack.length ≤ rest.length + pre.length ∧
          zeros R C t + t.stack.length ≤ zeros R C { reserve 8 s with stack := rest } + rest.length)
        (fun pre d post t hl ⟨h1, h2, h3, h4⟩ => by
          have hlen : pre.length < 8 := by
            have := congrArg List.length hl
            simp [dirs] at this
            omega
          obtain ⟨t', e, a1, a2, a3, a4⟩ := visitN_spec R C good strong hy hx (d := d) (by rw [hl]; simp) h1 hp hg (by rw [h2]; omega)
          rw [hq]
          refine ⟨t', e, a1, by rw [a2]; exact h2, ?_, by omega⟩
          rw [List.length_append, List.length_singleton]
          omega)
        { reserve 8 s with stack := rest } ⟨I0, rfl, by simp, le_refl _⟩
      rw [e]
      dsimp only
      have hz0 : zeros R C { reserve 8 s with stack := rest } = zeros R C s := by
        unfold zeros
        dsimp only
        rw [reserve_lab]
      refine ih s' ?_ ?_
      · refine ⟨I'.bad, I'.ok, I'.ring, I'.stk, ?_, fun p h => (by cases h), I'.link⟩
        intro a b ha hb h
        rcases I'.closed a b ha hb h with h | h | h
        · exact Or.inl h
        · right; right
          injection h with h
          have e1 := (Prod.mk.inj h).1
          have e2 := (Prod.mk.inj h).2
          subst e1 e2
          exact I'.part _ rfl
        · exact Or.inr (Or.inr h)
      · rw [hz0] at hz
        rw [hs, List.length_cons] at hf
        omega

/-- From the end of the suppression pass to the end of the hysteresis loop. -/
theorem flood_final {s : Scan} (I : PInv R C good strong (RowsDone R C 0) 0 s) :
    ∃ s', flood R C (s.stack.length + R * C) s = some s' ∧ ∀ y x : Nat, y < R → x < C →
      - (s'.lab y x >>> 1) = (if s'.lab y x = 2 then 255 else 0) ∧ (s'.lab y x = 2 ↔ Hyst R C good strong (y, x)) := by
  have dn : ∀ {y x : Nat}, y < R → x < C → RowsDone R C 0 (y, x) := fun h1 h2 => ⟨Nat.zero_le _, h1, h2⟩
  have I0 : FInv R C good strong none [] s := by
    refine ⟨fun y x hy hx => I.bad _ (dn hy hx), ?_, ?_, ?_, ?_, fun p h => (by cases h), ?_⟩
    · intro y x hy hx hg
      rcases I.ok _ (dn hy hx) hg with h | ⟨h, hs⟩
      · exact Or.inl h
      · exact Or.inr ⟨h, ⟨(y, x), ⟨hy, hx, hg⟩, hs, .refl⟩⟩
    · intro y x h1 h2 h3 h4 h5
      by_cases hp : y < 0 ∨ (R : Int) ≤ y
      · exact I.pad y x hp
      · obtain ⟨y', hy'⟩ := Int.eq_ofNat_of_zero_le (show 0 ≤ y by omega)
        obtain ⟨a, b⟩ := I.side y' (Nat.zero_le _) (by omega)
        rw [hy']
        rcases (show x = -1 ∨ x = C by omega) with e | e
        · rw [e]; exact a
        · rw [e]; exact b
    · intro q hq
      obtain ⟨p, a, b, c⟩ := (I.stk q).1 hq
      exact ⟨p.1, p.2, a.2.1, a.2.2, b, c⟩
    · intro y x hy hx h
      exact Or.inl ((I.stk _).2 ⟨(y, x), dn hy hx, rfl, h⟩)
    · intro y x hy hx hg hs
      obtain ⟨q, a, b, c⟩ := I.link _ (dn hy hx) hg hs
      exact ⟨q, a.2.1, a.2.2, b, c⟩
  obtain ⟨s', e, I', hst⟩ := flood_spec R C good strong (s.stack.length + R * C) s I0 (by have := zeros_le R C s; omega)
  refine ⟨s', e, fun y x hy hx => ?_⟩
  have vals : s'.lab y x = 0 ∨ s'.lab y x = 1 ∨ s'.lab y x = 2 := by
    by_cases hg : good y x = true
    · rcases I'.ok y x hy hx hg with h | h
      · exact Or.inl h
      · exact Or.inr (Or.inr h.1)
    · exact Or.inr (Or.inl (I'.bad y x hy hx (by simpa using hg)))
  have prop : ∀ p q : Nat × Nat, Relation.ReflTransGen (Step (Cand R C good)) p q → p.1 < R → p.2 < C → s'.lab p.1 p.2 = 2 → s'.lab q.1 q.2 = 2 := by
    intro p q h h1 h2 h3
    induction h with
    | refl => exact h3
    | @tail b c hb hs ih =>
      obtain ⟨hcb, hcc, ht⟩ := hs
      rcases I'.closed b.1 b.2 hcb.1 hcb.2.1 ih with h | h | h
      · rw [hst] at h; simp at h
      · cases h
      · have := h _ (touch_dirs (y := b.1) (x := b.2) (y' := c.1) (x' := c.2) ht)
        dsimp only at this
        rw [add_sub_cancel, add_sub_cancel] at this
        rcases I'.ok c.1 c.2 hcc.1 hcc.2.1 hcc.2.2 with h' | h'
        · exact absurd h' this
        · exact h'.1
  refine ⟨?_, ?_, ?_⟩
  · rcases vals with h | h | h <;> rw [h] <;> decide
  · intro h
    by_cases hg : good y x = true
    · rcases I'.ok y x hy hx hg with h' | h'
      · rw [h] at h'; exact absurd h' (by decide)
      · exact h'.2
    · have := I'.bad y x hy hx (by simpa using hg)
      rw [h] at this
      exact absurd this (by decide)
  · rintro ⟨q, hc, hs, hr⟩
    obtain ⟨t, t1, t2, t3, t4⟩ := I'.link q.1 q.2 hc.1 hc.2.1 hc.2.2 hs
    exact prop t (y, x) ((rtg_symm t4).trans hr) t1 t2 t3

end

end Litiv.EdgeLBSP
