import Verif.Model.SlicConn
import Verif.Spec.SlicConn
import Mathlib.Data.List.Nodup
import Mathlib.Data.Finset.Card

/-! # Lemmas on connected regions -/
namespace Litiv.SlicConn

variable {w h : Nat} {lab : Nat × Nat → ℤ}

theorem mem_frame {p : Nat × Nat} : p ∈ frame w h ↔ p.1 < w ∧ p.2 < h := by
  unfold frame; simp

theorem Adj.symm {p q : Nat × Nat} (a : Adj w h p q) : Adj w h q p := by
  obtain ⟨h1, h2, h3⟩ := a
  refine ⟨h2, h1, ?_⟩
  omega

theorem Adj.ne {p q : Nat × Nat} (a : Adj w h p q) : p ≠ q := by
  rintro rfl
  obtain ⟨-, -, h3⟩ := a
  omega

theorem Joined.symm {p q : Nat × Nat} (j : Joined w h lab p q) : Joined w h lab q p := by
  induction j with
  | refl => exact .refl
  | tail _ a ih => exact .head ⟨a.1.symm, a.2.symm⟩ ih

theorem joined_lab {p q : Nat × Nat} (j : Joined w h lab p q) : lab p = lab q := by
  induction j with
  | refl => rfl
  | tail _ a ih => exact ih.trans a.2

theorem Joined.mem {p q : Nat × Nat} (j : Joined w h lab p q) (hp : p ∈ frame w h) : q ∈ frame w h := by
  induction j with
  | refl => exact hp
  | tail _ a _ => exact a.1.2.1

open Classical in
theorem mem_region {p q : Nat × Nat} (hp : p ∈ frame w h) : q ∈ region w h lab p ↔ Joined w h lab p q := by
  unfold region
  rw [Finset.mem_filter]
  exact ⟨fun h => h.2, fun h => ⟨h.mem hp, h⟩⟩

theorem region_congr {p q : Nat × Nat} (hp : p ∈ frame w h) (j : Joined w h lab p q) : region w h lab q = region w h lab p := by
  ext r
  rw [mem_region hp, mem_region (j.mem hp)]
  exact ⟨fun k => j.trans k, fun k => j.symm.trans k⟩

theorem nbr_some {p q : Nat × Nat} {d : ℤ × ℤ} (hp : p ∈ frame w h) (hd : d ∈ dirs) (e : nbr w h p d = some q) : Adj w h p q := by
  unfold nbr at e
  dsimp only at e
  split at e
  · rename_i hc
    cases e
    rw [mem_frame] at hp
    unfold dirs at hd
    simp only [List.mem_cons, List.not_mem_nil, or_false] at hd
    refine ⟨mem_frame.2 hp, mem_frame.2 ⟨?_, ?_⟩, ?_⟩ <;> dsimp only
    · omega
    · omega
    · rcases hd with rfl | rfl | rfl | rfl <;> dsimp only at hc ⊢ <;> omega
  · cases e

theorem nbr_of_adj {p q : Nat × Nat} (a : Adj w h p q) : ∃ d ∈ dirs, nbr w h p d = some q := by
  obtain ⟨h1, h2, h3⟩ := a
  rw [mem_frame] at h1 h2
  obtain ⟨a, b⟩ := p
  obtain ⟨c, d⟩ := q
  dsimp only at *
  unfold nbr dirs
  simp only [List.mem_cons, List.not_mem_nil, or_false]
  rcases h3 with ⟨rfl, h | h⟩ | ⟨rfl, h | h⟩
  · refine ⟨(0, 1), by simp, ?_⟩
    dsimp only
    rw [if_pos (by omega)]
    simp only [Option.some.injEq, Prod.mk.injEq]; omega
  · refine ⟨(0, -1), by simp, ?_⟩
    dsimp only
    rw [if_pos (by omega)]
    simp only [Option.some.injEq, Prod.mk.injEq]; omega
  · refine ⟨(1, 0), by simp, ?_⟩
    dsimp only
    rw [if_pos (by omega)]
    simp only [Option.some.injEq, Prod.mk.injEq]; omega
  · refine ⟨(-1, 0), by simp, ?_⟩
    dsimp only
    rw [if_pos (by omega)]
    simp only [Option.some.injEq, Prod.mk.injEq]; omega

/-! ## The first loop over neighbours -/

theorem adjacent_spec (new : Nat × Nat → ℤ) {p : Nat × Nat} (hp : p ∈ frame w h) (adj : ℤ) :
    ((∀ q, Adj w h p q → new q < 0) ∧ adjacent w h new p adj = adj) ∨
      ∃ q, Adj w h p q ∧ 0 ≤ new q ∧ adjacent w h new p adj = new q := by
  have key : ∀ (l : List (ℤ × ℤ)), (∀ d ∈ l, d ∈ dirs) → ∀ a : ℤ,
      ((∀ d ∈ l, ∀ q, nbr w h p d = some q → new q < 0) ∧ l.foldl (fun a d => match nbr w h p d with
        | some q => if new q ≥ 0 then new q else a
        | none => a) a = a) ∨
      ∃ q, Adj w h p q ∧ 0 ≤ new q ∧ l.foldl (fun a d => match nbr w h p d with
        | some q => if new q ≥ 0 then new q else a
        | none => a) a = new q := by
    intro l
    induction l with
    | nil => intro _ a; exact Or.inl ⟨by simp, rfl⟩
    | cons d l ih =>
      intro hl a
      simp only [List.foldl_cons]
      have hl' : ∀ d ∈ l, d ∈ dirs := fun d hd => hl d (List.mem_cons_of_mem _ hd)
      cases hn : nbr w h p d with
      | none =>
        dsimp only
        rcases ih hl' a with ⟨h1, h2⟩ | h1
        · refine Or.inl ⟨fun d' hd' q hq => ?_, h2⟩
          rcases List.mem_cons.1 hd' with rfl | hd'
          · rw [hn] at hq; cases hq
          · exact h1 d' hd' q hq
        · exact Or.inr h1
      | some q =>
        dsimp only
        have hadj := nbr_some hp (hl d List.mem_cons_self) hn
        by_cases hq : new q ≥ 0
        · rw [if_pos hq]
          rcases ih hl' (new q) with ⟨-, h2⟩ | h1
          · exact Or.inr ⟨q, hadj, hq, h2⟩
          · exact Or.inr h1
        · rw [if_neg hq]
          rcases ih hl' a with ⟨h1, h2⟩ | h1
          · refine Or.inl ⟨fun d' hd' q' hq' => ?_, h2⟩
            rcases List.mem_cons.1 hd' with rfl | hd'
            · rw [hn] at hq'; cases hq'; omega
            · exact h1 d' hd' q' hq'
          · exact Or.inr h1
  rcases key dirs (fun _ h => h) adj with ⟨h1, h2⟩ | h1
  · refine Or.inl ⟨fun q hq => ?_, h2⟩
    obtain ⟨d, hd, e⟩ := nbr_of_adj hq
    exact h1 d hd q e
  · exact Or.inr h1

/-! ## Collecting a region -/

/-- The state while the region of `s` is collected. -/
structure Flood (w h : Nat) (lab : Nat × Nat → ℤ) (s : Nat × Nat) (label : ℤ) (new₀ : Nat × Nat → ℤ)
    (st : List (Nat × Nat) × (Nat × Nat → ℤ)) : Prop where
  ex : ∃ t : List (Nat × Nat), st.1 = s :: t ∧ t.Nodup ∧ (∀ p ∈ t, p ∈ region w h lab s) ∧
    (∀ p, st.2 p = if p ∈ t then label else new₀ p) ∧ (t ≠ [] → ∃ p ∈ region w h lab s, p ≠ s)

variable {s : Nat × Nat} {label : ℤ} {new₀ : Nat × Nat → ℤ}

theorem Flood.mem (hs : s ∈ frame w h) {st} (f : Flood w h lab s label new₀ st) {p : Nat × Nat} (hp : p ∈ st.1) : p ∈ region w h lab s := by
  obtain ⟨t, ht, -, h2, -⟩ := f.ex
  rw [ht] at hp
  rcases List.mem_cons.1 hp with rfl | hp
  · exact (mem_region hs).2 .refl
  · exact h2 p hp

theorem Flood.length (hs : s ∈ frame w h) {st} (f : Flood w h lab s label new₀ st) : st.1.length ≤ w * h + 1 := by
  obtain ⟨t, ht, h1, h2, -⟩ := f.ex
  rw [ht, List.length_cons]
  have : t.toFinset ⊆ frame w h := by
    intro p hp
    exact ((mem_region hs).1 (h2 p (List.mem_toFinset.1 hp))).mem hs
  have h3 := Finset.card_le_card this
  rw [List.toFinset_card_of_nodup h1] at h3
  unfold frame at h3
  rw [Finset.card_product, Finset.card_range, Finset.card_range] at h3
  omega

theorem visit_flood (hs : s ∈ frame w h) (hl : 0 ≤ label) (h0 : ∀ p ∈ region w h lab s, new₀ p = -1) {st}
    (f : Flood w h lab s label new₀ st) {p : Nat × Nat} (hp : p ∈ st.1) {d : ℤ × ℤ} (hd : d ∈ dirs) :
    Flood w h lab s label new₀ (visit w h lab s label p st d) ∧
    (∃ u, (visit w h lab s label p st d).1 = st.1 ++ u) ∧
    (∀ q, st.2 q ≠ -1 → (visit w h lab s label p st d).2 q ≠ -1) ∧
    (∀ q, nbr w h p d = some q → lab s = lab q → (visit w h lab s label p st d).2 q ≠ -1) := by
  have hpr := f.mem hs hp
  have hj := (mem_region hs).1 hpr
  have hpf := hj.mem hs
  unfold visit
  cases hn : nbr w h p d with
  | none => exact ⟨f, ⟨[], by simp⟩, fun q hq => hq, fun q hq => by cases hq⟩
  | some q =>
    dsimp only
    have hadj := nbr_some hpf hd hn
    split
    · rename_i hc
      dsimp only
      have hq : q ∈ region w h lab s := (mem_region hs).2 (hj.tail ⟨hadj, (joined_lab hj).symm.trans hc.2⟩)
      refine ⟨⟨?_⟩, ⟨[q], rfl⟩, ?_, ?_⟩
      · obtain ⟨t, ht, h1, h2, h3, h4⟩ := f.ex
        have hqt : q ∉ t := by
          intro hq'
          have := h3 q
          rw [if_pos hq', hc.1] at this
          omega
        refine ⟨t ++ [q], by rw [ht]; rfl, ?_, ?_, ?_, ?_⟩
        · rw [List.nodup_append]
          refine ⟨h1, by simp, ?_⟩
          intro a ha b hb
          rw [List.mem_singleton] at hb
          rintro rfl
          subst hb
          exact hqt ha
        · intro r hr
          rcases List.mem_append.1 hr with hr | hr
          · exact h2 r hr
          · rw [List.mem_singleton] at hr; subst hr; exact hq
        · intro r
          unfold setAt
          dsimp only
          by_cases hr : r = q
          · subst hr
            rw [if_pos rfl, if_pos (by simp)]
          · rw [if_neg hr, h3 r]
            simp [hr]
        · intro _
          by_cases hqs : q = s
          · by_cases hps : p = s
            · exact absurd (hps.trans hqs.symm) hadj.ne
            · exact ⟨p, hpr, hps⟩
          · exact ⟨q, hq, hqs⟩
      · intro r hr
        unfold setAt
        split
        · omega
        · exact hr
      · intro r hr _
        cases hr
        unfold setAt
        rw [if_pos rfl]; omega
    · rename_i hc
      refine ⟨f, ⟨[], by simp⟩, fun q hq => hq, fun r hr hl => ?_⟩
      cases hr
      exact fun h => hc ⟨h, hl⟩

theorem visits_flood (hs : s ∈ frame w h) (hl : 0 ≤ label) (h0 : ∀ p ∈ region w h lab s, new₀ p = -1) (p : Nat × Nat) :
    ∀ (l : List (ℤ × ℤ)) (st), (∀ d ∈ l, d ∈ dirs) → Flood w h lab s label new₀ st → p ∈ st.1 →
    Flood w h lab s label new₀ (l.foldl (visit w h lab s label p) st) ∧
    (∃ u, (l.foldl (visit w h lab s label p) st).1 = st.1 ++ u) ∧
    (∀ q, st.2 q ≠ -1 → (l.foldl (visit w h lab s label p) st).2 q ≠ -1) ∧
    (∀ d ∈ l, ∀ q, nbr w h p d = some q → lab s = lab q → (l.foldl (visit w h lab s label p) st).2 q ≠ -1) := by
  intro l
  induction l with
  | nil => intro st _ f _; exact ⟨f, ⟨[], by simp⟩, fun q hq => hq, by simp⟩
  | cons d l ih =>
    intro st hd f hp
    obtain ⟨a1, ⟨u, a2⟩, a3, a4⟩ := visit_flood hs hl h0 f hp (hd d List.mem_cons_self)
    obtain ⟨b1, ⟨v, b2⟩, b3, b4⟩ := ih (visit w h lab s label p st d) (fun d hd' => hd d (List.mem_cons_of_mem _ hd')) a1
      (by rw [a2]; exact List.mem_append_left _ hp)
    rw [List.foldl_cons]
    refine ⟨b1, ⟨u ++ v, by rw [b2, a2, List.append_assoc]⟩, fun q hq => b3 q (a3 q hq), fun d' hd' q hn hl => ?_⟩
    rcases List.mem_cons.1 hd' with rfl | hd'
    · exact b3 q (a4 q hn hl)
    · exact b4 d' hd' q hn hl

theorem flood_gen (hs : s ∈ frame w h) (hl : 0 ≤ label) (h0 : ∀ p ∈ region w h lab s, new₀ p = -1) :
    ∀ (fuel c : Nat) (st : List (Nat × Nat) × (Nat × Nat → ℤ)), Flood w h lab s label new₀ st → c ≤ st.1.length → w * h + 2 ≤ fuel + c →
    (∀ i < c, ∀ p, st.1[i]? = some p → ∀ q, Adj w h p q → lab s = lab q → st.2 q ≠ -1) →
    ∃ r, flood w h lab s label fuel c st = some r ∧ Flood w h lab s label new₀ r ∧
      ∀ p ∈ r.1, ∀ q, Adj w h p q → lab s = lab q → r.2 q ≠ -1 := by
  intro fuel
  induction fuel with
  | zero =>
    intro c st f hc hfuel _
    have := f.length hs
    omega
  | succ fuel ih =>
    intro c st f hc hfuel hcl
    unfold flood
    by_cases hlt : c < st.1.length
    · rw [if_pos hlt, List.getElem?_eq_getElem hlt]
      dsimp only
      have hmem : st.1[c] ∈ st.1 := List.getElem_mem hlt
      obtain ⟨a1, ⟨u, a2⟩, a3, a4⟩ := visits_flood hs hl h0 st.1[c] dirs st (fun _ h => h) f hmem
      refine ih (c + 1) _ a1 (by rw [a2, List.length_append]; omega) (by omega) ?_
      intro i hi p hp q hadj hlq
      have hp' : st.1[i]? = some p := by
        rw [a2, List.getElem?_append_left (by omega)] at hp
        exact hp
      by_cases hic : i = c
      · subst hic
        rw [List.getElem?_eq_getElem hlt] at hp'
        cases hp'
        obtain ⟨d, hd, e⟩ := nbr_of_adj hadj
        exact a4 d hd q e hlq
      · exact a3 q (hcl i (by omega) p hp' q hadj hlq)
    · rw [if_neg hlt]
      refine ⟨st, rfl, f, fun p hp => ?_⟩
      obtain ⟨i, hi, rfl⟩ := List.getElem_of_mem hp
      exact hcl i (by omega) _ (List.getElem?_eq_getElem hi)

/-- What collecting a region does. -/
theorem flood_spec (hs : s ∈ frame w h) (hl : 0 ≤ label) (h0 : ∀ p ∈ region w h lab s, new₀ p = -1) :
    ∃ r, flood w h lab s label (w * h + 2) 0 ([s], new₀) = some r ∧
      (∀ p, p ∈ r.1 ↔ p ∈ region w h lab s) ∧
      r.1.length = (if 2 ≤ (region w h lab s).card then (region w h lab s).card + 1 else 1) ∧
      ∀ p, r.2 p = if p ∈ region w h lab s ∧ 2 ≤ (region w h lab s).card then label else new₀ p := by
  have f0 : Flood w h lab s label new₀ ([s], new₀) := ⟨[], rfl, by simp, by simp, by simp, by simp⟩
  obtain ⟨r, e, f, hcl⟩ := flood_gen hs hl h0 (w * h + 2) 0 _ f0 (by simp) (by omega) (by omega)
  refine ⟨r, e, ?_⟩
  obtain ⟨t, ht, h1, h2, h3, h4⟩ := f.ex
  have hss : s ∈ region w h lab s := (mem_region hs).2 .refl
  have hmark : ∀ q ∈ region w h lab s, r.2 q ≠ -1 → q ∈ t := by
    intro q hq hne
    by_contra hqt
    rw [h3 q, if_neg hqt] at hne
    exact hne (h0 q hq)
  -- everything joined to `s` is collected
  have hall : ∀ q, Joined w h lab s q → q ∈ r.1 := by
    intro q hq
    induction hq with
    | refl => rw [ht]; exact List.mem_cons_self
    | tail hj ha ih =>
      rename_i p q
      have hlq : lab s = lab q := (joined_lab hj).trans ha.2
      rw [ht]
      exact List.mem_cons_of_mem _ (hmark q ((mem_region hs).2 (hj.tail ha)) (hcl p ih q ha.1 hlq))
  have hiff : ∀ p, p ∈ r.1 ↔ p ∈ region w h lab s := by
    intro p
    exact ⟨fun hp => f.mem hs hp, fun hp => hall p ((mem_region hs).1 hp)⟩
  by_cases hbig : ∃ p ∈ region w h lab s, p ≠ s
  · have hcard : 2 ≤ (region w h lab s).card := by
      obtain ⟨p, hp, hne⟩ := hbig
      exact Finset.one_lt_card.2 ⟨p, hp, s, hss, hne⟩
    have hst : s ∈ t := by
      obtain ⟨p, hp, hne⟩ := hbig
      have hj := (mem_region hs).1 hp
      rcases Relation.ReflTransGen.cases_head hj with rfl | ⟨q, ha, -⟩
      · exact absurd rfl hne
      · have hq : q ∈ r.1 := hall q (.single ha)
        exact hmark s hss (hcl q hq s ha.1.symm rfl)
    have hteq : ∀ p, p ∈ t ↔ p ∈ region w h lab s := by
      intro p
      refine ⟨h2 p, fun hp => ?_⟩
      have := (hiff p).2 hp
      rw [ht] at this
      rcases List.mem_cons.1 this with rfl | h
      · exact hst
      · exact h
    refine ⟨hiff, ?_, ?_⟩
    · rw [if_pos hcard, ht, List.length_cons, ← List.toFinset_card_of_nodup h1]
      congr 2
      ext p
      rw [List.mem_toFinset, hteq]
    · intro p
      rw [h3 p]
      by_cases hp : p ∈ t
      · rw [if_pos hp, if_pos ⟨(hteq p).1 hp, hcard⟩]
      · rw [if_neg hp, if_neg fun h => hp ((hteq p).2 h.1)]
  · have htn : t = [] := by
      by_contra hne
      exact hbig (h4 hne)
    have hcard : ¬ 2 ≤ (region w h lab s).card := by
      intro hc
      obtain ⟨a, ha, b, hb, hne⟩ := Finset.one_lt_card.1 hc
      by_cases has : a = s
      · exact hbig ⟨b, hb, fun h => hne (has.trans h.symm)⟩
      · exact hbig ⟨a, ha, has⟩
    refine ⟨hiff, ?_, ?_⟩
    · rw [if_neg hcard, ht, htn]; rfl
    · intro p
      rw [h3 p, htn, if_neg (by simp), if_neg fun h => hcard h.2]

theorem fold_set (v : ℤ) : ∀ (l : List (Nat × Nat)) (n : Nat × Nat → ℤ) (p : Nat × Nat),
    (l.foldl (fun n p => setAt n p v) n) p = if p ∈ l then v else n p := by
  intro l
  induction l with
  | nil => intro n p; simp
  | cons a l ih =>
    intro n p
    rw [List.foldl_cons, ih]
    unfold setAt
    by_cases h1 : p ∈ l
    · rw [if_pos h1, if_pos (List.mem_cons_of_mem _ h1)]
    · rw [if_neg h1]
      by_cases h2 : p = a
      · rw [if_pos h2, if_pos (by rw [h2]; exact List.mem_cons_self)]
      · rw [if_neg h2, if_neg (by simp [h1, h2])]

/-! ## Outer loops -/

/-- Regions that keep a label of their own. -/
def Large (w h : Nat) (lims : ℤ) (lab : Nat × Nat → ℤ) (p : Nat × Nat) : Prop :=
  lims ≤ (region w h lab p).card ∧ 2 ≤ (region w h lab p).card

/-- The state between pixels; `done` are the pixels already visited. -/
structure Inv (w h : Nat) (lims : ℤ) (lab : Nat × Nat → ℤ) (done : List (Nat × Nat)) (st : St) : Prop where
  pos : 0 ≤ st.label
  range : ∀ p ∈ frame w h, st.new p = -1 ∨ (0 ≤ st.new p ∧ st.new p < max st.label 1)
  marked : ∀ p ∈ done, st.new p ≠ -1
  comp : ∀ p q, Joined w h lab p q → st.new p = st.new q
  conn : ∀ p ∈ frame w h, ∀ q ∈ frame w h, st.new p = st.new q → st.new p ≠ -1 → Joined w h st.new p q
  used : ∀ l, 0 ≤ l → l < st.label → ∃ p ∈ frame w h, Large w h lims lab p ∧ st.new p = l
  inj : ∀ p ∈ frame w h, ∀ q ∈ frame w h, Large w h lims lab p → Large w h lims lab q → st.new p = st.new q → st.new p ≠ -1 →
    Joined w h lab p q
  large : ∀ p ∈ frame w h, Large w h lims lab p → st.new p ≠ -1 → st.new p < st.label
  empty : done = [] → st.adj = 0 ∧ st.label = 0 ∧ ∀ p, st.new p = -1

/-- Changing labels that differ from those of a path. -/
theorem joined_congr {n n' : Nat × Nat → ℤ} {p q : Nat × Nat} (hn : ∀ r, n r = n p → n' r = n' p) (j : Joined w h n p q) :
    Joined w h n' p q := by
  induction j with
  | refl => exact .refl
  | tail hj ha ih =>
    rename_i a b
    have h1 : n a = n p := (joined_lab (lab := n) hj).symm
    exact ih.tail ⟨ha.1, by rw [hn a h1, hn b (ha.2.symm.trans h1)]⟩

/-- Giving a label to an unmarked region keeps classes connected, if it is new or used next to the region. -/
theorem attach {n : Nat × Nat → ℤ} {s : Nat × Nat} {v : ℤ} (hs : s ∈ frame w h) (hv : 0 ≤ v)
    (h0 : ∀ p ∈ region w h lab s, n p = -1)
    (hc : ∀ p ∈ frame w h, ∀ q ∈ frame w h, n p = n q → n p ≠ -1 → Joined w h n p q)
    (hlink : (∀ p ∈ frame w h, n p ≠ v) ∨ ∃ t, Adj w h s t ∧ n t = v)
    {n' : Nat × Nat → ℤ} (hn' : ∀ p, n' p = if p ∈ region w h lab s then v else n p) :
    ∀ p ∈ frame w h, ∀ q ∈ frame w h, n' p = n' q → n' p ≠ -1 → Joined w h n' p q := by
  have hout : ∀ r, n r ≠ -1 → n' r = n r := by
    intro r hr
    rw [hn' r, if_neg fun h => hr (h0 r h)]
  have hin : ∀ p ∈ region w h lab s, Joined w h n' s p := by
    intro p hp
    have hj := (mem_region hs).1 hp
    clear hp
    induction hj with
    | refl => exact .refl
    | tail hj ha ih =>
      rename_i a b
      refine ih.tail ⟨ha.1, ?_⟩
      rw [hn' a, hn' b, if_pos ((mem_region hs).2 hj), if_pos ((mem_region hs).2 (hj.tail ha))]
  have hold : ∀ p ∈ frame w h, ∀ q ∈ frame w h, n p = n q → n p ≠ -1 → Joined w h n' p q := by
    intro p hp q hq e hne
    refine joined_congr (fun r hr => ?_) (hc p hp q hq e hne)
    rw [hout r (by rw [hr]; exact hne), hout p hne, hr]
  have hx : ∀ q ∈ frame w h, q ∉ region w h lab s → n q = v → Joined w h n' s q := by
    intro q hq hqr e
    rcases hlink with hl | ⟨t, hadj, ht⟩
    · exact absurd e (hl q hq)
    · have hts : n' t = v := by rw [hout t (by omega), ht]
      have hss : n' s = v := by rw [hn' s, if_pos ((mem_region hs).2 .refl)]
      exact Relation.ReflTransGen.head ⟨hadj, by rw [hts, hss]⟩ (hold t hadj.2.1 q hq (by rw [ht, e]) (by omega))
  intro p hp q hq e hne
  by_cases hpr : p ∈ region w h lab s
  · have hpv : n' p = v := by rw [hn' p, if_pos hpr]
    by_cases hqr : q ∈ region w h lab s
    · exact (hin p hpr).symm.trans (hin q hqr)
    · refine (hin p hpr).symm.trans (hx q hq hqr ?_)
      rw [hn' q, if_neg hqr] at e
      rw [← e, hpv]
  · have hpn : n' p = n p := by rw [hn' p, if_neg hpr]
    by_cases hqr : q ∈ region w h lab s
    · have hqv : n' q = v := by rw [hn' q, if_pos hqr]
      exact (hx p hp hpr (by rw [← hpn, e, hqv])).symm.trans (hin q hqr)
    · have hqn : n' q = n q := by rw [hn' q, if_neg hqr]
      exact hold p hp q hq (by rw [← hpn, e, hqn]) (by rw [← hpn]; exact hne)

theorem large_congr {lims : ℤ} {p q : Nat × Nat} (hp : p ∈ frame w h) (j : Joined w h lab p q) :
    Large w h lims lab q ↔ Large w h lims lab p := by
  unfold Large
  rw [region_congr hp j]

/-- One pixel of the outer loops. -/
theorem pixelStep_inv {lims : ℤ} (hlims : 1 ≤ lims) {done : List (Nat × Nat)} {st : St} (iv : Inv w h lims lab done st)
    {s : Nat × Nat} (hs : s ∈ frame w h)
    (hnb : done ≠ [] → ∃ t, Adj w h s t ∧ t ∈ done) :
    ∃ st', pixelStep w h lims lab s st = some st' ∧ Inv w h lims lab (done ++ [s]) st' := by
  unfold pixelStep
  by_cases hm : st.new s = -1
  swap
  · rw [if_neg hm]
    refine ⟨st, rfl, { iv with marked := ?_, empty := by simp }⟩
    intro p hp
    rcases List.mem_append.1 hp with hp | hp
    · exact iv.marked p hp
    · rw [List.mem_singleton] at hp; subst hp; exact hm
  rw [if_pos hm]
  dsimp only
  have h0 : ∀ p ∈ region w h lab s, st.new p = -1 := by
    intro p hp
    rw [← iv.comp s p ((mem_region hs).1 hp), hm]
  obtain ⟨r, e, r1, r2, r3⟩ := flood_spec hs iv.pos h0
  rw [e]
  simp only [Option.bind_some]
  have hss : s ∈ region w h lab s := (mem_region hs).2 .refl
  have hcard1 : 1 ≤ (region w h lab s).card := Finset.card_pos.2 ⟨s, hss⟩
  have hmem : ∀ p q, Joined w h lab p q → (p ∈ region w h lab s ↔ q ∈ region w h lab s) := by
    intro p q j
    rw [mem_region hs, mem_region hs]
    exact ⟨fun k => k.trans j, fun k => k.trans j.symm⟩
  set adj := adjacent w h st.new s st.adj with hadj
  have hlink : (done = [] ∧ adj = 0) ∨ ∃ t, Adj w h s t ∧ 0 ≤ st.new t ∧ st.new t = adj := by
    rcases adjacent_spec st.new hs st.adj with ⟨a1, a2⟩ | ⟨t, a1, a2, a3⟩
    · by_cases hd : done = []
      · exact Or.inl ⟨hd, by rw [hadj, a2]; exact (iv.empty hd).1⟩
      · obtain ⟨t, t1, t2⟩ := hnb hd
        have := a1 t t1
        have h4 := iv.marked t t2
        have h5 := iv.range t t1.2.1
        omega
    · exact Or.inr ⟨t, a1, a2, a3.symm⟩
  have hadj0 : 0 ≤ adj ∧ adj < max st.label 1 := by
    rcases hlink with ⟨-, h⟩ | ⟨t, t1, t2, t3⟩
    · omega
    · have := iv.range t t1.2.1
      omega
  by_cases hsmall : (r.1.length : ℤ) ≤ lims
  · rw [if_pos hsmall]
    have hnl : ¬ Large w h lims lab s := by
      rintro ⟨l1, l2⟩
      rw [r2, if_pos l2] at hsmall
      push_cast at hsmall
      omega
    have hnew : ∀ p, (r.1.foldl (fun n p => setAt n p adj) r.2) p = if p ∈ region w h lab s then adj else st.new p := by
      intro p
      rw [fold_set]
      by_cases hp : p ∈ region w h lab s
      · rw [if_pos ((r1 p).2 hp), if_pos hp]
      · rw [if_neg (fun h => hp ((r1 p).1 h)), if_neg hp, r3 p, if_neg (fun h => hp h.1)]
    refine ⟨_, rfl, ⟨?_, ?_, ?_, ?_, ?_, ?_, ?_, ?_, by simp⟩⟩ <;> simp only [show st.label - 1 + 1 = st.label by omega]
    · exact iv.pos
    · intro p hp
      rw [hnew p]
      split
      · exact Or.inr hadj0
      · exact iv.range p hp
    · intro p hp
      rw [hnew p]
      split
      · omega
      · rename_i hpr
        rcases List.mem_append.1 hp with hp | hp
        · exact iv.marked p hp
        · rw [List.mem_singleton] at hp; subst hp; exact absurd hss hpr
    · intro p q j
      rw [hnew p, hnew q]
      simp only [hmem p q j]
      rw [iv.comp p q j]
    · refine attach hs hadj0.1 h0 iv.conn ?_ hnew
      rcases hlink with ⟨hd, h⟩ | ⟨t, t1, -, t3⟩
      · left
        intro p hp
        rw [(iv.empty hd).2.2 p]; omega
      · exact Or.inr ⟨t, t1, t3⟩
    · intro l hl0 hl
      obtain ⟨p, p1, p2, p3⟩ := iv.used l hl0 hl
      refine ⟨p, p1, p2, ?_⟩
      rw [hnew p, if_neg, p3]
      intro hp
      exact hnl ((large_congr hs ((mem_region hs).1 hp)).1 p2)
    · intro p hp q hq lp lq
      have np : p ∉ region w h lab s := fun hp => hnl ((large_congr hs ((mem_region hs).1 hp)).1 lp)
      have nq : q ∉ region w h lab s := fun hp => hnl ((large_congr hs ((mem_region hs).1 hp)).1 lq)
      rw [hnew p, hnew q, if_neg np, if_neg nq]
      exact iv.inj p hp q hq lp lq
    · intro p hp lp
      have np : p ∉ region w h lab s := fun hp => hnl ((large_congr hs ((mem_region hs).1 hp)).1 lp)
      rw [hnew p, if_neg np]
      exact iv.large p hp lp
  · rw [if_neg hsmall]
    have hl : Large w h lims lab s := by
      rw [r2] at hsmall
      split at hsmall
      · rename_i h2
        push_cast at hsmall
        exact ⟨by omega, h2⟩
      · push_cast at hsmall; omega
    have hnew : ∀ p, r.2 p = if p ∈ region w h lab s then st.label else st.new p := by
      intro p
      rw [r3 p]
      simp only [hl.2, and_true]
    refine ⟨_, rfl, ⟨?_, ?_, ?_, ?_, ?_, ?_, ?_, ?_, by simp⟩⟩ <;> dsimp only
    · have := iv.pos; omega
    · intro p hp
      have := iv.pos
      rw [hnew p]
      split
      · right; omega
      · have := iv.range p hp; omega
    · intro p hp
      have := iv.pos
      rw [hnew p]
      split
      · omega
      · rename_i hpr
        rcases List.mem_append.1 hp with hp | hp
        · exact iv.marked p hp
        · rw [List.mem_singleton] at hp; subst hp; exact absurd hss hpr
    · intro p q j
      rw [hnew p, hnew q]
      simp only [hmem p q j]
      rw [iv.comp p q j]
    · refine attach hs iv.pos h0 iv.conn ?_ hnew
      rcases hlink with ⟨hd, h⟩ | ⟨t, t1, t2, t3⟩
      · left
        intro p hp
        have := iv.pos
        rw [(iv.empty hd).2.2 p]; omega
      · have := iv.range t t1.2.1
        by_cases hz : st.label = 0
        · exact Or.inr ⟨t, t1, by omega⟩
        · left
          intro p hp
          have := iv.range p hp
          have := iv.pos
          omega
    · intro l hl0 hll
      by_cases hlt : l < st.label
      · obtain ⟨p, p1, p2, p3⟩ := iv.used l hl0 hlt
        refine ⟨p, p1, p2, ?_⟩
        rw [hnew p, if_neg, p3]
        intro hp
        rw [h0 p hp] at p3
        omega
      · exact ⟨s, hs, hl, by rw [hnew s, if_pos hss]; omega⟩
    · intro p hp q hq lp lq e hne
      rw [hnew p] at hne
      rw [hnew p, hnew q] at e
      by_cases hpr : p ∈ region w h lab s <;> by_cases hqr : q ∈ region w h lab s
      · exact (Joined.symm ((mem_region hs).1 hpr)).trans ((mem_region hs).1 hqr)
      · rw [if_pos hpr, if_neg hqr] at e
        have := iv.pos
        have := iv.large q hq lq (by omega)
        omega
      · rw [if_neg hpr, if_pos hqr] at e
        have := iv.pos
        have := iv.large p hp lp (by omega)
        omega
      · rw [if_neg hpr, if_neg hqr] at e
        rw [if_neg hpr] at hne
        exact iv.inj p hp q hq lp lq e hne
    · intro p hp lp
      rw [hnew p]
      split
      · intro _; omega
      · intro hne
        have := iv.large p hp lp hne
        omega

theorem loop_inv {lims : ℤ} (hlims : 1 ≤ lims) : ∀ (l done : List (Nat × Nat)) (st : St), Inv w h lims lab done st →
    (∀ p ∈ l, p ∈ frame w h) →
    (∀ a s b, l = a ++ s :: b → done ++ a ≠ [] → ∃ t, Adj w h s t ∧ t ∈ done ++ a) →
    ∃ st', loop w h lims lab l st = some st' ∧ Inv w h lims lab (done ++ l) st' := by
  intro l
  induction l with
  | nil => intro done st iv _ _; exact ⟨st, rfl, by rw [List.append_nil]; exact iv⟩
  | cons s l ih =>
    intro done st iv hf hnb
    obtain ⟨st1, e1, iv1⟩ := pixelStep_inv hlims iv (hf s List.mem_cons_self) (by
      intro hd
      have := hnb [] s l rfl (by simpa using hd)
      simpa using this)
    obtain ⟨st2, e2, iv2⟩ := ih (done ++ [s]) st1 iv1 (fun p hp => hf p (List.mem_cons_of_mem _ hp)) (by
      intro a s' b e hne
      have := hnb (s :: a) s' b (by rw [e]; rfl) (by simp)
      simpa using this)
    refine ⟨st2, ?_, ?_⟩
    · unfold loop
      rw [e1]
      exact e2
    · simpa using iv2

theorem mem_raster {p : Nat × Nat} : p ∈ raster w h ↔ p ∈ frame w h := by
  unfold raster
  rw [mem_frame]
  simp only [List.mem_flatMap, List.mem_range, List.mem_map]
  constructor
  · rintro ⟨i, hi, j, hj, rfl⟩; exact ⟨hj, hi⟩
  · rintro ⟨h1, h2⟩; exact ⟨p.2, h2, p.1, h1, rfl⟩

/-- Position in the order of the outer loops. -/
theorem raster_get {i : Nat} (hw : 0 < w) (hi : i < w * h) : (raster w h)[i]? = some (i % w, i / w) := by
  have gen : ∀ (n m i : Nat), i < w * n →
      ((List.range' m n).flatMap fun i => (List.range w).map fun j => (j, i))[i]? = some (i % w, m + i / w) := by
    intro n
    induction n with
    | zero => intro m i hi; simp at hi
    | succ n ih =>
      intro m i hi
      rw [List.range'_succ, List.flatMap_cons]
      by_cases hlt : i < w
      · rw [List.getElem?_append_left (by simpa using hlt), List.getElem?_map, List.getElem?_range hlt]
        simp [Nat.mod_eq_of_lt hlt, Nat.div_eq_of_lt hlt]
      · rw [List.getElem?_append_right (by simpa using hlt)]
        simp only [List.length_map, List.length_range]
        rw [ih (m + 1) (i - w) (by rw [Nat.mul_succ] at hi; omega)]
        have h1 : i = (i - w) + w := by omega
        have h2 : i % w = (i - w) % w := by conv_lhs => rw [h1]; rw [Nat.add_mod_right]
        have h3 : i / w = (i - w) / w + 1 := by conv_lhs => rw [h1]; rw [Nat.add_div_right _ hw]
        rw [h2, h3]
        congr 2; omega
  unfold raster
  rw [show List.range h = List.range' 0 h from List.range_eq_range', gen h 0 i hi]
  simp

theorem raster_length : (raster w h).length = w * h := by
  unfold raster
  simp [List.length_flatMap, Nat.mul_comm]

/-- All pixels of the outer loops other than the first have an earlier neighbour. -/
theorem raster_nb (a : List (Nat × Nat)) (s : Nat × Nat) (b : List (Nat × Nat)) (e : raster w h = a ++ s :: b) (ha : a ≠ []) :
    ∃ t, Adj w h s t ∧ t ∈ a := by
  have hlen : a.length < w * h := by
    rw [← raster_length, e]; simp
  have hw : 0 < w := by
    by_contra h; have : w = 0 := by omega
    rw [this] at hlen; simp at hlen
  have hs : s = (a.length % w, a.length / w) := by
    have := raster_get hw hlen
    rw [e, List.getElem?_append_right (le_refl _)] at this
    simpa using this
  have hpos : 0 < a.length := List.length_pos_iff.2 ha
  have hget : ∀ j < a.length, (j % w, j / w) ∈ a := by
    intro j hj
    have := raster_get hw (hj.trans hlen)
    rw [e, List.getElem?_append_left hj] at this
    exact List.mem_of_getElem? this
  have hf : s ∈ frame w h := mem_raster.1 (by rw [e]; simp)
  have hsf := mem_frame.1 hf
  by_cases h0 : 0 < a.length % w
  · have hm := hget (a.length - 1) (by omega)
    refine ⟨_, ?_, hm⟩
    have h1 : a.length - 1 = (a.length % w - 1) + w * (a.length / w) := by
      have := Nat.mod_add_div a.length w
      omega
    have hlt := Nat.mod_lt a.length hw
    have h2 : (a.length - 1) % w = a.length % w - 1 := by
      rw [h1, Nat.add_mul_mod_self_left, Nat.mod_eq_of_lt (by omega)]
    have h3 : (a.length - 1) / w = a.length / w := by
      rw [h1, Nat.add_mul_div_left _ _ hw, Nat.div_eq_of_lt (by omega), Nat.zero_add]
    rw [h2, h3]
    refine ⟨hf, ?_, ?_⟩
    · rw [hs] at hsf
      exact mem_frame.2 ⟨by dsimp only; omega, hsf.2⟩
    · rw [hs]; dsimp only; omega
  · have hz : a.length % w = 0 := by omega
    have h1 := Nat.mod_add_div a.length w
    have hge : w ≤ a.length := Nat.le_of_dvd hpos (Nat.dvd_of_mod_eq_zero hz)
    have hm := hget (a.length - w) (by omega)
    refine ⟨_, ?_, hm⟩
    have h2 : a.length = (a.length - w) + w := by omega
    have h3 : a.length % w = (a.length - w) % w := by conv_lhs => rw [h2]; rw [Nat.add_mod_right]
    have h4 : a.length / w = (a.length - w) / w + 1 := by conv_lhs => rw [h2]; rw [Nat.add_div_right _ hw]
    refine ⟨hf, ?_, ?_⟩
    · rw [hs] at hsf
      exact mem_frame.2 ⟨by dsimp only at hsf ⊢; omega, by dsimp only at hsf ⊢; omega⟩
    · rw [hs]; dsimp only; omega

/-- The whole function. -/
theorem enforce_inv {nb : Nat} (hl : 4 * nb ≤ w * h) (hnb : 0 < nb) (lab : Nat × Nat → ℤ) :
    ∃ new n, enforce w h nb lab = some (new, n) ∧
      Inv w h ((w * h / nb / 4 : Nat) : ℤ) lab (raster w h) ⟨new, n, 0⟩ := by
  unfold enforce
  rw [if_neg (by omega)]
  have hlims : 1 ≤ ((w * h / nb / 4 : Nat) : ℤ) := by
    have : 1 ≤ w * h / nb / 4 := by
      rw [Nat.div_div_eq_div_mul, Nat.le_div_iff_mul_le (by omega)]
      omega
    exact_mod_cast this
  have iv0 : Inv w h ((w * h / nb / 4 : Nat) : ℤ) lab [] ⟨fun _ => -1, 0, 0⟩ := by
    refine ⟨le_refl _, fun _ _ => Or.inl rfl, by simp, fun _ _ _ => rfl, ?_, ?_, ?_, ?_, fun _ => ⟨rfl, rfl, fun _ => rfl⟩⟩
    · intro p _ q _ _ h; exact absurd rfl h
    · intro l h1 h2; dsimp only at h2; omega
    · intro p _ q _ _ _ _ h; exact absurd rfl h
    · intro p _ _ h; exact absurd rfl h
  obtain ⟨st, e, iv⟩ := loop_inv hlims (raster w h) [] _ iv0 (fun p hp => mem_raster.1 hp) (by
    intro a s b e hne
    rw [List.nil_append] at hne ⊢
    exact raster_nb a s b e hne)
  rw [List.nil_append] at iv
  dsimp only
  rw [e]
  refine ⟨st.new, st.label, rfl, { iv with empty := ?_ }⟩
  intro hz
  have := raster_length (w := w) (h := h)
  rw [hz] at this
  simp at this
  omega

end Litiv.SlicConn
