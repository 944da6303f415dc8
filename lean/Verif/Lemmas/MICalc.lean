import Verif.Lemmas.MIHist

/-! # The joint histogram function as a whole -/

namespace Litiv.MI

open Spec (freq level)

theorem count_range {κ : Type} [DecidableEq κ] (n : Nat) (f : Nat → κ) (k : κ) :
    ((List.range n).map f).count k = ((Finset.range n).filter fun e => f e = k).card := by
  induction n with
  | zero => simp
  | succ n ih =>
    rw [List.range_succ, List.map_append, List.count_append, ih, Finset.range_add_one, Finset.filter_insert]
    by_cases h : f n = k
    · simp [h]
    · simp [h]

/-- A histogram is that of `f` over the elements `0 … n-1`. -/
structure Is {κ : Type} [DecidableEq κ] (kind : Kind) (n : Nat) (f : Nat → κ) (all : List κ) (h : Hist κ ℚ) : Prop where
  val : ∀ k, h.val k = freq n (fun e => f e = k)
  nodup : h.keys.Nodup
  dense : kind = .dense → h.keys = all
  sparse : kind = .sparse → ∀ k, k ∈ h.keys ↔ ∃ e < n, f e = k

theorem Is.mem {κ : Type} [DecidableEq κ] {kind : Kind} {n : Nat} {f : Nat → κ} {all : List κ} {h : Hist κ ℚ} (g : Is kind n f all h)
    (hall : kind = .dense → ∀ e < n, f e ∈ all) {e : Nat} (he : e < n) : f e ∈ h.keys := by
  cases kind with
  | dense => rw [g.dense rfl]; exact hall rfl e he
  | sparse => exact (g.sparse rfl _).2 ⟨e, he, rfl⟩

/-- Keys of a fresh histogram. -/
def freshKeys {κ : Type} (kind : Kind) (all : List κ) : List κ := match kind with | .sparse => [] | .dense => all

theorem good_fast {κ : Type} [DecidableEq κ] {kind : Kind} {n : Nat} {f : Nat → κ} {all : List κ} {h h' : Hist κ ℚ}
    (hall : all.Nodup) (hk : h.keys = freshKeys kind all) (hv : ∀ k, h.val k = 0)
    (g : Good kind (fun v => v + 1 / (n : ℚ)) h ((List.range n).map f) h') : Is kind n f all h' := by
  refine ⟨fun k => ?_, g.nodup ?_, fun hd => ?_, fun hs k => ?_⟩
  · rw [g.val, hv, count_range, add_right_iterate]
    simp only [freq, zero_add, nsmul_eq_mul]
    ring
  · rw [hk]; cases kind <;> simp [freshKeys, hall]
  · rw [g.dense hd, hk, hd]; rfl
  · rw [g.sparse hs, hk, hs]
    simp [freshKeys]

theorem good_count {κ : Type} [DecidableEq κ] {kind : Kind} {n : Nat} {f : Nat → κ} {all : List κ} {h h' : Hist κ Nat}
    (hall : all.Nodup) (hin : kind = .dense → ∀ e < n, f e ∈ all) (hk : h.keys = freshKeys kind all) (hv : ∀ k, h.val k = 0)
    (g : Good kind (fun v => v + 1) h ((List.range n).map f) h') (z : Hist κ ℚ) (hzk : z.keys = freshKeys kind all) (hzv : ∀ k, z.val k = 0) :
    ∃ r, scale kind (1 / (n : ℚ)) h' z = some r ∧ Is kind n f all r ∧ (∀ k, k ∈ h'.keys ↔ k ∈ r.keys) ∧ h'.keys.Nodup := by
  have hn : h'.keys.Nodup := g.nodup (by rw [hk]; cases kind <;> simp [freshKeys, hall])
  have hkd : kind = .dense → h'.keys = all := fun hd => by rw [g.dense hd, hk, hd]; rfl
  have hks : kind = .sparse → ∀ k, k ∈ h'.keys ↔ ∃ e < n, f e = k := fun hs k => by
    rw [g.sparse hs, hk, hs]; simp [freshKeys]
  obtain ⟨r, e, v, d, s, nd⟩ := scale_fold kind (1 / (n : ℚ)) h' h'.keys z fun hd k hk' => by
    rw [hkd hd] at hk'; rw [hzk, hd]; exact hk'
  have rkd : kind = .dense → r.keys = all := fun hd => by rw [d hd, hzk, hd]; rfl
  have rks : kind = .sparse → ∀ k, k ∈ r.keys ↔ ∃ e < n, f e = k := fun hs k => by
    rw [s hs, hzk, ← hks hs, hs]; simp [freshKeys]
  refine ⟨r, e, ⟨fun k => ?_, nd ?_, rkd, rks⟩, fun k => ?_, hn⟩
  · rw [v k, g.val, hv, hzv, count_range, add_right_iterate]
    have h0 : k ∉ h'.keys → ((Finset.range n).filter fun e => f e = k).card = 0 := by
      intro hkn
      rw [Finset.card_eq_zero, Finset.filter_eq_empty_iff]
      intro e' he hfe
      apply hkn
      rw [Finset.mem_range] at he
      cases kind with
      | dense => rw [hkd rfl, ← hfe]; exact hin rfl e' he
      | sparse => exact (hks rfl k).2 ⟨e', he, hfe⟩
    by_cases hm : k ∈ h'.keys
    · rw [if_pos hm]
      simp only [freq, zero_add, smul_eq_mul, mul_one]
      ring
    · rw [if_neg hm]
      simp only [freq]
      rw [h0 hm]; simp
  · rw [hzk]; cases kind <;> simp [freshKeys, hall]
  · cases kind with
    | dense => rw [hkd rfl, rkd rfl]
    | sparse => rw [hks rfl, rks rfl]

/-! ### Ranges, levels and positions -/

theorem foldl_min_le (l : List Int) (a : Int) : l.foldl min a ≤ a ∧ ∀ v ∈ l, l.foldl min a ≤ v := by
  induction l generalizing a with
  | nil => simp
  | cons x l ih =>
    obtain ⟨h1, h2⟩ := ih (min a x)
    refine ⟨le_trans h1 (min_le_left _ _), fun v hv => ?_⟩
    rcases List.mem_cons.1 hv with rfl | hv
    · exact le_trans h1 (min_le_right _ _)
    · exact h2 v hv

theorem le_foldl_max (l : List Int) (a : Int) : a ≤ l.foldl max a ∧ ∀ v ∈ l, v ≤ l.foldl max a := by
  induction l generalizing a with
  | nil => simp
  | cons x l ih =>
    obtain ⟨h1, h2⟩ := ih (max a x)
    refine ⟨le_trans (le_max_left _ _) h1, fun v hv => ?_⟩
    rcases List.mem_cons.1 hv with rfl | hv
    · exact le_trans (le_max_right _ _) h1
    · exact h2 v hv

theorem foldl_min_mem (l : List Int) (a : Int) : l.foldl min a = a ∨ l.foldl min a ∈ l := by
  induction l generalizing a with
  | nil => simp
  | cons x l ih =>
    rcases ih (min a x) with h | h
    · rcases min_choice a x with e | e
      · left; rw [List.foldl_cons, h, e]
      · right; rw [List.foldl_cons, h, e]; simp
    · right; rw [List.foldl_cons]; simp [h]

theorem foldl_max_mem (l : List Int) (a : Int) : l.foldl max a = a ∨ l.foldl max a ∈ l := by
  induction l generalizing a with
  | nil => simp
  | cons x l ih =>
    rcases ih (max a x) with h | h
    · rcases max_choice a x with e | e
      · left; rw [List.foldl_cons, h, e]
      · right; rw [List.foldl_cons, h, e]; simp
    · right; rw [List.foldl_cons]; simp [h]

/-- The spread of an input fits in an `int` with room for the number of states. -/
def Fits (skip : Bool) (i : In) : Prop :=
  if skip = true ∧ i.isInt = false then i.hi - i.lo < 2 ^ 31 - 2 else ∀ u ∈ i.vals, ∀ v ∈ i.vals, u - v < 2 ^ 31 - 2

theorem range_spec (skip : Bool) (i : In) (hty : ∀ v ∈ i.vals, i.lo ≤ v ∧ v ≤ i.hi) :
    ∀ v ∈ i.vals, (range skip i).1 ≤ v ∧ v ≤ (range skip i).2 := by
  intro v hv
  unfold range
  split
  · exact hty v hv
  · exact ⟨(foldl_min_le _ _).2 v hv, (le_foldl_max _ _).2 v hv⟩

theorem range_fits (skip : Bool) (i : In) (hne : i.vals ≠ []) (hf : Fits skip i) : (range skip i).2 - (range skip i).1 < 2 ^ 31 - 2 := by
  unfold Fits at hf
  unfold range
  by_cases h : skip = true ∧ i.isInt = false
  · rw [if_pos h] at hf
    simpa [h.1, h.2] using hf
  · rw [if_neg h] at hf
    have h' : (skip && !i.isInt) = false := by
      cases skip <;> cases hb : i.isInt <;> simp_all
    simp only [h', Bool.false_eq_true, if_false]
    have hd : i.vals.headD 0 ∈ i.vals := by
      cases hl : i.vals with
      | nil => exact absurd hl hne
      | cons a l => simp
    apply hf
    · rcases foldl_max_mem i.vals (i.vals.headD 0) with e | e
      · rw [e]; exact hd
      · exact e
    · rcases foldl_min_mem i.vals (i.vals.headD 0) with e | e
      · rw [e]; exact hd
      · exact e

theorem maxStates_spec (q : Nat) (hq : 0 < q) (r : Int × Int) (h : r.2 - r.1 < 2 ^ 31 - 2) :
    maxStates q r = some ((r.2 - r.1).toNat / q + 1) := by
  unfold maxStates
  have h1 : (r.2 - r.1).toNat / q ≤ (r.2 - r.1).toNat := Nat.div_le_self _ _
  rw [if_neg (by omega), if_pos (by omega)]

theorem level_bounds (q : Nat) (hq : 0 < q) (lo hi v : Int) (h1 : lo ≤ v) (h2 : v ≤ hi) :
    0 ≤ level q lo v ∧ level q lo v < (((hi - lo).toNat / q + 1 : Nat) : Int) := by
  unfold level
  constructor
  · exact Int.ediv_nonneg (by omega) (by omega)
  · have : (v - lo) / (q : Int) ≤ (hi - lo) / (q : Int) := Int.ediv_le_ediv (by omega) (by omega)
    have e : (((hi - lo).toNat / q : Nat) : Int) = (hi - lo) / (q : Int) := by
      rw [Int.natCast_div, Int.toNat_of_nonneg (by omega)]
    push_cast at e ⊢
    omega

theorem mem_positions : ∀ (ns : List Nat) (p : List Int),
    p ∈ positions ns ↔ List.Forall₂ (fun (v : Int) (n : Nat) => 0 ≤ v ∧ v < n) p ns
  | [], p => by simp [positions]
  | n :: ns, p => by
    simp only [positions, List.mem_flatMap, List.mem_range, List.mem_map]
    constructor
    · rintro ⟨i, hi, p', hp', rfl⟩
      exact .cons ⟨by omega, by omega⟩ ((mem_positions ns p').1 hp')
    · intro h
      cases h with
      | cons h1 h2 =>
        rename_i v p'
        exact ⟨v.toNat, by omega, p', (mem_positions ns p').2 h2, by rw [Int.toNat_of_nonneg h1.1]⟩

theorem positions_nodup : ∀ ns : List Nat, (positions ns).Nodup
  | [] => by simp [positions]
  | n :: ns => by
    rw [positions, List.nodup_flatMap]
    refine ⟨fun i _ => (positions_nodup ns).map (fun a b h => by simpa using h), ?_⟩
    apply List.Pairwise.imp _ List.nodup_range
    intro a b hab
    simp only [Function.onFun, List.disjoint_left, List.mem_map, not_exists, not_and]
    rintro _ ⟨p, _, rfl⟩ p' _ h
    simp at h
    omega

/-! ### The whole function -/

/-- The levels of the elements of an input. -/
def lev (q : Nat) (skip : Bool) (i : In) (k : Nat) : Int := level q (range skip i).1 (i.vals.getD k 0)

theorem bins_eq (q : Nat) (skip : Bool) (ins : List In) (k : Nat) :
    bins q (ins.map fun (i : In) => (range skip i).1) ins k = ins.map fun (i : In) => lev q skip i k := by
  unfold bins
  rw [List.zipWith_map_left, List.zipWith_self]
  rfl

/-- Number of levels of an input. -/
def nlev (q : Nat) (skip : Bool) (i : In) : Nat := ((range skip i).2 - (range skip i).1).toNat / q + 1

/-- Admissible arguments. -/
structure Ok (q : Nat) (skip : Bool) (ins : List In) (n : Nat) : Prop where
  hq : 0 < q
  ne : ins ≠ []
  hn : 0 < n
  len : ∀ i ∈ ins, i.vals.length = n
  ty : ∀ i ∈ ins, ∀ v ∈ i.vals, i.lo ≤ v ∧ v ≤ i.hi
  fits : ∀ i ∈ ins, Fits skip i

theorem Ok.lev {q : Nat} {skip : Bool} {ins : List In} {n : Nat} (h : Ok q skip ins n) (i : In) (hi : i ∈ ins) (k : Nat) (hk : k < n) :
    0 ≤ lev q skip i k ∧ lev q skip i k < (nlev q skip i : Int) := by
  have hl := h.len i hi
  have hne : i.vals ≠ [] := by
    intro e; rw [e] at hl; simp at hl; have := h.hn; omega
  have hm : i.vals.getD k 0 ∈ i.vals := by
    rw [List.getD_eq_getElem?_getD, List.getElem?_eq_getElem (by omega)]
    simp
  obtain ⟨h1, h2⟩ := range_spec skip i (h.ty i hi) _ hm
  exact level_bounds q h.hq _ _ _ h1 h2

theorem mapM_eq_map {α β : Type} (f : α → Option β) (g : α → β) : ∀ (l : List α), (∀ x ∈ l, f x = some (g x)) → l.mapM f = some (l.map g)
  | [], _ => rfl
  | x :: l, h => by
    rw [List.mapM_cons, h x (by simp), mapM_eq_map f g l fun y hy => h y (by simp [hy])]
    rfl

/-- What the function computes. -/
structure Res (q : Nat) (kind : Kind) (fast skip : Bool) (ins : List In) (n : Nat) (old d : Data) : Prop where
  len : d.margHists.length = ins.length
  marg : ∀ (j : Nat) (i : In), ins[j]? = some i → ∃ h, d.margHists[j]? = some h ∧
    Is kind n (lev q skip i) ((List.range (nlev q skip i)).map fun (v : Nat) => (v : Int)) h
  joint : Is kind n (fun k => ins.map fun (i : In) => lev q skip i k) (positions (ins.map (nlev q skip))) d.jointHist
  slow : fast = false → (∀ k, k ∈ d.jointCount.keys ↔ k ∈ d.jointHist.keys) ∧ d.jointCount.keys.Nodup
  fast : fast = true → d.jointCount = old.jointCount
  states : d.states = match kind with | .sparse => d.margHists.map fun (h : Hist Int ℚ) => h.keys.length | .dense => ins.map (nlev q skip)
  jstates : d.jointStates = match kind with | .sparse => d.jointHist.keys.length | .dense => (ins.map (nlev q skip)).prod

theorem Ok.inPos {q : Nat} {skip : Bool} {ins : List In} {n : Nat} (h : Ok q skip ins n) (k : Nat) (hk : k < n) :
    (ins.map fun (i : In) => Litiv.MI.lev q skip i k) ∈ positions (ins.map (nlev q skip)) := by
  rw [mem_positions]
  have : ∀ l : List In, (∀ i ∈ l, i ∈ ins) → List.Forall₂ (fun (v : Int) (n : Nat) => 0 ≤ v ∧ v < n)
      (l.map fun (i : In) => Litiv.MI.lev q skip i k) (l.map (nlev q skip)) := by
    intro l
    induction l with
    | nil => intro _; exact .nil
    | cons a l ih => intro hl; exact .cons (h.lev a (hl a (by simp)) k hk) (ih fun i hi => hl i (by simp [hi]))
  exact this ins fun _ h => h

theorem Ok.inMarg {q : Nat} {skip : Bool} {ins : List In} {n : Nat} (h : Ok q skip ins n) (i : In) (hi : i ∈ ins) (k : Nat) (hk : k < n) :
    Litiv.MI.lev q skip i k ∈ (List.range (nlev q skip i)).map fun (v : Nat) => (v : Int) := by
  obtain ⟨h1, h2⟩ := h.lev i hi k hk
  exact List.mem_map.2 ⟨(Litiv.MI.lev q skip i k).toNat, List.mem_range.2 (by omega), by rw [Int.toNat_of_nonneg h1]⟩

theorem range_nodup (m : Nat) : ((List.range m).map fun (v : Nat) => (v : Int)).Nodup :=
  List.nodup_range.map fun a b h => by simpa using h

theorem newMarg_keys {α : Type} [Zero α] (kind : Kind) (m : Nat) :
    (newMarg (α := α) kind m).keys = freshKeys kind ((List.range m).map fun (v : Nat) => (v : Int)) := by
  cases kind <;> rfl

theorem newJoint_keys {α : Type} [Zero α] (kind : Kind) (ns : List Nat) :
    (newJoint (α := α) kind ns).keys = freshKeys kind (positions ns) := by
  cases kind <;> rfl

/-- The main loop on admissible arguments. -/
theorem loop_ok {α : Type} [Zero α] (q : Nat) (kind : Kind) (skip : Bool) (ins : List In) (n : Nat) (h : Ok q skip ins n) (incr : α → α) :
    ∃ ms' j', ((List.range n).map (bins q (ins.map fun (i : In) => (range skip i).1) ins)).foldlM (addElem kind incr)
        ((ins.map (nlev q skip)).map (newMarg kind), newJoint kind (ins.map (nlev q skip))) = some (ms', j') ∧ ms'.length = ins.length ∧
      (∀ (j : Nat) (i : In), ins[j]? = some i → ∃ m', ms'[j]? = some m' ∧
        Good kind incr (newMarg kind (nlev q skip i)) ((List.range n).map (lev q skip i)) m') ∧
      Good kind incr (newJoint kind (ins.map (nlev q skip))) ((List.range n).map fun k => ins.map fun (i : In) => lev q skip i k) j' := by
  have hb : (List.range n).map (bins q (ins.map fun (i : In) => (range skip i).1) ins) = (List.range n).map fun k => ins.map fun (i : In) => lev q skip i k :=
    List.map_congr_left fun k _ => bins_eq q skip ins k
  rw [hb]
  obtain ⟨ms', j', e, hl, hc, gj⟩ := addElem_good kind incr ((List.range n).map fun k => ins.map fun (i : In) => lev q skip i k)
    ((ins.map (nlev q skip)).map (newMarg kind)) (newJoint kind (ins.map (nlev q skip)))
    (by intro b hb; obtain ⟨k, _, rfl⟩ := List.mem_map.1 hb; simp)
    (by
      intro hd b hb
      obtain ⟨k, hk, rfl⟩ := List.mem_map.1 hb
      rw [List.mem_range] at hk
      refine ⟨by rw [newJoint_keys, hd]; exact h.inPos k hk, ?_⟩
      intro i m v hm hv
      rw [List.getElem?_map, List.getElem?_map] at hm
      rw [List.getElem?_map] at hv
      cases hi : ins[i]? with
      | none => rw [hi] at hv; cases hv
      | some x =>
        rw [hi] at hm hv
        cases hm; cases hv
        rw [newMarg_keys, hd]
        exact h.inMarg x (List.mem_of_getElem? hi) k hk)
  refine ⟨ms', j', e, by simpa using hl, ?_, gj⟩
  intro j i hj
  obtain ⟨m', hm', g⟩ := hc j (newMarg kind (nlev q skip i)) (by simp [hj])
  refine ⟨m', hm', ?_⟩
  rw [List.map_map] at g
  have : ((fun (b : List Int) => b.getD j 0) ∘ fun k => ins.map fun (i : In) => lev q skip i k) = lev q skip i := by
    funext k
    simp [List.getD_eq_getElem?_getD, hj]
  rw [this] at g
  exact g

theorem calc_ok (q : Nat) (kind : Kind) (fast skip : Bool) (ins : List In) (n : Nat) (old : Data) (h : Ok q skip ins n) :
    ∃ d, calcJointProbHist q kind fast skip ins old = some d ∧ Res q kind fast skip ins n old d := by
  cases hins : ins with
  | nil => exact absurd hins h.ne
  | cons i0 rest =>
    have h0 : i0.vals.length = n := h.len i0 (by rw [hins]; simp)
    unfold calcJointProbHist
    dsimp only
    rw [if_pos (by
      rw [List.all_eq_true, ← hins]
      intro i hi
      have := h.len i hi
      have := h.hn
      simp only [decide_eq_true_eq]
      omega)]
    have hns : (i0 :: rest).mapM (fun (i : In) => maxStates q (range skip i)) = some ((i0 :: rest).map (nlev q skip)) := by
      apply mapM_eq_map
      rw [← hins]
      intro i hi
      refine maxStates_spec q h.hq _ (range_fits skip i ?_ (h.fits i hi))
      intro e
      have := h.len i hi
      rw [e] at this
      have := h.hn
      simp at *
      omega
    simp only [hns, h0]
    rw [← hins]
    cases fast with
    | true =>
      obtain ⟨ms', j', e, hl, hc, gj⟩ := loop_ok (α := ℚ) q kind skip ins n h fun v => v + 1 / (n : ℚ)
      rw [if_pos rfl, e]
      refine ⟨_, rfl, hl, ?_, good_fast (positions_nodup _) (newJoint_keys _ _) (fun _ => rfl) gj, (fun e => by cases e), fun _ => rfl, by cases kind <;> rfl, by cases kind <;> rfl⟩
      intro j i hj
      obtain ⟨m', hm', g⟩ := hc j i hj
      exact ⟨m', hm', good_fast (range_nodup _) (newMarg_keys _ _) (fun _ => rfl) g⟩
    | false =>
      obtain ⟨ms', j', e, hl, hc, gj⟩ := loop_ok (α := Nat) q kind skip ins n h fun v => v + 1
      rw [if_neg (by simp), e]
      obtain ⟨mh, hmh, hf⟩ := mapM_forall₂ (fun (p : Hist Int Nat × Hist Int ℚ) => scale kind (1 / (n : ℚ)) p.1 p.2)
        (fun p r => ∀ j i, ins[j]? = some i → ms'[j]? = some p.1 → ((ins.map (nlev q skip)).map (newMarg (α := ℚ) kind))[j]? = some p.2 →
          Is kind n (lev q skip i) ((List.range (nlev q skip i)).map fun (v : Nat) => (v : Int)) r)
        (ms'.zip ((ins.map (nlev q skip)).map (newMarg (α := ℚ) kind))) (fun p hp => by
          obtain ⟨j, h1, h2⟩ := mem_zip_idx hp
          have hj : j < ins.length := by rw [← hl]; exact (List.getElem?_eq_some_iff.1 h1).1
          obtain ⟨m', hm', g⟩ := hc j ins[j] (List.getElem?_eq_getElem hj)
          rw [h1] at hm'
          cases hm'
          have hp2 : p.2 = newMarg kind (nlev q skip ins[j]) := by
            rw [List.getElem?_map, List.getElem?_map, List.getElem?_eq_getElem hj] at h2
            exact (Option.some.inj h2).symm
          obtain ⟨r, hr, _⟩ := good_count (range_nodup _) (fun _ => h.inMarg ins[j] (List.getElem_mem hj)) (newMarg_keys _ _) (fun _ => rfl) g
            p.2 (by rw [hp2]; exact newMarg_keys _ _) (by rw [hp2]; exact fun _ => rfl)
          refine ⟨r, hr, ?_⟩
          intro j' i' hj' h1' h2'
          obtain ⟨m'', hm'', g''⟩ := hc j' i' hj'
          rw [h1'] at hm''
          cases hm''
          have hp2' : p.2 = newMarg kind (nlev q skip i') := by
            rw [List.getElem?_map, List.getElem?_map, hj'] at h2'
            exact (Option.some.inj h2').symm
          obtain ⟨r', hr', hi', _⟩ := good_count (range_nodup _) (fun _ => h.inMarg i' (List.mem_of_getElem? hj')) (newMarg_keys _ _) (fun _ => rfl) g''
            p.2 (by rw [hp2']; exact newMarg_keys _ _) (by rw [hp2']; exact fun _ => rfl)
          rw [hr] at hr'
          cases hr'
          exact hi')
      obtain ⟨jh, hjh, hij, hkj, hnj⟩ := good_count (positions_nodup _) (fun _ => h.inPos) (newJoint_keys _ _) (fun _ => rfl) gj
        (newJoint kind (ins.map (nlev q skip))) (newJoint_keys _ _) (fun _ => rfl)
      simp only [hmh, hjh]
      have hlen : mh.length = ins.length := by
        rw [← hf.length_eq]; simp [hl]
      refine ⟨_, rfl, hlen, ?_, hij, fun _ => ⟨hkj, hnj⟩, (fun e => by cases e), by cases kind <;> rfl, by cases kind <;> rfl⟩
      intro j i hj
      obtain ⟨m', hm', g⟩ := hc j i hj
      have hz : ((ins.map (nlev q skip)).map (newMarg (α := ℚ) kind))[j]? = some (newMarg kind (nlev q skip i)) := by
        rw [List.getElem?_map, List.getElem?_map, hj]; rfl
      obtain ⟨r, hr, hri⟩ := forall₂_get hf j _ (zip_get hm' hz)
      exact ⟨r, hr, hri j i hj hm' hz⟩

end Litiv.MI
