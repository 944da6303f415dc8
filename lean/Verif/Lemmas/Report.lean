import Verif.Spec.Report
import Mathlib.Data.List.Nodup
import Mathlib.Algebra.BigOperators.Group.List.Basic

/-!
# Lemmas on the evaluation reports
-/

namespace Litiv.Report
open Spec

variable {B M : Type}

theorem countList_batches (work : String → String → Work B) (g : String) (f : String → List String) (l : List String) :
    countList (l.map fun s => batchNode (f s) s (work g s)) = (l.map fun s => (work g s).outputs).sum := by
  induction l with
  | nil => rfl
  | cons s l ih => rw [List.map_cons, countList, ih, List.map_cons, List.sum_cons]; rfl

theorem timeList_batches (work : String → String → Work B) (g : String) (f : String → List String) (l : List String) :
    timeList (l.map fun s => batchNode (f s) s (work g s)) = (l.map fun s => (work g s).time).sum := by
  induction l with
  | nil => rfl
  | cons s l ih => rw [List.map_cons, timeList, ih, List.map_cons, List.sum_cons]; rfl

theorem groupNode_count (skip : String → Bool) (work : String → String → Work B) (d : Dir) :
    (groupNode skip work d).count = outputs skip work d := by
  unfold groupNode outputs batches
  by_cases h : skip d.name
  · rw [if_pos h, if_pos h]; rfl
  · rw [if_neg h, if_neg h]
    by_cases h' : d.subdirs = []
    · rw [if_pos (by simp [h']), if_pos h']
      simp [Node.count, countList, batchNode]
    · rw [if_neg (by simpa using h'), if_neg h', Node.count]
      exact countList_batches work d.name (fun s => [d.name, s]) _

theorem groupNode_time (skip : String → Bool) (work : String → String → Work B) (d : Dir) :
    (groupNode skip work d).time = time skip work d := by
  unfold groupNode time batches
  by_cases h : skip d.name
  · rw [if_pos h, if_pos h]; rfl
  · rw [if_neg h, if_neg h]
    by_cases h' : d.subdirs = []
    · rw [if_pos (by simp [h']), if_pos h']
      simp [Node.time, timeList, batchNode]
    · rw [if_neg (by simpa using h'), if_neg h', Node.time]
      exact timeList_batches work d.name (fun s => [d.name, s]) _

theorem groupNode_name (skip : String → Bool) (work : String → String → Work B) (d : Dir) :
    (groupNode skip work d).name = d.name := by
  unfold groupNode
  split_ifs <;> rfl

theorem sum_zero_iff (l : List Nat) : l.sum = 0 ↔ ∀ x ∈ l, x = 0 := by
  induction l with
  | nil => simp
  | cons a l ih => rw [List.sum_cons]; simp [← ih]

theorem outputs_zero_iff (skip : String → Bool) (work : String → String → Work B) (d : Dir) :
    outputs skip work d = 0 ↔ processed skip work d = [] := by
  unfold outputs processed
  rw [sum_zero_iff, List.filter_eq_nil_iff]
  simp

theorem inlineList_batches (met : Node B → M) (k : Nat) (work : String → String → Work B) (g : String) (f : String → List String)
    (l : List String) :
    inlineList met k (l.map fun s => batchNode (f s) s (work g s)) =
      (l.filter fun s => decide ((work g s).outputs ≠ 0)).map fun s => ⟨k, s, met (batchNode (f s) s (work g s))⟩ := by
  induction l with
  | nil => rfl
  | cons s l ih =>
    rw [List.map_cons, inlineList, ih, List.filter_cons]
    by_cases h : (work g s).outputs = 0
    · simp [h, batchNode, Node.inline, Node.count]
    · simp [h, batchNode, Node.inline, Node.count]

theorem writeList_batches (met : Node B → M) (work : String → String → Work B) (g : String) (f : String → List String)
    (l : List String) :
    writeList met (l.map fun s => batchNode (f s) s (work g s)) =
      (l.filter fun s => decide ((work g s).outputs ≠ 0)).map fun s =>
        ⟨(f s).dropLast, s, [⟨0, s, met (batchNode (f s) s (work g s))⟩], (work g s).outputs, (work g s).time⟩ := by
  induction l with
  | nil => rfl
  | cons s l ih =>
    rw [List.map_cons, writeList, ih, List.filter_cons]
    by_cases h : (work g s).outputs = 0
    · simp [h, batchNode, Node.write, Node.count]
    · simp [h, batchNode, Node.write, Node.count, Node.file, Node.inline, Node.dir, Node.name, Node.time]

/-- Rows of a group inside a report. -/
theorem groupNode_inline (met : Node B → M) (skip : String → Bool) (work : String → String → Work B) (name : String) (dirs : List Dir)
    (m : Shown M) (hm : Shows met skip work name dirs m) (k : Nat) (d : Dir) (hd : d ∈ dirs) :
    (groupNode skip work d).inline met k = if processed skip work d = [] then [] else dirRows skip work m k d := by
  have hc := groupNode_count skip work d
  have hz := outputs_zero_iff skip work d
  have hmd := hm.2.2.1 d hd
  by_cases hp : processed skip work d = []
  · rw [if_pos hp]
    have h0 : (groupNode skip work d).count = 0 := by rw [hc]; exact hz.2 hp
    revert h0
    cases groupNode skip work d with
    | leaf => intro h0; rw [Node.inline, if_pos h0]
    | group => intro h0; rw [Node.inline, if_pos h0]
  · rw [if_neg hp]
    have h0 : (groupNode skip work d).count ≠ 0 := by rw [hc]; exact fun h => hp (hz.1 h)
    have hs : ¬ skip d.name = true := by
      intro h
      apply hp
      simp [processed, batches, h]
    have hbat : processed skip work d = (batches skip d).filter fun s => decide ((work d.name s).outputs ≠ 0) := rfl
    have hb : batches skip d = if d.subdirs = [] then [d.name] else d.subdirs.filter fun s => !skip s := by
      unfold batches; rw [if_neg hs]
    unfold dirRows
    rw [← hmd]
    revert h0
    unfold groupNode
    rw [if_neg hs]
    by_cases h' : d.subdirs = []
    · rw [if_pos (by simp [h']), if_pos h']
      intro h0
      rw [Node.inline, if_neg h0, if_pos rfl]
    · rw [if_neg (by simpa using h'), if_neg h']
      intro h0
      rw [Node.inline, if_neg h0, if_neg (by simp), inlineList_batches met (k + 1) work d.name (fun s => [d.name, s]), hbat, hb, if_neg h']
      congr 1
      refine List.map_congr_left fun s _ => ?_
      rw [hm.1 d hd h']

/-- Files written for a group. -/
theorem groupNode_write (met : Node B → M) (skip : String → Bool) (work : String → String → Work B) (name : String) (dirs : List Dir)
    (m : Shown M) (hm : Shows met skip work name dirs m) (d : Dir) (hd : d ∈ dirs) :
    (groupNode skip work d).write met false =
      if processed skip work d = [] then []
      else if d.subdirs = [] then [batchReport work m d.name d.name []]
      else ((processed skip work d).map fun s => batchReport work m d.name s [d.name]) ++ [dirReport skip work m d] := by
  have hc := groupNode_count skip work d
  have hz := outputs_zero_iff skip work d
  have hin := groupNode_inline met skip work name dirs m hm 0 d hd
  by_cases hp : processed skip work d = []
  · rw [if_pos hp]
    have h0 : (groupNode skip work d).count = 0 := by rw [hc]; exact hz.2 hp
    revert h0
    cases groupNode skip work d with
    | leaf => intro h0; rw [Node.write, if_pos h0]
    | group => intro h0; rw [Node.write, if_pos h0]
  · rw [if_neg hp]
    rw [if_neg hp] at hin
    have h0 : (groupNode skip work d).count ≠ 0 := by rw [hc]; exact fun h => hp (hz.1 h)
    have hs : ¬ skip d.name = true := by
      intro h
      apply hp
      simp [processed, batches, h]
    have hbat : processed skip work d = (batches skip d).filter fun s => decide ((work d.name s).outputs ≠ 0) := rfl
    have hb : batches skip d = if d.subdirs = [] then [d.name] else d.subdirs.filter fun s => !skip s := by
      unfold batches; rw [if_neg hs]
    by_cases h' : d.subdirs = []
    · rw [if_pos h']
      have hg : groupNode skip work d = .group d.name [d.name] true [batchNode [d.name] d.name (work d.name d.name)] := by
        unfold groupNode; rw [if_neg hs, if_pos (by simp [h'])]
      rw [hg] at h0 ⊢
      rw [Node.write, if_neg h0, if_pos rfl, List.append_nil]
      have := writeList_batches met work d.name (fun _ => [d.name]) [d.name]
      rw [List.map_cons, List.map_nil] at this
      rw [this]
      have hne : (work d.name d.name).outputs ≠ 0 := by
        simpa [Node.count, countList, batchNode] using h0
      simp only [List.filter_cons, hne, ne_eq, not_false_eq_true, decide_true, if_true, List.filter_nil, List.map_cons, List.map_nil]
      rw [hm.2.1 d hd h']
      rfl
    · rw [if_neg h']
      have hg : groupNode skip work d = .group d.name [d.name] false
          ((d.subdirs.filter fun s => !skip s).map fun s => batchNode [d.name, s] s (work d.name s)) := by
        unfold groupNode; rw [if_neg hs, if_neg (by simpa using h')]
      have hfile : (groupNode skip work d).file met false = dirReport skip work m d := by
        unfold Node.file dirReport
        rw [hin, hc, groupNode_time, groupNode_name]
        congr 1
        rw [hg]
        rfl
      rw [hg] at h0 hfile ⊢
      rw [Node.write, if_neg h0, if_neg (by simp), hfile, writeList_batches met work d.name (fun s => [d.name, s]), hbat, hb, if_neg h']
      congr 1
      refine List.map_congr_left fun s _ => ?_
      rw [hm.1 d hd h']
      rfl

theorem inlineList_groups (met : Node B → M) (skip : String → Bool) (work : String → String → Work B) (name : String) (dirs : List Dir)
    (m : Shown M) (hm : Shows met skip work name dirs m) (k : Nat) (l : List Dir) (hl : ∀ d ∈ l, d ∈ dirs) :
    inlineList met k (l.map (groupNode skip work)) = (active skip work l).flatMap (dirRows skip work m k) := by
  induction l with
  | nil => rfl
  | cons d l ih =>
    rw [List.map_cons, inlineList, groupNode_inline met skip work name dirs m hm k d (hl d (by simp)), ih fun x hx => hl x (by simp [hx])]
    unfold active
    rw [List.filter_cons]
    by_cases hp : processed skip work d = []
    · rw [if_pos hp, if_neg (by simp [hp])]; rfl
    · rw [if_neg hp, if_pos (by simp [hp]), List.flatMap_cons]

theorem mem_writeList_groups (met : Node B → M) (skip : String → Bool) (work : String → String → Work B) (name : String) (dirs : List Dir)
    (m : Shown M) (hm : Shows met skip work name dirs m) (l : List Dir) (hl : ∀ d ∈ l, d ∈ dirs) (f : File M) :
    f ∈ writeList met (l.map (groupNode skip work)) ↔ ∃ d ∈ l, processed skip work d ≠ [] ∧
      (d.subdirs = [] ∧ f = batchReport work m d.name d.name [] ∨
       d.subdirs ≠ [] ∧ ((∃ s ∈ processed skip work d, f = batchReport work m d.name s [d.name]) ∨ f = dirReport skip work m d)) := by
  induction l with
  | nil => simp [writeList]
  | cons d l ih =>
    rw [List.map_cons, writeList, groupNode_write met skip work name dirs m hm d (hl d (by simp)), List.mem_append,
      ih fun x hx => hl x (by simp [hx])]
    simp only [List.mem_cons, exists_eq_or_imp]
    refine or_congr ?_ Iff.rfl
    by_cases hp : processed skip work d = []
    · rw [if_pos hp]; simp [hp]
    · rw [if_neg hp]
      by_cases h' : d.subdirs = []
      · rw [if_pos h']; simp [hp, h']
      · rw [if_neg h']; simp [hp, h', eq_comm]

theorem countList_groups (skip : String → Bool) (work : String → String → Work B) (l : List Dir) :
    countList (l.map (groupNode skip work)) = (l.map (outputs skip work)).sum := by
  induction l with
  | nil => rfl
  | cons d l ih => rw [List.map_cons, countList, ih, groupNode_count, List.map_cons, List.sum_cons]

theorem timeList_groups (skip : String → Bool) (work : String → String → Work B) (l : List Dir) :
    timeList (l.map (groupNode skip work)) = (l.map (time skip work)).sum := by
  induction l with
  | nil => rfl
  | cons d l ih => rw [List.map_cons, timeList, ih, groupNode_time, List.map_cons, List.sum_cons]

theorem sum_outputs_zero_iff (skip : String → Bool) (work : String → String → Work B) (l : List Dir) :
    (l.map (outputs skip work)).sum = 0 ↔ active skip work l = [] := by
  unfold active
  rw [sum_zero_iff, List.filter_eq_nil_iff]
  simp only [List.mem_map, forall_exists_index, and_imp, forall_apply_eq_imp_iff₂, decide_eq_true_eq, not_not]
  exact forall₂_congr fun d _ => outputs_zero_iff skip work d

/-- All the files written for the dataset. -/
theorem mem_write (met : Node B → M) (skip : String → Bool) (work : String → String → Work B) (name : String) (dirs : List Dir)
    (m : Shown M) (hm : Shows met skip work name dirs m) (f : File M) :
    f ∈ (datasetNode skip work name dirs).write met true ↔ Expected skip work m name dirs f := by
  unfold datasetNode
  have hcount : (Node.group name [] false (dirs.map (groupNode skip work))).count = (dirs.map (outputs skip work)).sum := by
    rw [Node.count, countList_groups]
  have hz := sum_outputs_zero_iff skip work dirs
  rw [Node.write]
  by_cases ha : active skip work dirs = []
  · rw [if_pos (by rw [hcount]; exact hz.2 ha)]
    have hnone : ∀ d ∈ dirs, processed skip work d = [] := by
      intro d hd
      unfold active at ha
      rw [List.filter_eq_nil_iff] at ha
      simpa using ha d hd
    simp only [List.not_mem_nil, false_iff]
    intro he
    cases he with
    | batch d s hd _ hs => rw [hnone d hd] at hs; simp at hs
    | alone d hd _ hs => rw [hnone d hd] at hs; simp at hs
    | dir d hd _ hs => exact hs (hnone d hd)
    | dataset h => exact h ha
  · have h0 : (Node.group name [] false (dirs.map (groupNode skip work))).count ≠ 0 := by
      rw [hcount]; exact fun h => ha (hz.1 h)
    rw [if_neg h0, if_neg (by simp), List.mem_append, mem_writeList_groups met skip work name dirs m hm dirs (fun d h => h), List.mem_singleton]
    have hfile : (Node.group name [] false (dirs.map (groupNode skip work))).file met true = datasetReport skip work m name dirs := by
      unfold Node.file datasetReport
      have hin : (Node.group name [] false (dirs.map (groupNode skip work))).inline met 0 =
          (active skip work dirs).flatMap (dirRows skip work m 1) ++ [⟨0, name, m.dataset⟩] := by
        rw [Node.inline, if_neg h0, if_neg (by simp), inlineList_groups met skip work name dirs m hm 1 dirs (fun d h => h)]
        rw [← hm.2.2.2]
        rfl
      rw [hin, hcount, Node.time, timeList_groups]
      rfl
    rw [hfile]
    constructor
    · rintro (⟨d, hd, hp, ⟨h', rfl⟩ | ⟨h', ⟨s, hs, rfl⟩ | rfl⟩⟩ | rfl)
      · refine .alone d hd h' ?_
        have hsub : processed skip work d ⊆ [d.name] := by
          intro x hx
          unfold processed batches at hx
          rw [List.mem_filter] at hx
          have := hx.1
          split_ifs at this
          · simp at this
          · exact this
        obtain ⟨x, hx⟩ := List.exists_mem_of_ne_nil _ hp
        have := hsub hx
        simp at this
        exact this ▸ hx
      · exact .batch d s hd h' hs
      · exact .dir d hd h' hp
      · exact .dataset ha
    · intro he
      cases he with
      | batch d s hd h' hs => exact .inl ⟨d, hd, List.ne_nil_of_mem hs, .inr ⟨h', .inl ⟨s, hs, rfl⟩⟩⟩
      | alone d hd h' hs => exact .inl ⟨d, hd, List.ne_nil_of_mem hs, .inl ⟨h', rfl⟩⟩
      | dir d hd h' hs => exact .inl ⟨d, hd, hs, .inr ⟨h', .inr rfl⟩⟩
      | dataset h => exact .inr rfl

/-- Expected reports do not share their paths. -/
theorem expected_unique (skip : String → Bool) (work : String → String → Work B) (m : Shown M) (name : String) (dirs : List Dir)
    (hd : Distinct name dirs) (f g : File M) (hf : Expected skip work m name dirs f) (hg : Expected skip work m name dirs g)
    (h1 : f.dir = g.dir) (h2 : f.name = g.name) : f = g := by
  have hu : ∀ d ∈ dirs, ∀ d' ∈ dirs, d.name = d'.name → d = d' :=
    fun d h d' h' e => List.inj_on_of_nodup_map hd.1 h h' e
  cases hf with
  | batch d s a b c =>
    cases hg with
    | batch d' s' a' b' c' =>
      simp [batchReport] at h1 h2
      have := hu d a d' a' h1
      subst this; subst h2; rfl
    | alone d' a' b' c' => simp [batchReport] at h1
    | dir d' a' b' c' => simp [batchReport, dirReport] at h1
    | dataset h => simp [batchReport, datasetReport] at h1
  | alone d a b c =>
    cases hg with
    | batch d' s' a' b' c' => simp [batchReport] at h1
    | alone d' a' b' c' =>
      have := hu d a d' a' h2
      subst this; rfl
    | dir d' a' b' c' =>
      have := hu d a d' a' h2
      subst this; exact absurd b b'
    | dataset h => exact absurd h2 (hd.2 d a)
  | dir d a b c =>
    cases hg with
    | batch d' s' a' b' c' => simp [batchReport, dirReport] at h1
    | alone d' a' b' c' =>
      have := hu d a d' a' h2
      subst this; exact absurd b' b
    | dir d' a' b' c' =>
      have := hu d a d' a' h2
      subst this; rfl
    | dataset h => exact absurd h2 (hd.2 d a)
  | dataset h =>
    cases hg with
    | batch d' s' a' b' c' => simp [batchReport, datasetReport] at h1
    | alone d' a' b' c' => exact absurd h2.symm (hd.2 d' a')
    | dir d' a' b' c' => exact absurd h2.symm (hd.2 d' a')
    | dataset h => rfl

end Litiv.Report
