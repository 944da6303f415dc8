import Verif.Lemmas.OutDir

/-!
# Output directories: properties
-/

namespace Litiv.OutDir
open Litiv.Files (Entry)
open Litiv.Seq (addDirSlashIfMissing)

/-- A file system for the examples: a directory `data` and a file `data/f`. -/
def sampleFS : FS := fun q =>
  if q = [] ∨ q = ["data".toList] then .dir else if q = ["data".toList, "f".toList] then .other else .none

theorem sample_other {q : Path} (h : sampleFS q = .other) : q = ["data".toList, "f".toList] := by
  unfold sampleFS at h
  split at h
  · cases h
  · split at h
    · assumption
    · cases h

/-- C209. When the parent of the global directory exists, nothing but directories is on the way and directories can be made
there, `createOutputDir` returns a path ending with `/` made of the names of both arguments, and every directory on the way
from the global one to it exists, even if other processes make directories at the same time, for instance the same ones.
What is missing: other cases, see `output_refuted` and `backslash_refuted`. -/
theorem output_dirs_partial {env : Nat → FS → FS} {perm : Path → Bool} (he : OnlyMakesDirs env) {st : St}
    {g s : List Char} (hg : Plain g) (hs : Plain s)
    (hroot : st.fs (comps g) = .dir ∨ (comps g ≠ [] ∧ st.fs (comps g).dropLast = .dir ∧ perm (comps g).dropLast = true))
    (hfree : ∀ q, comps g <+: q → q <+: comps g ++ comps s → st.fs q ≠ .other ∧ perm q = true) :
    ∃ st' out, createOutputDir env perm st g s = some (st', out) ∧ out.getLast? = some '/' ∧
      comps out = comps g ++ comps s ∧ ∀ q, comps g <+: q → q <+: comps out → st'.fs q = .dir := by
  obtain ⟨st', out, h1, -, ⟨e, h2⟩, h3, -, h4⟩ := output_all he hg hs hroot hfree
  refine ⟨st', out, h1, ?_, h3, ?_⟩
  · rw [h2, List.getLast?_concat]
  · rw [h3]
    exact h4

/-- The hypotheses are met: `data/results` and `data/results/a/b` are made, another process making `data/results` first. -/
example : ∃ st' out, createOutputDir
      (fun k fs q => if k = 1 ∧ fs q = .none ∧ q = ["data".toList, "results".toList] then Entry.dir else fs q)
      (fun _ => true) ⟨sampleFS, 0⟩ "data/results".toList "a/b".toList = some (st', out) ∧ out.getLast? = some '/' ∧
    comps out = comps "data/results".toList ++ comps "a/b".toList ∧
    ∀ q, comps "data/results".toList <+: q → q <+: comps out → st'.fs q = .dir := by
  refine output_dirs_partial ?_ (by decide) (by decide) ?_ ?_
  · intro k fs q
    constructor
    · intro h
      dsimp only
      split_ifs
      · rfl
      · exact h
    · dsimp only
      split_ifs
      · exact fun h => by cases h
      · exact id
  · exact .inr ⟨by decide, by decide, rfl⟩
  · intro q hq _
    refine ⟨?_, rfl⟩
    intro h
    rw [sample_other h] at hq
    exact absurd hq (by decide)

/-- C209: when no other process acts, nothing is removed or replaced, and only directories on the way to the returned path
(or the global directory itself) are made, where nothing was before. -/
theorem output_frame {perm : Path → Bool} {st st' : St} {g s out : List Char}
    (h : createOutputDir alone perm st g s = some (st', out)) (q : Path) :
    st'.fs q = st.fs q ∨
      (st.fs q = .none ∧ st'.fs q = .dir ∧ (q <+: comps out ∨ q = comps (addDirSlashIfMissing g))) := by
  unfold createOutputDir at h
  split at h
  · cases h
  · rename_i hne
    rw [not_or] at hne
    dsimp only at h
    have hgn : addDirSlashIfMissing g ≠ [] := by
      rcases (Seq.addDirSlash_spec g).2.1 hne.1 with h | h <;> (intro e; rw [e] at h; cases h)
    have hsn : addDirSlashIfMissing g ++ s ≠ [] := by simp [hne.2]
    have hon : addDirSlashIfMissing (addDirSlashIfMissing g ++ s) ≠ [] := by
      rcases (Seq.addDirSlash_spec _).2.1 hsn with h | h <;> (intro e; rw [e] at h; cases h)
    have hoc : comps (addDirSlashIfMissing (addDirSlashIfMissing g ++ s)) = comps (addDirSlashIfMissing g ++ s) := by
      have := Seq.addDirSlash_spec (addDirSlashIfMissing g ++ s)
      by_cases he : Seq.EndsWithSep (addDirSlashIfMissing g ++ s)
      · rw [this.2.2.1 he]
      · rw [this.2.2.2 hsn he, comps_end]
    rw [if_pos hgn, if_pos hon] at h
    simp only [Option.some.injEq, Prod.mk.injEq] at h
    obtain ⟨rfl, rfl⟩ := h
    have h1 := createDir_alone (perm := perm) (st := st) (path := addDirSlashIfMissing g) q
    have h2 := loop_alone (perm := perm) (g := addDirSlashIfMissing g) (s := s) (s.length + 1) (findSlash s 0)
      (createDir alone perm st (addDirSlashIfMissing g)) (fun k h => findSlash_some h) q
    have h3 := createDir_alone (perm := perm) (st := loop alone perm (addDirSlashIfMissing g) s (s.length + 1) (findSlash s 0)
      (createDir alone perm st (addDirSlashIfMissing g))) (path := addDirSlashIfMissing (addDirSlashIfMissing g ++ s)) q
    have h4 : (loop alone perm (addDirSlashIfMissing g) s (s.length + 1) (findSlash s 0)
        (createDir alone perm st (addDirSlashIfMissing g))).fs q = st.fs q ∨
        (st.fs q = .none ∧ (loop alone perm (addDirSlashIfMissing g) s (s.length + 1) (findSlash s 0)
        (createDir alone perm st (addDirSlashIfMissing g))).fs q = .dir ∧
        (q <+: comps (addDirSlashIfMissing (addDirSlashIfMissing g ++ s)) ∨ q = comps (addDirSlashIfMissing g))) := by
      rcases h2 with h2 | ⟨h2, h2', k, hk, hq⟩
      · rw [h2]
        rcases h1 with h1 | ⟨h1, h1', h1'', -⟩
        · exact .inl h1
        · exact .inr ⟨h1, h1', .inr h1''⟩
      · right
        refine ⟨?_, h2', .inl ?_⟩
        · rcases h1 with h1 | h1
          · rw [← h1, h2]
          · exact h1.1
        · rw [hoc, hq]
          have hl : k < s.length := (List.getElem?_eq_some_iff.1 hk).1
          have hs : s = s.take k ++ '/' :: s.drop (k + 1) := by
            have := (List.getElem?_eq_some_iff.1 hk).2
            rw [← this, ← List.drop_eq_getElem_cons hl, List.take_append_drop]
          have e : addDirSlashIfMissing g ++ s = (addDirSlashIfMissing g ++ s.take k) ++ '/' :: s.drop (k + 1) := by
            rw [List.append_assoc, ← hs]
          rw [e, comps_slash]
          exact List.prefix_append _ _
    rcases h3 with h3 | ⟨h3, h3', h3'', -⟩
    · rw [h3]
      exact h4
    · right
      refine ⟨?_, h3', .inl (by rw [h3'']; exact List.prefix_refl _)⟩
      rcases h4 with h4 | h4
      · rw [← h4, h3]
      · exact h4.1

/-- C209: a file system where everything is in a directory stays so. -/
theorem output_tree {perm : Path → Bool} {st st' : St} {g s out : List Char} (ht : Tree st.fs)
    (h : createOutputDir alone perm st g s = some (st', out)) : Tree st'.fs := by
  unfold createOutputDir at h
  split at h
  · cases h
  · dsimp only at h
    simp only [Option.some.injEq, Prod.mk.injEq] at h
    obtain ⟨rfl, -⟩ := h
    have h1 : Tree (if addDirSlashIfMissing g ≠ [] then createDir alone perm st (addDirSlashIfMissing g) else st).fs := by
      split_ifs
      · exact createDir_tree ht
      · exact ht
    have h2 := loop_tree (perm := perm) (g := addDirSlashIfMissing g) (s := s) (s.length + 1) (findSlash s 0) _ h1
    by_cases hon : addDirSlashIfMissing (addDirSlashIfMissing g ++ s) ≠ []
    · rw [if_pos hon]
      exact createDir_tree h2
    · rw [if_neg hon]
      exact h2

/-- C209: empty names are refused. -/
theorem output_empty (env : Nat → FS → FS) (perm : Path → Bool) (st : St) (g s : List Char) :
    createOutputDir env perm st g s = none ↔ g = [] ∨ s = [] := by
  unfold createOutputDir
  by_cases h : g = [] ∨ s = []
  · rw [if_pos h]
    simp [h]
  · rw [if_neg h]
    simp [h]

/-- C209 does not hold in general: a path is returned even when no directory could be made, because the parent of the global
directory does not exist, or because a file is on the way. -/
theorem output_refuted :
    (∃ st' out, createOutputDir alone (fun _ => true) ⟨sampleFS, 0⟩ "none/results".toList "a".toList = some (st', out) ∧
      st'.fs (comps out) ≠ .dir) ∧
    ∃ st' out, createOutputDir alone (fun _ => true) ⟨sampleFS, 0⟩ "data".toList "f/a".toList = some (st', out) ∧
      st'.fs (comps out) ≠ .dir := by
  refine ⟨⟨_, _, rfl, ?_⟩, ⟨_, _, rfl, ?_⟩⟩
  · decide +kernel
  · decide +kernel

/-- C209: a trailing backslash is taken for a separator where it is part of a name: the returned path does not end with `/`,
so that the path of a file in the directory is outside of it. -/
theorem backslash_refuted : ∃ st' out, createOutputDir alone (fun _ => true) ⟨sampleFS, 0⟩ "data".toList "a\\".toList =
    some (st', out) ∧ ¬ comps out <+: comps (out ++ "x.png".toList) := by
  refine ⟨_, _, rfl, ?_⟩
  decide +kernel

/-! ### Handlers -/

theorem plain_precomp (rel : List Char) : Plain (rel ++ "precomp/".toList) := plain_append rel (by decide)

/-- C210. Under the hypotheses of C209, a handler has its output and feature directories below the output directory of the
dataset, at its relative path; both exist; the feature directory is `precomp` in the output directory; and the data path is
the one of the dataset followed by the relative path. -/
theorem handler_dirs {env : Nat → FS → FS} {perm : Path → Bool} (he : OnlyMakesDirs env) {st : St}
    {data g rel : List Char} (hg : Plain g) (hs : Plain rel)
    (hroot : st.fs (comps g) = .dir ∨ (comps g ≠ [] ∧ st.fs (comps g).dropLast = .dir ∧ perm (comps g).dropLast = true))
    (hfree : ∀ q, comps g <+: q → q <+: comps g ++ comps rel ++ ["precomp".toList] → st.fs q ≠ .other ∧ perm q = true) :
    ∃ st' p, handler env perm st data g rel = some (st', p) ∧
      comps p.output = comps g ++ comps rel ∧ st'.fs (comps p.output) = .dir ∧
      p.features = p.output ++ "precomp/".toList ∧ comps p.features = comps p.output ++ ["precomp".toList] ∧
      st'.fs (comps p.features) = .dir ∧
      p.data = data ++ addDirSlashIfMissing rel ∧ p.output.getLast? = some '/' := by
  obtain ⟨st1, o, h1, h1o, h1e, h1c, h1f, h1d⟩ := output_all he hg hs hroot (fun q hq1 hq2 =>
    hfree q hq1 (hq2.trans (List.prefix_append _ _)))
  obtain ⟨hre, hrc⟩ := slash_plain hs
  have hrp : comps (addDirSlashIfMissing rel ++ "precomp/".toList) = comps rel ++ ["precomp".toList] := by
    rw [comps_append hre, hrc]
    congr 1
  obtain ⟨st2, f, h2, h2o, h2e, h2c, h2f, h2d⟩ := output_all (st := st1) he hg (plain_precomp (addDirSlashIfMissing rel))
    (.inl (h1d _ (List.prefix_refl _) (List.prefix_append _ _)))
    (fun q hq1 hq2 => by
      rw [hrp, ← List.append_assoc] at hq2
      exact ⟨fun h => (hfree q hq1 hq2).1 (h1f q h), (hfree q hq1 hq2).2⟩)
  rw [hrp] at h2c h2d
  have hfo : f = o ++ "precomp/".toList := by
    rw [h2o, h1o]
    obtain ⟨hge, -⟩ := slash_plain hg
    have e1 : addDirSlashIfMissing (addDirSlashIfMissing g ++ rel) = addDirSlashIfMissing g ++ addDirSlashIfMissing rel := by
      have a1 := Seq.addDirSlash_spec rel
      have a2 := Seq.addDirSlash_spec (addDirSlashIfMissing g ++ rel)
      have hl : (addDirSlashIfMissing g ++ rel).getLast? = rel.getLast? := List.getLast?_append_of_ne_nil _ hs.1
      by_cases hsep : Seq.EndsWithSep rel
      · rw [a1.2.2.1 hsep, a2.2.2.1]
        unfold Seq.EndsWithSep
        rw [hl]
        exact hsep
      · rw [a1.2.2.2 hs.1 hsep, a2.2.2.2 (by simp [hs.1]), List.append_assoc]
        unfold Seq.EndsWithSep
        rw [hl]
        exact hsep
    rw [e1, ← List.append_assoc]
    refine (Seq.addDirSlash_spec _).2.2.1 (.inl ?_)
    rw [List.getLast?_append_of_ne_nil _ (by decide)]
    decide
  refine ⟨st2, ⟨data ++ addDirSlashIfMissing rel, o, f⟩, ?_, h1c, ?_, hfo, ?_, ?_, rfl, ?_⟩
  · unfold handler
    rw [h1]
    dsimp only
    rw [h2]
  · rw [h1c]
    exact h2d _ (List.prefix_append _ _) (by rw [← List.append_assoc]; exact List.prefix_append _ _)
  · rw [h2c, h1c, List.append_assoc]
  · rw [h2c]
    exact h2d _ (List.prefix_append _ _) (List.prefix_refl _)
  · obtain ⟨e, h⟩ := h1e
    rw [h, List.getLast?_concat]

/-- A handler at `bridge` in the output directory `data/results/`. -/
example : ∃ st' p, handler alone (fun _ => true)
    ⟨fun q => if q = [] ∨ q = ["data".toList] then Entry.dir else .none, 0⟩ "in/".toList "data/results/".toList
    "bridge".toList = some (st', p) ∧ st'.fs (comps p.output) = .dir ∧ st'.fs (comps p.features) = .dir := by
  obtain ⟨st', p, h, -, h1, -, -, h2, -⟩ := handler_dirs (env := alone) (perm := fun _ => true)
    (st := ⟨fun q => if q = [] ∨ q = ["data".toList] then Entry.dir else .none, 0⟩) (data := "in/".toList)
    (g := "data/results/".toList) (rel := "bridge".toList) (fun k fs q => ⟨id, id⟩) (by decide) (by decide)
    (.inr ⟨by decide, by decide, rfl⟩) (fun q _ _ => ⟨by dsimp only; split_ifs <;> (intro h; cases h), rfl⟩)
  exact ⟨st', p, h, h1, h2⟩

/-- C210: the relative path of a batch of a group is its name below the path of the group. -/
theorem batch_below {groupRel n : List Char} (hr : groupRel = [] ∨ groupRel.getLast? = some '/')
    (hn : Plain n ∧ '/' ∉ n ∧ n ≠ ['.']) : comps (batchRel groupRel n) = comps groupRel ++ [n] := by
  have h1 : comps (batchRel groupRel n) = comps groupRel ++ comps (addDirSlashIfMissing n) := by
    unfold batchRel
    rcases hr with rfl | hr
    · rfl
    · obtain ⟨e, rfl⟩ := List.getLast?_eq_some_iff.1 hr
      exact comps_append ⟨e, rfl⟩ _
  rw [h1, (slash_plain hn.1).2, comps_word n hn.2.1]
  unfold piece
  rw [if_neg]
  rintro (h | h)
  · exact hn.1.1 h
  · exact hn.2.2 h

/-- C210: the output directories of two batches of a group, with different names, are different and neither is in the
other. -/
theorem siblings_apart {g groupRel n m : List Char} (hr : groupRel = [] ∨ groupRel.getLast? = some '/')
    (hn : Plain n ∧ '/' ∉ n ∧ n ≠ ['.']) (hm : Plain m ∧ '/' ∉ m ∧ m ≠ ['.']) (hne : n ≠ m) :
    ¬ comps g ++ comps (batchRel groupRel n) <+: comps g ++ comps (batchRel groupRel m) := by
  rw [batch_below hr hn, batch_below hr hm, ← List.append_assoc, ← List.append_assoc, List.prefix_concat_iff]
  rintro (h | h)
  · simp only [List.append_cancel_left_eq, List.cons.injEq, and_true] at h
    exact hne h
  · have := h.length_le
    simp at this
    omega

example : ¬ comps "out/".toList ++ comps (batchRel "base/".toList "a".toList) <+:
    comps "out/".toList ++ comps (batchRel "base/".toList "ab".toList) :=
  siblings_apart (.inr (by decide)) (by decide) (by decide) (by decide)

/-- C210: a batch called `precomp` has the feature directory of its group as output directory. -/
theorem precomp_refuted (rel : List Char) : batchRel (addDirSlashIfMissing rel) "precomp".toList =
    addDirSlashIfMissing rel ++ "precomp/".toList := by
  unfold batchRel
  congr 1

/-- C210: the constructor of a dataset makes its output directory and `precomp` in it, when the parent exists. -/
theorem dataset_dirs {env : Nat → FS → FS} {perm : Path → Bool} (he : OnlyMakesDirs env) {st : St}
    {data g : List Char} (hg : Plain g)
    (hroot : st.fs (comps g) = .dir ∨ (comps g ≠ [] ∧ st.fs (comps g).dropLast = .dir ∧ perm (comps g).dropLast = true))
    (hperm : perm (comps g) = true)
    (h1 : st.fs (comps g) ≠ .other) (h2 : st.fs (comps g ++ ["precomp".toList]) ≠ .other) :
    comps (dataset env perm st data g).2.output = comps g ∧
    (dataset env perm st data g).1.fs (comps g) = .dir ∧
    (dataset env perm st data g).2.features = (dataset env perm st data g).2.output ++ "precomp/".toList ∧
    (dataset env perm st data g).1.fs (comps (dataset env perm st data g).2.features) = .dir := by
  obtain ⟨hge, hgc⟩ := slash_plain hg
  have hgn : addDirSlashIfMissing g ≠ [] := by
    obtain ⟨e, h⟩ := hge
    rw [h]; simp
  have hfc : comps (addDirSlashIfMissing g ++ "precomp/".toList) = comps g ++ ["precomp".toList] := by
    rw [comps_append hge, hgc]
    congr 1
  have hd : (createDir env perm st (addDirSlashIfMissing g)).fs (comps g) = .dir := by
    have := createDir_makes (env := env) (perm := perm) he (st := st) (path := addDirSlashIfMissing g)
    rw [hgc] at this
    exact this h1 hroot
  unfold dataset
  dsimp only
  rw [if_pos hgn]
  refine ⟨hgc, createDir_mono he hd, rfl, ?_⟩
  refine createDir_makes he ?_ ?_
  · rw [hfc]
    exact fun h => h2 (createDir_other he h)
  · rw [hfc]
    exact .inr ⟨by simp, by rw [List.dropLast_concat]; exact hd, by rw [List.dropLast_concat]; exact hperm⟩

example : (dataset alone (fun _ => true) ⟨sampleFS, 0⟩ "in".toList "data/results".toList).1.fs
    (comps "data/results".toList) = .dir :=
  (dataset_dirs (fun _ _ _ => ⟨id, id⟩) (by decide) (.inr ⟨by decide, by decide, rfl⟩) rfl (by decide) (by decide)).2.1

end Litiv.OutDir
