import Verif.Spec.OutDir
import Verif.Props.Seq

/-!
# Lemmas about output directories
-/

namespace Litiv.OutDir
open Litiv.Files (Entry)
open Litiv.Seq (addDirSlashIfMissing)

theorem compsFrom_slash (cur a b : List Char) : compsFrom cur (a ++ '/' :: b) = compsFrom cur a ++ comps b := by
  induction a generalizing cur with
  | nil => simp [compsFrom, comps]
  | cons c a ih =>
    by_cases hc : c = '/'
    · subst hc
      simp only [List.cons_append, compsFrom, if_true, ih, List.append_assoc]
    · simp only [List.cons_append, compsFrom, if_neg hc, ih]

theorem comps_slash (a b : List Char) : comps (a ++ '/' :: b) = comps a ++ comps b := compsFrom_slash [] a b

theorem comps_nil : comps [] = [] := rfl

theorem comps_end (a : List Char) : comps (a ++ ['/']) = comps a := by
  rw [comps_slash, comps_nil, List.append_nil]

theorem compsFrom_word (cur w : List Char) (h : '/' ∉ w) : compsFrom cur w = piece (cur ++ w) := by
  induction w generalizing cur with
  | nil => simp [compsFrom]
  | cons c w ih =>
    have hc : c ≠ '/' := fun e => h (by simp [e])
    simp only [compsFrom, if_neg hc]
    rw [ih _ (fun e => h (by simp [e]))]
    simp

theorem comps_word (w : List Char) (h : '/' ∉ w) : comps w = piece w := by
  unfold comps
  rw [compsFrom_word [] w h, List.nil_append]

/-- A path with a slash at its end. -/
def Ended (g : List Char) : Prop := ∃ e, g = e ++ ['/']

theorem comps_append {g : List Char} (h : Ended g) (s : List Char) : comps (g ++ s) = comps g ++ comps s := by
  obtain ⟨e, rfl⟩ := h
  rw [comps_end, List.append_assoc]
  exact comps_slash e s

theorem slash_plain {s : List Char} (h : Plain s) : Ended (addDirSlashIfMissing s) ∧ comps (addDirSlashIfMissing s) = comps s := by
  have hs := Seq.addDirSlash_spec s
  by_cases he : Seq.EndsWithSep s
  · rw [hs.2.2.1 he]
    refine ⟨?_, rfl⟩
    obtain ⟨c, hc, hc'⟩ : ∃ c, s.getLast? = some c ∧ (c = '/' ∨ c = '\\') := by
      unfold Seq.EndsWithSep at he
      rcases he with he | he
      · exact ⟨_, he, .inl rfl⟩
      · exact ⟨_, he, .inr rfl⟩
    rcases hc' with rfl | rfl
    · obtain ⟨m, rfl⟩ := List.getLast?_eq_some_iff.1 hc
      exact ⟨m, rfl⟩
    · exact absurd hc h.2
  · rw [hs.2.2.2 h.1 he]
    exact ⟨⟨s, rfl⟩, comps_end s⟩

theorem dropLast_piece (p : Path) (w : List Char) (h : piece w ≠ []) : (p ++ piece w).dropLast = p := by
  unfold piece at h ⊢
  split at h
  · exact absurd rfl h
  · rename_i hw
    rw [if_neg hw, List.dropLast_concat]

/-! ### One directory -/

section One
variable {env : Nat → FS → FS} {perm : Path → Bool} {st : St} {path : List Char}

theorem createDir_other (h : OnlyMakesDirs env) {q : Path} (ho : (createDir env perm st path).fs q = .other) :
    st.fs q = .other := by
  have hb : ∀ q, env (st.calls + 1) (env st.calls st.fs) q = .other → st.fs q = .other :=
    fun q hq => (h _ _ q).2 ((h _ _ q).2 hq)
  simp only [createDir] at ho
  by_cases hq : q = comps path
  · subst hq
    rw [if_pos rfl] at ho
    unfold Files.createDir Files.mkdir at ho
    split_ifs at ho
    · exact hb _ ho
    · exact hb _ ho
  · rw [if_neg hq] at ho
    exact hb q ho

theorem createDir_mono (h : OnlyMakesDirs env) {q : Path} (hd : st.fs q = .dir) :
    (createDir env perm st path).fs q = .dir := by
  have hb : env (st.calls + 1) (env st.calls st.fs) q = .dir := (h _ _ q).1 ((h _ _ q).1 hd)
  simp only [createDir]
  by_cases hq : q = comps path
  · subst hq
    rw [if_pos rfl]
    unfold Files.createDir Files.mkdir
    split_ifs
    · rfl
    · exact hb
    · exact hb
  · rw [if_neg hq]
    exact hb

theorem createDir_makes (h : OnlyMakesDirs env) (ho : st.fs (comps path) ≠ .other)
    (hp : st.fs (comps path) = .dir ∨ (comps path ≠ [] ∧ st.fs (comps path).dropLast = .dir ∧
      perm (comps path).dropLast = true)) :
    (createDir env perm st path).fs (comps path) = .dir := by
  rcases hp with hp | ⟨hne, hd, hperm⟩
  · exact createDir_mono h hp
  have hd2 : env (st.calls + 1) (env st.calls st.fs) (comps path).dropLast = .dir := (h _ _ _).1 ((h _ _ _).1 hd)
  have ho1 : env st.calls st.fs (comps path) ≠ .other := fun e => ho ((h _ _ _).2 e)
  have ho2 : env (st.calls + 1) (env st.calls st.fs) (comps path) ≠ .other := fun e => ho1 ((h _ _ _).2 e)
  simp only [createDir]
  rw [if_pos trivial, hd2, hperm]
  unfold Files.createDir Files.mkdir
  by_cases h1 : env st.calls st.fs (comps path) = .none
  · rw [if_pos h1]
    by_cases h2 : env (st.calls + 1) (env st.calls st.fs) (comps path) = .none
    · rw [if_pos ⟨h2, by simp [hne]⟩]
    · rw [if_neg (fun e => h2 e.1)]
      revert h2 ho2
      generalize env (st.calls + 1) (env st.calls st.fs) (comps path) = e
      intro ho2 h2
      cases e
      · exact absurd rfl h2
      · rfl
      · exact absurd rfl ho2
  · rw [if_neg h1]
    refine (h _ _ _).1 ?_
    revert h1 ho1
    generalize env st.calls st.fs (comps path) = e
    intro ho1 h1
    cases e
    · exact absurd rfl h1
    · rfl
    · exact absurd rfl ho1

theorem createDir_alone (q : Path) :
    (createDir alone perm st path).fs q = st.fs q ∨
      (st.fs q = .none ∧ (createDir alone perm st path).fs q = .dir ∧ q = comps path ∧ q ≠ [] ∧ st.fs q.dropLast = .dir) := by
  simp only [createDir, alone]
  by_cases hq : q = comps path
  · subst hq
    rw [if_pos rfl]
    unfold Files.createDir Files.mkdir
    split_ifs with h1 h2
    · right
      have := h2.2
      simp only [Bool.and_eq_true, decide_eq_true_eq] at this
      exact ⟨h1, rfl, rfl, this.1.1, of_decide_eq_true this.1.2⟩
    · exact .inl rfl
    · exact .inl rfl
  · rw [if_neg hq]
    exact .inl rfl

end One

/-! ### The loop -/

theorem findSlash_word (a w b : List Char) (h : '/' ∉ w) :
    findSlash (a ++ (w ++ '/' :: b)) a.length = some (a.length + w.length) := by
  unfold findSlash
  rw [List.drop_left]
  have : (w ++ '/' :: b).findIdx? (fun c => decide (c = '/')) = some w.length := by
    rw [List.findIdx?_append, List.findIdx?_eq_none_iff.2]
    · simp [List.findIdx?_cons]
    · intro c hc
      simp only [decide_eq_false_iff_not]
      rintro rfl
      exact h hc
  rw [this]
  simp [Nat.add_comm]

theorem findSlash_none (a w : List Char) (h : '/' ∉ w) : findSlash (a ++ w) a.length = none := by
  unfold findSlash
  rw [List.drop_left, List.findIdx?_eq_none_iff.2]
  · rfl
  · intro c hc
    simp only [decide_eq_false_iff_not]
    rintro rfl
    exact h hc

theorem findSlash_some {s : List Char} {pos k : Nat} (h : findSlash s pos = some k) : s[k]? = some '/' := by
  unfold findSlash at h
  rw [Option.map_eq_some_iff] at h
  obtain ⟨i, hi, rfl⟩ := h
  obtain ⟨hl, hp, -⟩ := List.findIdx?_eq_some_iff_getElem.1 hi
  simp only [decide_eq_true_eq] at hp
  have : (s.drop pos)[i]? = some '/' := by rw [List.getElem?_eq_getElem hl, hp]
  rw [List.getElem?_drop, Nat.add_comm] at this
  exact this

theorem split_slash (b : List Char) : '/' ∉ b ∨ ∃ w b', '/' ∉ w ∧ b = w ++ '/' :: b' := by
  induction b with
  | nil => exact .inl (by simp)
  | cons c b ih =>
    by_cases hc : c = '/'
    · exact .inr ⟨[], b, by simp, by simp [hc]⟩
    · rcases ih with ih | ⟨w, b', h1, h2⟩
      · exact .inl (by simp [ih, Ne.symm hc])
      · exact .inr ⟨c :: w, b', by simp [h1, Ne.symm hc], by simp [h2]⟩

theorem prefix_piece {q c : Path} {w : List Char} (h : q <+: c ++ piece w) : q <+: c ∨ q = c ++ piece w := by
  unfold piece at h ⊢
  split at h
  · rw [List.append_nil] at h
    exact .inl h
  · rename_i hw
    rw [if_neg hw]
    rcases List.prefix_concat_iff.1 h with h | h
    · exact .inr h
    · exact .inl h

/-- Making the directory of the next name. -/
theorem createDir_next {env : Nat → FS → FS} {perm : Path → Bool} (he : OnlyMakesDirs env) {st : St} {path : List Char}
    {g c : Path} {w : List Char} (hc : comps path = g ++ c ++ piece w)
    (hdirs : ∀ q, g <+: q → q <+: g ++ c → st.fs q = .dir)
    (ho : st.fs (g ++ c ++ piece w) ≠ .other) (hperm : perm (g ++ c) = true) :
    ∀ q, g <+: q → q <+: g ++ c ++ piece w → (createDir env perm st path).fs q = .dir := by
  intro q hq1 hq2
  rcases prefix_piece hq2 with h | h
  · exact createDir_mono he (hdirs q hq1 h)
  · rw [h, ← hc]
    refine createDir_makes he (by rw [hc]; exact ho) ?_
    rw [hc]
    by_cases hw : piece w = []
    · rw [hw, List.append_nil]
      exact .inl (hdirs _ (List.prefix_append _ _) (List.prefix_refl _))
    · right
      rw [dropLast_piece _ _ hw]
      exact ⟨by simp [hw], hdirs _ (List.prefix_append _ _) (List.prefix_refl _), hperm⟩

theorem loop_dirs {env : Nat → FS → FS} {perm : Path → Bool} (he : OnlyMakesDirs env) {g s : List Char} (hg : Ended g)
    (fuel : Nat) (a b : List Char) (st : St) (hs : s = a ++ b) (hf : b.length < fuel) (ha : a = [] ∨ Ended a)
    (hdirs : ∀ q, comps g <+: q → q <+: comps g ++ comps a → st.fs q = .dir)
    (ho : ∀ q, comps g <+: q → q <+: comps g ++ comps s → st.fs q ≠ .other)
    (hperm : ∀ q, comps g <+: q → q <+: comps g ++ comps s → perm q = true) :
    (∀ q, (loop env perm g s fuel (findSlash s a.length) st).fs q = .other → st.fs q = .other) ∧
    ∃ a' v, comps s = comps a' ++ piece v ∧
      ∀ q, comps g <+: q → q <+: comps g ++ comps a' →
        (loop env perm g s fuel (findSlash s a.length) st).fs q = .dir := by
  induction fuel generalizing a b st with
  | zero => omega
  | succ fuel ih =>
    have hab : ∀ b : List Char, comps (a ++ b) = comps a ++ comps b := by
      intro b
      rcases ha with rfl | ha
      · rfl
      · exact comps_append ha b
    rcases split_slash b with hb | ⟨w, b', hw, hb⟩
    · rw [hs, findSlash_none a b hb]
      refine ⟨fun q h => h, a, b, ?_, hdirs⟩
      rw [hab, comps_word b hb]
    · have hs' : s = a ++ (w ++ '/' :: b') := by rw [hs, hb]
      have hcs : comps s = comps a ++ piece w ++ comps b' := by
        rw [hs', hab, comps_slash, comps_word w hw, List.append_assoc]
      have hk : findSlash s a.length = some (a.length + w.length) := by rw [hs', findSlash_word a w b' hw]
      rw [hk]
      have hlen : s.length = a.length + w.length + 1 + b'.length := by
        rw [hs']; simp; omega
      unfold loop
      by_cases hlast : a.length + w.length ≠ s.length - 1
      · rw [if_pos hlast]
        have htake : s.take (a.length + w.length) = a ++ w := by
          rw [hs', ← List.append_assoc, ← List.length_append, List.take_left]
        have hpath : comps (g ++ s.take (a.length + w.length)) = comps g ++ comps a ++ piece w := by
          rw [htake, comps_append hg, hab, comps_word w hw, List.append_assoc]
        have hnext := createDir_next (env := env) (perm := perm) he (st := st)
          (path := g ++ s.take (a.length + w.length)) hpath hdirs
          (ho _ (by rw [List.append_assoc]; exact List.prefix_append _ _)
            (by rw [hcs, ← List.append_assoc, ← List.append_assoc]; exact List.prefix_append _ _))
          (hperm _ (List.prefix_append _ _)
            (by rw [hcs, ← List.append_assoc, ← List.append_assoc, List.append_assoc]; exact List.prefix_append _ _))
        have ha' : comps (a ++ w ++ ['/']) = comps a ++ piece w := by
          rw [comps_end, hab, comps_word w hw]
        have hl' : a.length + w.length + 1 = (a ++ w ++ ['/']).length := by simp; omega
        rw [hl']
        have := ih (a ++ w ++ ['/']) b' (createDir env perm st (g ++ s.take (a.length + w.length)))
          (by rw [hs']; simp) (by rw [hb] at hf; simp at hf; omega) (.inr ⟨_, rfl⟩)
          (fun q h1 h2 => hnext q h1 (by rw [ha', ← List.append_assoc] at h2; exact h2))
          (fun q h1 h2 h3 => ho q h1 h2 (createDir_other he h3))
        refine ⟨fun q h => createDir_other he (this.1 q h), this.2⟩
      · rw [if_neg hlast]
        have hb0 : b' = [] := List.eq_nil_of_length_eq_zero (by omega)
        refine ⟨fun q h => h, a, w, ?_, hdirs⟩
        rw [hcs, hb0, comps_nil, List.append_nil]

theorem plain_append (g : List Char) {s : List Char} (h : Plain s) : Plain (g ++ s) := by
  refine ⟨by simp [h.1], ?_⟩
  rw [List.getLast?_append_of_ne_nil _ h.1]
  exact h.2

theorem output_all {env : Nat → FS → FS} {perm : Path → Bool} (he : OnlyMakesDirs env) {st : St} {g s : List Char}
    (hg : Plain g) (hs : Plain s)
    (hroot : st.fs (comps g) = .dir ∨ (comps g ≠ [] ∧ st.fs (comps g).dropLast = .dir ∧ perm (comps g).dropLast = true))
    (hfree : ∀ q, comps g <+: q → q <+: comps g ++ comps s → st.fs q ≠ .other ∧ perm q = true) :
    ∃ st' out, createOutputDir env perm st g s = some (st', out) ∧ out = addDirSlashIfMissing (addDirSlashIfMissing g ++ s) ∧
      Ended out ∧ comps out = comps g ++ comps s ∧
      (∀ q, st'.fs q = .other → st.fs q = .other) ∧
      ∀ q, comps g <+: q → q <+: comps g ++ comps s → st'.fs q = .dir := by
  obtain ⟨hge, hgc⟩ := slash_plain hg
  have hout := slash_plain (plain_append (addDirSlashIfMissing g) hs)
  have hoc : comps (addDirSlashIfMissing (addDirSlashIfMissing g ++ s)) = comps g ++ comps s := by
    rw [hout.2, comps_append hge, hgc]
  have hgn : addDirSlashIfMissing g ≠ [] := by
    obtain ⟨e, h⟩ := hge
    rw [h]; simp
  have hon : addDirSlashIfMissing (addDirSlashIfMissing g ++ s) ≠ [] := by
    obtain ⟨e, h⟩ := hout.1
    rw [h]; simp
  unfold createOutputDir
  rw [if_neg (by simp [hg.1, hs.1])]
  dsimp only
  rw [if_pos hgn, if_pos hon]
  refine ⟨_, _, rfl, rfl, hout.1, hoc, ?_⟩
  have h1 : (createDir env perm st (addDirSlashIfMissing g)).fs (comps g) = .dir := by
    have := createDir_makes (env := env) (perm := perm) he (st := st) (path := addDirSlashIfMissing g)
    rw [hgc] at this
    exact this (hfree _ (List.prefix_refl _) (List.prefix_append _ _)).1 hroot
  obtain ⟨h2, a', v, h3, h4⟩ := loop_dirs (perm := perm) he hge (s := s) (s.length + 1) [] s
    (createDir env perm st (addDirSlashIfMissing g)) rfl (Nat.lt_succ_self _) (.inl rfl)
    (by
      rw [hgc]
      intro q hq1 hq2
      rw [comps_nil, List.append_nil] at hq2
      have : q = comps g := hq2.eq_of_length_le hq1.length_le
      rw [this]
      exact h1)
    (by
      rw [hgc]
      exact fun q hq1 hq2 h => (hfree q hq1 hq2).1 (createDir_other he h))
    (by
      rw [hgc]
      exact fun q hq1 hq2 => (hfree q hq1 hq2).2)
  rw [hgc] at h4
  rw [List.length_nil] at h2 h4
  refine ⟨fun q h => createDir_other he (h2 q (createDir_other he h)), ?_⟩
  rw [h3, ← List.append_assoc]
  refine createDir_next he (by rw [hoc, h3, List.append_assoc]) h4 (fun h => ?_) ?_
  · refine (hfree (comps g ++ comps a' ++ piece v) ?_ ?_).1 (createDir_other he (h2 _ h))
    · rw [List.append_assoc]
      exact List.prefix_append _ _
    · rw [h3, List.append_assoc]
      exact List.prefix_refl _
  · refine (hfree (comps g ++ comps a') (List.prefix_append _ _) ?_).2
    rw [h3, ← List.append_assoc]
    exact List.prefix_append _ _

theorem loop_alone {perm : Path → Bool} {g s : List Char} (fuel : Nat) (o : Option Nat) (st : St)
    (hk : ∀ k, o = some k → s[k]? = some '/') (q : Path) :
    (loop alone perm g s fuel o st).fs q = st.fs q ∨
      (st.fs q = .none ∧ (loop alone perm g s fuel o st).fs q = .dir ∧
        ∃ k, s[k]? = some '/' ∧ q = comps (g ++ s.take k)) := by
  induction fuel generalizing o st with
  | zero => exact .inl rfl
  | succ fuel ih =>
    cases o with
    | none => exact .inl rfl
    | some k =>
      unfold loop
      by_cases h : k ≠ s.length - 1
      · rw [if_pos h]
        have h1 := createDir_alone (perm := perm) (st := st) (path := g ++ s.take k) q
        have h2 := ih (findSlash s (k + 1)) (createDir alone perm st (g ++ s.take k)) (fun k h => findSlash_some h)
        rcases h1 with h1 | ⟨h1, h1', h1'', -⟩
        · rw [h1] at h2
          exact h2
        · right
          rcases h2 with h2 | h2
          · exact ⟨h1, h2.trans h1', k, hk k rfl, h1''⟩
          · exact ⟨h1, h2.2⟩
      · rw [if_neg h]
        exact .inl rfl

theorem createDir_tree {perm : Path → Bool} {st : St} {path : List Char} (h : Tree st.fs) :
    Tree (createDir alone perm st path).fs := by
  intro q hq hn
  have hd : st.fs q.dropLast = .dir := by
    rcases createDir_alone (perm := perm) (st := st) (path := path) q with h1 | ⟨-, -, -, -, h1⟩
    · rw [h1] at hn
      exact h q hq hn
    · exact h1
  rcases createDir_alone (perm := perm) (st := st) (path := path) q.dropLast with h1 | ⟨-, h1, -⟩
  · rw [h1]
    exact hd
  · exact h1

theorem loop_tree {perm : Path → Bool} {g s : List Char} (fuel : Nat) (o : Option Nat) (st : St) (h : Tree st.fs) :
    Tree (loop alone perm g s fuel o st).fs := by
  induction fuel generalizing o st with
  | zero => exact h
  | succ fuel ih =>
    cases o with
    | none => exact h
    | some k =>
      unfold loop
      by_cases hk : k ≠ s.length - 1
      · rw [if_pos hk]
        exact ih _ _ (createDir_tree h)
      · rw [if_neg hk]
        exact h

end Litiv.OutDir
