import Verif.Model.Seq
import Mathlib.Data.List.TakeWhile

/-!
# Properties C05–C13, C50: string and sequence helpers

Specification vocabulary (independent of the model): `joinWith`, `endsWith`, plain list membership, counting and
`List.filter`.
-/

namespace Litiv.Seq

/-! ## C05 split -/

/-- Specification: the fields written one after the other with the delimiter in between. -/
def joinWith (d : Char) : List (List Char) → List Char
  | [] => []
  | [f] => f
  | f :: fs => f ++ d :: joinWith d fs

theorem split_nil (d : Char) : split d [] = [] := by
  rw [split]; rfl

theorem split_cons_stream (d : Char) (a : Char) (l : List Char) :
    split d (a :: l) = (a :: l).takeWhile (· != d) :: split d (((a :: l).dropWhile (· != d)).drop 1) := by
  rw [split]; rfl

private theorem split_aux (d : Char) : ∀ (n : Nat) (s : List Char), s.length ≤ n →
    (∀ f ∈ split d s, d ∉ f) ∧
    joinWith d (split d s) ++ (if s.getLast? = some d then [d] else []) = s ∧
    (split d s = [] ↔ s = []) := by
  intro n
  induction n with
  | zero =>
    intro s hs
    have : s = [] := List.length_eq_zero_iff.mp (by omega)
    subst this
    simp [split_nil, joinWith]
  | succ n ih =>
    intro s hs
    cases s with
    | nil => simp [split_nil, joinWith]
    | cons a l =>
      rw [split_cons_stream]
      generalize hT : (a :: l).takeWhile (· != d) = T
      generalize hD : (a :: l).dropWhile (· != d) = D
      have hTD : T ++ D = a :: l := by rw [← hT, ← hD]; exact List.takeWhile_append_dropWhile
      have hTd : d ∉ T := by
        intro hm
        rw [← hT] at hm
        have := List.mem_takeWhile_imp hm
        simp at this
      cases D with
      | nil =>
        simp only [List.drop_nil, split_nil]
        simp only [List.append_nil] at hTD
        refine ⟨?_, ?_, by simp⟩
        · simpa using hTd
        · have : (a :: l).getLast? ≠ some d := by
            intro hc
            have : d ∈ a :: l := List.mem_of_getLast? hc
            rw [← hTD] at this
            exact hTd this
          simp [joinWith, this, hTD]
      | cons e R =>
        have hed : e = d := by
          have h := List.head_dropWhile_not (fun c => c != d) (l := a :: l) (by rw [hD]; simp)
          simp only [hD] at h
          simpa using h
        subst hed
        simp only [List.drop_succ_cons, List.drop_zero]
        have hlen : R.length ≤ n := by
          have := congrArg List.length hTD
          simp at this hs
          omega
        obtain ⟨h1, h2, h3⟩ := ih R hlen
        refine ⟨?_, ?_, by simp⟩
        · intro f hf
          rcases List.mem_cons.mp hf with rfl | hf
          · exact hTd
          · exact h1 f hf
        · cases R with
          | nil =>
            rw [← hTD]
            simp [split_nil, joinWith]
          | cons r R' =>
            have hne : split e (r :: R') ≠ [] := by
              intro hc; exact absurd (h3.mp hc) (by simp)
            obtain ⟨g, gs, hg⟩ := List.exists_cons_of_ne_nil hne
            rw [hg] at h2 ⊢
            have hlast : (a :: l).getLast? = (r :: R').getLast? := by
              rw [← hTD, List.getLast?_append, List.getLast?_cons_cons]
              cases hg2 : (r :: R').getLast? with
              | none => simp at hg2
              | some v => rfl
            rw [hlast, show joinWith e (T :: g :: gs) = T ++ e :: joinWith e (g :: gs) from rfl]
            rw [List.append_assoc, List.cons_append, h2, hTD]

/-- **C05.** No field contains the delimiter; writing the fields back with the delimiter in between gives the input,
up to one trailing delimiter, which is dropped; only the empty input has no field. -/
theorem split_join (d : Char) (s : List Char) :
    (∀ f ∈ split d s, d ∉ f) ∧
    joinWith d (split d s) ++ (if s.getLast? = some d then [d] else []) = s ∧
    (split d s = [] ↔ s = []) :=
  split_aux d s.length s (Nat.le_refl _)

private theorem split_append_delim (d : Char) (f s : List Char) (hf : d ∉ f) :
    split d (f ++ d :: s) = f :: split d s := by
  have htw : (f ++ d :: s).takeWhile (· != d) = f := by
    rw [List.takeWhile_append_of_pos]
    · simp
    · intro a ha
      simp only [bne_iff_ne, ne_eq]
      rintro rfl
      exact hf ha
  have hdw : (f ++ d :: s).dropWhile (· != d) = d :: s := by
    rw [List.dropWhile_append_of_pos]
    · simp
    · intro a ha
      simp only [bne_iff_ne, ne_eq]
      rintro rfl
      exact hf ha
  cases hs : f ++ d :: s with
  | nil => simp at hs
  | cons a l =>
    rw [split_cons_stream, ← hs, htw, hdw]; rfl

/-- **C05, converse.** Splitting a join of delimiter-free fields returns those fields, provided the last one is
non-empty (a trailing empty field is not recoverable: `getline` reports end of input). -/
theorem split_of_join (d : Char) (fs : List (List Char)) (last : List Char)
    (hfs : ∀ f ∈ fs, d ∉ f) (hl : d ∉ last) (hne : last ≠ []) :
    split d (joinWith d (fs ++ [last])) = fs ++ [last] := by
  induction fs with
  | nil =>
    simp only [List.nil_append, joinWith]
    have htw : last.takeWhile (· != d) = last := by
      rw [List.takeWhile_eq_self_iff]
      intro a ha
      simp only [bne_iff_ne, ne_eq]
      rintro rfl; exact hl ha
    have hdw : last.dropWhile (· != d) = [] := by
      rw [List.dropWhile_eq_nil_iff]
      intro a ha
      simp only [bne_iff_ne, ne_eq]
      rintro rfl; exact hl ha
    obtain ⟨a, l, rfl⟩ := List.exists_cons_of_ne_nil hne
    rw [split_cons_stream, htw, hdw]; simp [split_nil]
  | cons f fs ih =>
    have hstep : joinWith d (f :: fs ++ [last]) = f ++ d :: joinWith d (fs ++ [last]) := by
      cases fs <;> rfl
    rw [hstep, split_append_delim d f _ (hfs f (by simp)), ih (fun g hg => hfs g (by simp [hg]))]
    rfl

example : split ',' "a,,b,".toList = ["a".toList, [], "b".toList] := by decide +kernel
example : ',' ∉ "ab".toList ∧ "ab".toList ≠ [] := by decide

/-! ## C06 clampString -/

/-- **C06.** Exactly `n` characters: a prefix of a long string, or the string right-aligned after padding. -/
theorem clampString_spec (s : List Char) (n : Nat) (c : Char) :
    (clampString s n c).length = n ∧
    (n ≤ s.length → clampString s n c = s.take n) ∧
    (s.length ≤ n → ∃ k, clampString s n c = List.replicate k c ++ s ∧ k + s.length = n) := by
  unfold clampString
  refine ⟨?_, ?_, ?_⟩
  · split <;> simp <;> omega
  · intro h
    split
    · rfl
    · have : n = s.length := by omega
      subst this; simp
  · intro h
    split
    · omega
    · exact ⟨n - s.length, rfl, by omega⟩

example : clampString "abc".toList 5 ' ' = "  abc".toList := by decide

/-! ## C07 putf -/

private theorem replicate_drop_zero (n k : Nat) (c : Char) :
    (List.replicate n c).drop k = List.replicate (n - k) c := by simp

theorem vsnprintf_length (old txt : List Char) : (vsnprintf old txt).length = old.length := by
  unfold vsnprintf
  dsimp only
  split
  · rfl
  · simp; omega

theorem vsnprintf_take (old txt : List Char) (h : txt.length < old.length) :
    (vsnprintf old txt).take txt.length = txt := by
  unfold vsnprintf
  dsimp only
  rw [if_neg (by omega)]
  have : txt.take (old.length - 1) = txt := List.take_of_length_le (by omega)
  simp only [this]
  simp [List.append_assoc]

private theorem putfWith_exact (n : Nat) (txt : List Char) (h : txt.length ≠ n) : putfWith n txt = txt := by
  unfold putfWith
  simp only [vsnprintf_length, List.length_replicate]
  by_cases hl : txt.length ≤ n
  · rw [if_pos hl]
    unfold strResize
    rw [vsnprintf_length, List.length_replicate]
    rw [vsnprintf_take _ _ (by simp; omega)]
    simp; omega
  · rw [if_neg hl]
    have hlen : ∀ b : List Char, b.length ≤ txt.length + 1 → (strResize b (txt.length + 1)).length = txt.length + 1 := by
      intro b hb; unfold strResize; simp; omega
    have hb : (strResize (vsnprintf (List.replicate n (Char.ofNat 0)) txt) (txt.length + 1)).length
        = txt.length + 1 := by
      apply hlen; rw [vsnprintf_length]; simp; omega
    generalize strResize (vsnprintf (List.replicate n (Char.ofNat 0)) txt) (txt.length + 1) = b at hb
    unfold strResize
    rw [vsnprintf_length, vsnprintf_take _ _ (by omega)]
    simp [hb]

private theorem putfWith_loses (n : Nat) (txt : List Char) (h : txt.length = n + 1) :
    putfWith (n + 1) txt = txt.take n ++ [Char.ofNat 0] := by
  unfold putfWith
  simp only [vsnprintf_length, List.length_replicate, h, Nat.le_refl, if_true]
  unfold strResize vsnprintf
  simp [h]
  apply List.take_of_length_le
  simp; omega

/-- **C07 (partial).** Every formatted text whose length is not exactly the internal buffer size 1024 is returned
unchanged. Missing: length 1024, for which the claim is false (`putf_loses_last_char`). -/
theorem putf_exact_partial (txt : List Char) (h : txt.length ≠ 1024) : putf txt = txt :=
  putfWith_exact 1024 txt h

/-- **C07 fails** for every text of exactly 1024 characters: the last character is replaced by NUL. -/
theorem putf_loses_last_char (txt : List Char) (h : txt.length = 1024) :
    putf txt = txt.take 1023 ++ [Char.ofNat 0] :=
  putfWith_loses 1023 txt h

example : ("x".toList).length ≠ 1024 := by decide

/-- C07 is false of the code: a 1024-character text is not returned. -/
theorem putf_not_exact : ∃ txt : List Char, putf txt ≠ txt := by
  refine ⟨List.replicate 1024 'x', ?_⟩
  rw [putf_loses_last_char _ List.length_replicate]
  intro h
  have h2 := congrArg List.getLast? h
  rw [List.getLast?_append, List.getLast?_replicate] at h2
  revert h2
  decide

/-! ## C08 filter_in / filter_out -/

theorem findPos_le {α : Type} [DecidableEq α] (refs : List α) (x : α) : findPos refs x ≤ refs.length := by
  induction refs with
  | nil => simp [findPos]
  | cons r rs ih => unfold findPos; split <;> simp; omega

theorem findPos_eq_length_iff {α : Type} [DecidableEq α] (refs : List α) (x : α) :
    findPos refs x = refs.length ↔ x ∉ refs := by
  induction refs with
  | nil => simp [findPos]
  | cons r rs ih =>
    unfold findPos
    split
    · rename_i h; subst h; simp
    · rename_i h
      simp only [List.length_cons, Nat.add_right_cancel_iff, ih, List.mem_cons, not_or]
      constructor
      · intro hx; exact ⟨fun e => h e.symm, hx⟩
      · exact fun hx => hx.2

/-- **C08.** `filter_in` keeps exactly the members of the reference set, in order and with multiplicity. -/
theorem filterIn_spec {α : Type} [DecidableEq α] (v refs : List α) :
    filterIn v refs = v.filter (fun x => decide (x ∈ refs)) := by
  unfold filterIn
  apply List.filter_congr
  intro x _
  have := findPos_eq_length_iff refs x
  by_cases h : x ∈ refs <;> simp_all

/-- **C08.** `filter_out` keeps exactly the non-members, in order and with multiplicity. -/
theorem filterOut_spec {α : Type} [DecidableEq α] (v refs : List α) :
    filterOut v refs = v.filter (fun x => decide (x ∉ refs)) := by
  unfold filterOut
  apply List.filter_congr
  intro x _
  have := findPos_eq_length_iff refs x
  by_cases h : x ∈ refs <;> simp_all

/-- **C08.** The two results partition the input: every value occurs in the input exactly as often as in the two
results together, and never in both. -/
theorem filter_partition {α : Type} [DecidableEq α] (v refs : List α) (x : α) :
    v.count x = (filterIn v refs).count x + (filterOut v refs).count x ∧
    ¬ (x ∈ filterIn v refs ∧ x ∈ filterOut v refs) ∧
    (filterIn v refs).Sublist v ∧ (filterOut v refs).Sublist v := by
  refine ⟨?_, ?_, ?_, ?_⟩
  · rw [filterIn_spec, filterOut_spec]
    by_cases h : x ∈ refs
    · rw [List.count_filter (by simpa using h)]
      have : (List.filter (fun x => decide (x ∉ refs)) v).count x = 0 := by
        apply List.count_eq_zero.mpr
        simp [List.mem_filter, h]
      omega
    · rw [List.count_filter (p := fun x => decide (x ∉ refs)) (by simpa using h)]
      have : (List.filter (fun x => decide (x ∈ refs)) v).count x = 0 := by
        apply List.count_eq_zero.mpr
        simp [List.mem_filter, h]
      omega
  · rw [filterIn_spec, filterOut_spec]
    simp only [List.mem_filter, decide_eq_true_eq]
    rintro ⟨⟨_, h⟩, _, h'⟩
    exact h' h
  · exact List.filter_sublist
  · exact List.filter_sublist

example : filterIn [1, 2, 1, 3] [1, 9] = [1, 1] ∧ filterOut [1, 2, 1, 3] [1, 9] = [2, 3] := by decide

/-! ## C09 indices_of -/

/-- **C09.** One index per value; a value that occurs in the references gets the position of its *first* occurrence;
an absent value gets an index that is out of range for the references — `refs.length` when there are references and
`1` when there are none. -/
theorem indicesOf_spec {α : Type} [DecidableEq α] (vals refs : List α) :
    (indicesOf vals refs).length = vals.length ∧
    ∀ i (hi : i < vals.length), ∃ k, (indicesOf vals refs)[i]? = some k ∧
      (vals[i] ∈ refs → refs[k]? = some vals[i] ∧ ∀ j, j < k → refs[j]? ≠ some vals[i]) ∧
      (vals[i] ∉ refs → refs.length ≤ k ∧ (refs ≠ [] → k = refs.length) ∧ (refs = [] → k = 1)) := by
  have hfirst : ∀ (rs : List α) (x : α), x ∈ rs →
      rs[findPos rs x]? = some x ∧ ∀ j, j < findPos rs x → rs[j]? ≠ some x := by
    intro rs
    induction rs with
    | nil => intro x hx; simp at hx
    | cons r rs ih =>
      intro x hx
      unfold findPos
      by_cases h : r = x
      · subst h; simp
      · rw [if_neg h]
        have hx' : x ∈ rs := by
          rcases List.mem_cons.mp hx with e | e
          · exact absurd e.symm h
          · exact e
        obtain ⟨h1, h2⟩ := ih x hx'
        refine ⟨by simpa using h1, ?_⟩
        intro j hj
        cases j with
        | zero => simpa using h
        | succ j => simpa using h2 j (by omega)
  unfold indicesOf
  by_cases hr : refs = []
  · subst hr
    refine ⟨by simp, ?_⟩
    intro i hi
    exact ⟨1, by simp [hi], by simp, by simp⟩
  · have : refs.isEmpty = false := by simpa using hr
    simp only [this]
    refine ⟨by simp, ?_⟩
    intro i hi
    refine ⟨findPos refs vals[i], by simp [hi], hfirst refs _, ?_⟩
    intro hn
    have := (findPos_eq_length_iff refs vals[i]).mpr hn
    exact ⟨by omega, fun _ => this, fun e => absurd e hr⟩

example : indicesOf [5, 7, 5, 9] [7, 5, 5] = [1, 0, 1, 3] := by decide

/-! ## C10 sort_indices / unique_indices -/

/-- **C10.** Any outcome of `sort_indices` lists every position of the input exactly once, and the values read
through it are non-descending. -/
theorem sortIndices_spec (vals : List Int) (out : List Nat) (h : SortIndices vals out) :
    (∀ i, i < vals.length ↔ i ∈ out) ∧ out.Nodup ∧
    (out.map (fun i => vals.getD i 0)).Pairwise (· ≤ ·) := by
  obtain ⟨hp, hs⟩ := h
  refine ⟨?_, ?_, ?_⟩
  · intro i; rw [hp.mem_iff]; simp
  · exact hp.symm.nodup List.nodup_range
  · rw [List.pairwise_map]
    refine hs.imp ?_
    intro a b hab
    have := of_decide_eq_false hab
    omega

theorem stdUnique_go_mem {α : Type} (e : α → α → Bool) (x : α) (xs : List α) :
    x ∈ stdUnique.go e x xs := by
  induction xs generalizing x with
  | nil => simp [stdUnique.go]
  | cons y ys ih =>
    unfold stdUnique.go
    split
    · exact ih x
    · simp

theorem stdUnique_go_sub {α : Type} (e : α → α → Bool) (x : α) (xs : List α) :
    (stdUnique.go e x xs).Sublist (x :: xs) := by
  induction xs generalizing x with
  | nil => simp [stdUnique.go]
  | cons y ys ih =>
    unfold stdUnique.go
    split
    · exact (ih x).trans (List.Sublist.cons_cons x (List.sublist_cons_self y ys))
    · exact (ih y).cons_cons x

private theorem unique_go_props (f : Nat → Int) (x : Nat) (xs : List Nat)
    (hs : ((x :: xs).map f).Pairwise (· ≤ ·)) :
    ((stdUnique.go (fun a b => f a == f b) x xs).map f).Pairwise (· < ·) ∧
    (∀ y ∈ x :: xs, ∃ z ∈ stdUnique.go (fun a b => f a == f b) x xs, f z = f y) := by
  induction xs generalizing x with
  | nil => simp [stdUnique.go]
  | cons y ys ih =>
    simp only [List.map_cons, List.pairwise_cons, List.mem_cons, forall_eq_or_imp] at hs
    obtain ⟨⟨hxy, hxys⟩, hy, hys⟩ := hs
    unfold stdUnique.go
    by_cases he : f x = f y
    · have he' : (f x == f y) = true := by simpa using he
      rw [if_pos he']
      obtain ⟨h1, h2⟩ := ih x (by
        simp only [List.map_cons, List.pairwise_cons]; exact ⟨hxys, hys⟩)
      refine ⟨h1, ?_⟩
      intro z hz
      simp only [List.mem_cons] at hz
      rcases hz with rfl | rfl | hz
      · exact h2 _ (by simp)
      · obtain ⟨w, hw, hfw⟩ := h2 x (by simp)
        exact ⟨w, hw, hfw.trans he⟩
      · exact h2 z (by simp [hz])
    · have he' : ¬ ((f x == f y) = true) := by simpa using he
      rw [if_neg he']
      obtain ⟨h1, h2⟩ := ih y (by simp only [List.map_cons, List.pairwise_cons]; exact ⟨hy, hys⟩)
      refine ⟨?_, ?_⟩
      · simp only [List.map_cons, List.pairwise_cons]
        refine ⟨?_, h1⟩
        intro v hv
        obtain ⟨w, hw, rfl⟩ := List.mem_map.mp hv
        have hmem := (stdUnique_go_sub (fun a b => f a == f b) y ys).subset hw
        rcases List.mem_cons.mp hmem with rfl | hm
        · omega
        · have := hy (f w) (List.mem_map.mpr ⟨w, hm, rfl⟩)
          omega
      · intro z hz
        rcases List.mem_cons.mp hz with rfl | hz
        · exact ⟨z, by simp, rfl⟩
        · obtain ⟨w, hw, hfw⟩ := h2 z hz
          exact ⟨w, by simp [hw], hfw⟩

/-- **C10.** Whatever the tie order, the indices returned by `unique_indices` are valid positions, the values read
through them are strictly ascending (hence distinct), and every value of the input is among them. -/
theorem uniqueIndices_spec (vals : List Int) (srt : List Nat) (h : SortIndices vals srt) :
    (∀ i ∈ uniqueIndices vals srt, i < vals.length) ∧
    ((uniqueIndices vals srt).map (fun i => vals.getD i 0)).Pairwise (· < ·) ∧
    (∀ i, i < vals.length → ∃ j ∈ uniqueIndices vals srt, vals.getD j 0 = vals.getD i 0) := by
  obtain ⟨hmem, _, hsorted⟩ := sortIndices_spec vals srt h
  cases srt with
  | nil =>
    refine ⟨by simp [uniqueIndices, stdUnique], by simp [uniqueIndices, stdUnique], ?_⟩
    intro i hi
    exact absurd ((hmem i).mp hi) (by simp)
  | cons x xs =>
    obtain ⟨h1, h2⟩ := unique_go_props (fun i => vals.getD i 0) x xs hsorted
    refine ⟨?_, h1, ?_⟩
    · intro i hi
      exact (hmem i).mpr ((stdUnique_go_sub _ x xs).subset hi)
    · intro i hi
      exact h2 i ((hmem i).mp hi)

/-- The documentation of `unique_indices` ("indices of the *first* occurrence of each unique value") is not
guaranteed: an allowed outcome of the unstable sort returns a later occurrence. -/
theorem uniqueIndices_not_first_occurrence :
    ∃ (vals : List Int) (srt : List Nat), SortIndices vals srt ∧
      ∃ j ∈ uniqueIndices vals srt, ∃ i, i < j ∧ vals.getD i 0 = vals.getD j 0 := by
  refine ⟨[4, 4], [1, 0], ⟨by decide, by decide⟩, 1, by decide, 0, by decide, by decide⟩

example : SortIndices [3, 1, 2, 1] [1, 3, 2, 0] := ⟨by decide, by decide⟩

/-! ## C11 make_range -/

theorem rangeGo_length (v s : Int) (n : Nat) : (rangeGo v s n).length = n := by
  induction n generalizing v with
  | zero => rfl
  | succ n ih => simp [rangeGo, ih]

theorem rangeGo_get (v s : Int) (n i : Nat) (h : i < n) :
    (rangeGo v s n)[i]? = some (v + (i + 1) * s) := by
  induction n generalizing v i with
  | zero => omega
  | succ n ih =>
    cases i with
    | zero => simp [rangeGo]
    | succ i =>
      simp only [rangeGo, List.getElem?_cons_succ]
      rw [ih _ _ (by omega)]
      congr 1
      simp only [Int.natCast_add, Int.cast_ofNat_Int]
      simp only [Int.add_mul, Int.one_mul]
      omega

/-- **C11.** For a positive step that divides the interval, `make_range` returns the arithmetic progression from `a`
to `b`, both included. -/
theorem makeRange_spec (a b step : Int) (hab : a ≤ b) (hs : 0 < step) (hd : step ∣ b - a) :
    ∃ l, makeRange a b step = some l ∧ (l.length : Int) = (b - a) / step + 1 ∧
      (∀ i (hi : i < l.length), l[i] = a + i * step) ∧ l.head? = some a ∧ l.getLast? = some b := by
  have key : ∀ n : Nat, (n : Int) = (b - a) / step → makeRange a b step = some (a :: rangeGo a step n) →
      ∃ l, makeRange a b step = some l ∧ (l.length : Int) = (b - a) / step + 1 ∧
        (∀ i (hi : i < l.length), l[i] = a + i * step) ∧ l.head? = some a ∧ l.getLast? = some b := by
    intro n hn heq
    have hget : ∀ i, i < n + 1 → (a :: rangeGo a step n)[i]? = some (a + i * step) := by
      intro i hi
      cases i with
      | zero => simp
      | succ i =>
        rw [List.getElem?_cons_succ, rangeGo_get _ _ _ _ (by omega)]
        simp
    refine ⟨_, heq, ?_, ?_, rfl, ?_⟩
    · simp [rangeGo_length, hn]
    · intro i hi
      simp only [List.length_cons, rangeGo_length] at hi
      have := hget i hi
      rw [List.getElem?_eq_getElem (by simpa [rangeGo_length] using hi)] at this
      exact Option.some.inj this
    · rw [List.getLast?_eq_getElem?]
      simp only [List.length_cons, rangeGo_length, Nat.add_sub_cancel]
      rw [hget n (by omega), hn, Int.ediv_mul_cancel hd]
      congr 1; omega
  have hnn : 0 ≤ (b - a) / step := Int.ediv_nonneg (by omega) (by omega)
  by_cases h1 : step = 1
  · subst h1
    refine key (b - a).toNat (by rw [Int.ediv_one]; omega) ?_
    unfold makeRange
    rw [if_neg (by omega), if_pos rfl]
  · refine key ((b - a) / step).toNat (by omega) ?_
    unfold makeRange
    rw [if_neg (by omega), if_neg h1, if_neg (by omega), if_neg]
    exact fun h => h (Int.emod_eq_zero_of_dvd hd)

/-- **C11.** An inverted interval gives nothing; a bad step is reported (for `step ≠ 1`). -/
theorem makeRange_empty (a b step : Int) (h : b < a) : makeRange a b step = some [] := by
  unfold makeRange; rw [if_pos h]

/-- **C11.** The precondition is checked: a non-positive step, or one that does not divide the interval, raises. -/
theorem makeRange_rejects (a b step : Int) (hab : a ≤ b) (h : step ≤ 0 ∨ ¬ step ∣ b - a) :
    makeRange a b step = none := by
  unfold makeRange
  rw [if_neg (by omega)]
  by_cases h1 : step = 1
  · subst h1
    rcases h with h | h
    · omega
    · exact absurd (Int.one_dvd _) h
  · rw [if_neg h1]
    by_cases h2 : step ≤ 0
    · rw [if_pos h2]
    · rw [if_neg h2, if_pos]
      rcases h with h | h
      · exact absurd h h2
      · intro hc; exact h (Int.dvd_of_emod_eq_zero hc)

example : makeRange (-3) 5 4 = some [-3, 1, 5] := by decide
example : (-3 : Int) ≤ 5 ∧ (0 : Int) < 4 ∧ (4 : Int) ∣ 5 - (-3) := ⟨by decide, by decide, ⟨2, by decide⟩⟩

/-! ## C12 cumulativeSum / accumulateMembers -/

/-- **C12.** `accumulateMembers` is the initial value plus the sum of the members. -/
theorem accumulateMembers_spec {α : Type} (objs : List α) (f : α → Int) (init : Int) :
    accumulateMembers objs f init = init + (objs.map f).sum := by
  unfold accumulateMembers
  induction objs generalizing init with
  | nil => simp
  | cons x xs ih => simp only [List.foldl_cons, List.map_cons, List.sum_cons]; rw [ih]; omega

private theorem partialSumGo_spec {w : Nat} (acc : BitVec w) (xs : List (BitVec w)) (i : Nat) (h : i < xs.length) :
    (partialSumGo acc xs)[i]? = some ((acc.toNat + ((xs.take (i + 1)).map BitVec.toNat).sum) % 2 ^ w) := by
  induction xs generalizing acc i with
  | nil => simp at h
  | cons x xs ih =>
    cases i with
    | zero => simp [partialSumGo]
    | succ i =>
      simp only [partialSumGo, List.getElem?_cons_succ]
      rw [ih _ _ (by simpa using h)]
      simp only [BitVec.toNat_ofNat, List.take_succ_cons, List.map_cons, List.sum_cons]
      congr 1
      rw [Nat.mod_add_mod]
      congr 1; omega

private theorem partialSumGo_length {w : Nat} (acc : BitVec w) (xs : List (BitVec w)) :
    (partialSumGo acc xs).length = xs.length := by
  induction xs generalizing acc with
  | nil => rfl
  | cons x xs ih => simp [partialSumGo, ih]

/-- What `cumulativeSum` really returns: the prefix sums modulo `2^w`, `w` the width of the *input* element type,
although the output type is wider. -/
theorem cumulativeSum_mod {w : Nat} (v : List (BitVec w)) :
    (cumulativeSum v).length = v.length ∧
    ∀ i, i < v.length → (cumulativeSum v)[i]? = some (((v.take (i + 1)).map BitVec.toNat).sum % 2 ^ w) := by
  cases v with
  | nil => simp [cumulativeSum]
  | cons x xs =>
    refine ⟨by simp [cumulativeSum, partialSumGo_length], ?_⟩
    intro i hi
    cases i with
    | zero => simp [cumulativeSum, Nat.mod_eq_of_lt x.isLt]
    | succ i =>
      simp only [cumulativeSum, List.getElem?_cons_succ]
      rw [partialSumGo_spec _ _ _ (by simpa using hi)]
      simp

/-- **C12 (partial).** The prefix sums are exact provided the total fits the *element* type.
Missing: inputs whose total exceeds the element type, for which the claim is false (`cumulativeSum_wraps`). -/
theorem cumulativeSum_exact_partial {w : Nat} (v : List (BitVec w))
    (hfit : (v.map BitVec.toNat).sum < 2 ^ w) :
    (cumulativeSum v).length = v.length ∧
    ∀ i, i < v.length → (cumulativeSum v)[i]? = some ((v.take (i + 1)).map BitVec.toNat).sum := by
  obtain ⟨h1, h2⟩ := cumulativeSum_mod v
  refine ⟨h1, fun i hi => ?_⟩
  rw [h2 i hi, Nat.mod_eq_of_lt]
  have : (v.map BitVec.toNat).sum =
      ((v.take (i + 1)).map BitVec.toNat).sum + ((v.drop (i + 1)).map BitVec.toNat).sum := by
    rw [← List.sum_append, ← List.map_append, List.take_append_drop]
  omega

example : (([200, 50] : List (BitVec 8)).map BitVec.toNat).sum < 2 ^ 8 := by decide

/-- C12 is false of the code for narrow element types: the sums wrap although the result type is `size_t`. -/
theorem cumulativeSum_wraps :
    cumulativeSum ([200, 100] : List (BitVec 8)) = [200, 44] := by decide

/-! ## C13 digit_count -/

/-- Specification: characters needed to print an integer in decimal. -/
def printedWidth (x : Int) : Nat := (toString x).length

private theorem toInt32_id (x : Int) (h1 : -2147483648 < x) (h2 : x ≤ 2147483647) : toInt32 x = x := by
  unfold toInt32
  rw [BitVec.toInt_ofInt]
  exact Int.bmod_eq_of_le (by omega) (by omega)

private theorem digitLoop_eq (n : Nat) : ∀ (k : Int), k.natAbs = n → n ≤ 2147483647 → ∀ d,
    digitLoop k d = some (d + ((Nat.toDigits 10 n).length - 1)) := by
  induction n using Nat.strongRecOn with
  | ind n ih =>
    intro k hk hn d
    rw [digitLoop]
    have hid : toInt32 k = k := toInt32_id k (by omega) (by omega)
    rw [hid, if_neg (by omega)]
    by_cases h : 10 ≤ k.natAbs
    · rw [dif_pos h]
      have hk' : (k.tdiv 10).natAbs = n / 10 := by
        rw [Int.natAbs_tdiv, hk]; rfl
      rw [ih (n / 10) (Nat.div_lt_self (by omega) (by decide)) _ hk' (by omega)]
      rw [Nat.toDigits_of_base_le (b := 10) (n := n) (by decide) (by omega)]
      simp
      have := Nat.length_toDigits_pos (b := 10) (n := n / 10)
      omega
    · rw [dif_neg h, Nat.toDigits_of_lt_base (by omega)]
      simp

/-- **C13 (partial).** For every value that the conversion to `int` inside the loop represents exactly (any value
of `int` other than `INT_MIN`), `digit_count` is the printed width.
Missing: wider values, for which the claim is false (`digitCount_wrong_wide`). -/
theorem digitCount_spec_partial (x : Int) (h1 : -2147483648 < x) (h2 : x ≤ 2147483647) :
    digitCount x = some (printedWidth x) := by
  unfold digitCount printedWidth
  rw [digitLoop_eq x.natAbs x rfl (by omega)]
  have := Nat.length_toDigits_pos (b := 10) (n := x.natAbs)
  cases x with
  | ofNat n =>
    have : ¬ (Int.ofNat n < 0) := by simp
    rw [if_neg this]
    simp [toString, Int.repr, Nat.repr] at *
    omega
  | negSucc n =>
    have : Int.negSucc n < 0 := Int.negSucc_lt_zero n
    rw [if_pos this]
    have h1 : "-".length = 1 := by decide
    simp [toString, Int.repr, Nat.repr, h1] at *
    omega

example : digitCount (-1000) = some 5 := by decide +kernel
example : (-2147483648 : Int) < -1000 ∧ (-1000 : Int) ≤ 2147483647 := by decide

/-- C13 is false of the code for `size_t`: only the low 32 bits drive the loop, so 2^32 is reported as one digit. -/
theorem digitCount_wrong_wide : digitCount 4294967296 = some 1 ∧ printedWidth 4294967296 = 10 := by
  constructor <;> decide +kernel

/-- C13: undefined behaviour (`abs(INT_MIN)`) is reached for `INT_MIN` itself and for the `size_t` value 2^31. -/
theorem digitCount_undefined : digitCount (-2147483648) = none ∧ digitCount 2147483648 = none := by
  constructor <;> decide +kernel

/-! ## C50 paths -/

/-- Specification: the path already ends with a separator. -/
def EndsWithSep (s : List Char) : Prop := s.getLast? = some '/' ∨ s.getLast? = some '\\'

private theorem addDirSlash_cases (s : List Char) (hs : s ≠ []) :
    (EndsWithSep s ∧ addDirSlashIfMissing s = s) ∨ (¬ EndsWithSep s ∧ addDirSlashIfMissing s = s ++ ['/']) := by
  unfold addDirSlashIfMissing EndsWithSep
  rw [if_neg (by simpa using hs)]
  by_cases h1 : (s == ['.'] || s == ['.', '.']) = true
  · rw [if_pos h1]
    refine Or.inr ⟨?_, rfl⟩
    rcases (Bool.or_eq_true _ _).mp h1 with h | h
    · rw [beq_iff_eq] at h; subst h; decide
    · rw [beq_iff_eq] at h; subst h; decide
  · rw [if_neg h1]
    cases hl : s.getLast? with
    | none => exact absurd (List.getLast?_eq_none_iff.mp hl) hs
    | some c =>
      by_cases hc1 : c = '/'
      · subst hc1; exact Or.inl ⟨Or.inl rfl, rfl⟩
      · by_cases hc2 : c = '\\'
        · subst hc2; exact Or.inl ⟨Or.inr rfl, rfl⟩
        · refine Or.inr ⟨?_, ?_⟩
          · simp [hc1, hc2]
          · simp [hc1, hc2]

/-- **C50.** `addDirSlashIfMissing` leaves a path that ends with a separator alone and appends `/` to any other
non-empty path; an empty path stays empty. -/
theorem addDirSlash_spec (s : List Char) :
    (s = [] → addDirSlashIfMissing s = []) ∧
    (s ≠ [] → EndsWithSep (addDirSlashIfMissing s)) ∧
    (EndsWithSep s → addDirSlashIfMissing s = s) ∧
    (s ≠ [] → ¬ EndsWithSep s → addDirSlashIfMissing s = s ++ ['/']) := by
  refine ⟨?_, ?_, ?_, ?_⟩
  · rintro rfl; rfl
  · intro hs
    rcases addDirSlash_cases s hs with ⟨h1, h2⟩ | ⟨h1, h2⟩
    · rw [h2]; exact h1
    · rw [h2]; exact Or.inl List.getLast?_concat
  · intro h
    have hs : s ≠ [] := by rintro rfl; rcases h with h | h <;> simp at h
    rcases addDirSlash_cases s hs with ⟨_, h2⟩ | ⟨h1, _⟩
    · exact h2
    · exact absurd h h1
  · intro hs h
    rcases addDirSlash_cases s hs with ⟨h1, _⟩ | ⟨_, h2⟩
    · exact absurd h1 h
    · exact h2

/-- **C50.** `addDirSlashIfMissing` is idempotent. -/
theorem addDirSlash_idempotent (s : List Char) :
    addDirSlashIfMissing (addDirSlashIfMissing s) = addDirSlashIfMissing s := by
  by_cases hs : s = []
  · subst hs; rfl
  · exact (addDirSlash_spec _).2.2.1 ((addDirSlash_spec s).2.1 hs)

example : "..".toList ≠ [] ∧ ¬ EndsWithSep "..".toList := ⟨by decide, by unfold EndsWithSep; decide⟩


/-- Specification: `t` occurs somewhere inside `s`. -/
def Occurs (t s : List Char) : Prop := ∃ pre post, s = pre ++ t ++ post

theorem containsSub_iff (s t : List Char) : containsSub s t = true ↔ Occurs t s := by
  induction s with
  | nil =>
    simp only [containsSub, Occurs, List.isPrefixOf_iff_prefix]
    constructor
    · intro h
      exact ⟨[], [], by simpa using h⟩
    · rintro ⟨pre, post, h⟩
      have h2 := congrArg List.length h
      simp at h2
      have : t = [] := List.length_eq_zero_iff.mp (by omega)
      subst this; exact List.nil_prefix
  | cons a s ih =>
    simp only [containsSub, Bool.or_eq_true, ih, List.isPrefixOf_iff_prefix]
    constructor
    · rintro (h | ⟨pre, post, h⟩)
      · obtain ⟨post, h⟩ := h
        exact ⟨[], post, by simp [h]⟩
      · exact ⟨a :: pre, post, by simp [h]⟩
    · rintro ⟨pre, post, h⟩
      cases pre with
      | nil => exact Or.inl ⟨post, by simpa using h.symm⟩
      | cons b pre =>
        simp only [List.cons_append, List.cons.injEq] at h
        exact Or.inr ⟨pre, post, h.2⟩

theorem stringContainsToken_iff (s : List Char) (ts : List (List Char)) :
    stringContainsToken s ts = true ↔ ∃ t ∈ ts, Occurs t s := by
  induction ts with
  | nil => simp [stringContainsToken]
  | cons t ts ih =>
    unfold stringContainsToken
    by_cases h : containsSub s t = true
    · simp only [h, if_true, true_iff]
      exact ⟨t, by simp, (containsSub_iff s t).mp h⟩
    · rw [if_neg h, ih]
      have hn : ¬ Occurs t s := fun hc => h ((containsSub_iff s t).mpr hc)
      simp only [List.mem_cons, exists_eq_or_imp, hn, false_or]

open Classical in
/-- **C50.** `filterFilePaths` keeps, in order and with multiplicity, exactly the paths that contain no remove token
and contain some keep token (all of them when there is no keep token); remove tokens win. -/
theorem filterFilePaths_spec (paths remove keep : List (List Char)) :
    filterFilePaths paths remove keep =
      paths.filter (fun p => decide ((¬ ∃ t ∈ remove, Occurs t p) ∧ (keep = [] ∨ ∃ t ∈ keep, Occurs t p))) := by
  induction paths with
  | nil => rfl
  | cons p ps ih =>
    unfold filterFilePaths
    by_cases hr : ∃ t ∈ remove, Occurs t p
    · have h1 : (!remove.isEmpty && stringContainsToken p remove) = true := by
        obtain ⟨t, ht, ho⟩ := hr
        rw [(stringContainsToken_iff p remove).mpr ⟨t, ht, ho⟩]
        cases remove with
        | nil => simp at ht
        | cons => rfl
      rw [if_pos h1, ih, List.filter_cons_of_neg]
      simp only [decide_eq_true_eq, not_and]
      intro hc; exact absurd hr hc
    · have h1 : ¬ ((!remove.isEmpty && stringContainsToken p remove) = true) := by
        simp only [Bool.and_eq_true, not_and]
        intro _ hc
        exact hr ((stringContainsToken_iff p remove).mp hc)
      rw [if_neg h1]
      by_cases hk : keep = [] ∨ ∃ t ∈ keep, Occurs t p
      · have h2 : (keep.isEmpty || stringContainsToken p keep) = true := by
          rcases hk with rfl | hk
          · rfl
          · rw [(stringContainsToken_iff p keep).mpr hk]; simp
        rw [if_pos h2, ih, List.filter_cons_of_pos]
        exact decide_eq_true ⟨hr, hk⟩
      · have h2 : ¬ ((keep.isEmpty || stringContainsToken p keep) = true) := by
          simp only [Bool.or_eq_true, not_or]
          rw [not_or] at hk
          refine ⟨?_, fun hc => hk.2 ((stringContainsToken_iff p keep).mp hc)⟩
          intro hc
          exact hk.1 (by simpa using hc)
        rw [if_neg h2, ih, List.filter_cons_of_neg]
        simp only [decide_eq_true_eq]
        exact fun hc => hk hc.2

example : filterFilePaths ["a.png".toList, "b.png".toList, "c.txt".toList] ["b".toList] ["png".toList]
    = ["a.png".toList] := by decide

/-! ## unroll, concat -/

/-- `lv::unroll` visits `0 … n-1`, in increasing order by default and in decreasing order when inverted. -/
theorem unroll_spec (n : Nat) : unroll false n = List.range n ∧ unroll true n = (List.range n).reverse := by
  induction n with
  | zero => exact ⟨rfl, rfl⟩
  | succ n ih =>
    simp only [unroll, ih.1, ih.2, List.range_succ]
    simp

theorem concat_spec {α : Type} (a b : List α) : concat a b = a ++ b := by simp [concat]

end Litiv.Seq
