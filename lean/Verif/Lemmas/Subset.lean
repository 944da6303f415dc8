import Verif.Spec.Subset
import Verif.Model.Subset
import Verif.Lemmas.DirList
import Verif.Lemmas.Packets
import Verif.Props.Seq

/-! # Auxiliary lemmas for the frame subsets -/

namespace Litiv.Subset

open DirList (isSpace digits toSize Lut)
open Packets (padded val val_toDigits)

/-! ### Sets -/

theorem mem_insertSet (n i : Nat) (l : List Nat) : i ∈ insertSet n l ↔ i = n ∨ i ∈ l := by
  induction l with
  | nil => simp [insertSet]
  | cons m l ih =>
    rw [insertSet]
    by_cases h : n < m
    · rw [if_pos h]; simp
    · rw [if_neg h]
      by_cases h2 : n = m
      · rw [if_pos h2]; subst h2; simp
      · rw [if_neg h2]; simp [ih]; tauto

theorem insertSet_sorted (n : Nat) (l : List Nat) (h : l.Pairwise (· < ·)) : (insertSet n l).Pairwise (· < ·) := by
  induction l with
  | nil => simp [insertSet]
  | cons m l ih =>
    rw [List.pairwise_cons] at h
    rw [insertSet]
    by_cases h1 : n < m
    · rw [if_pos h1, List.pairwise_cons]
      refine ⟨fun a ha => ?_, List.pairwise_cons.2 h⟩
      rcases List.mem_cons.1 ha with rfl | ha
      · exact h1
      · exact lt_trans h1 (h.1 a ha)
    · rw [if_neg h1]
      by_cases h2 : n = m
      · rw [if_pos h2]; exact List.pairwise_cons.2 h
      · rw [if_neg h2, List.pairwise_cons]
        refine ⟨fun a ha => ?_, ih h.2⟩
        rcases (mem_insertSet _ _ _).1 ha with rfl | ha
        · omega
        · exact h.1 a ha

theorem sorted_unique {l m : List Nat} (hl : l.Pairwise (· < ·)) (hm : m.Pairwise (· < ·))
    (h : ∀ i, i ∈ l ↔ i ∈ m) : l = m := by
  have hp : l.Perm m := (List.perm_ext_iff_of_nodup (hl.imp (fun h => ne_of_lt h)) (hm.imp (fun h => ne_of_lt h))).2 h
  exact hp.eq_of_pairwise (fun a b _ _ h1 h2 => absurd h1 (by omega)) hl hm

theorem foldl_insert (l s : List Nat) (hs : s.Pairwise (· < ·)) :
    (l.foldl (fun s i => insertSet i s) s).Pairwise (· < ·) ∧
    ∀ i, i ∈ l.foldl (fun s i => insertSet i s) s ↔ i ∈ l ∨ i ∈ s := by
  induction l generalizing s with
  | nil => simpa using hs
  | cons a l ih =>
    rw [List.foldl_cons]
    obtain ⟨h1, h2⟩ := ih _ (insertSet_sorted a s hs)
    refine ⟨h1, fun i => ?_⟩
    rw [h2, mem_insertSet, List.mem_cons]
    tauto

theorem window_aux (lim w : Nat) (c : Int) (l s : List Nat) (hs : s.Pairwise (· < ·)) :
    (l.foldl (fun s (j : Nat) => let o : Int := c - w + j; if 0 ≤ o ∧ o < lim then insertSet o.toNat s else s) s).Pairwise (· < ·) ∧
    ∀ i : Nat, i ∈ l.foldl (fun s (j : Nat) => let o : Int := c - w + j; if 0 ≤ o ∧ o < lim then insertSet o.toNat s else s) s ↔
      (i < lim ∧ ∃ j ∈ l, (i : Int) = c - w + (j : Nat)) ∨ i ∈ s := by
  induction l generalizing s with
  | nil => simpa using hs
  | cons a l ih =>
    rw [List.foldl_cons]
    dsimp only
    by_cases h : 0 ≤ c - w + a ∧ c - w + a < lim
    · rw [if_pos h]
      obtain ⟨h1, h2⟩ := ih _ (insertSet_sorted _ s hs)
      refine ⟨h1, fun i => ?_⟩
      have h2' := h2 i
      dsimp only at h2'
      rw [h2', mem_insertSet]
      constructor
      · rintro (⟨hi, j, hj, e⟩ | rfl | hi)
        · exact Or.inl ⟨hi, j, List.mem_cons_of_mem _ hj, e⟩
        · exact Or.inl ⟨by omega, a, List.mem_cons_self, by omega⟩
        · exact Or.inr hi
      · rintro (⟨hi, j, hj, e⟩ | hi)
        · rcases List.mem_cons.1 hj with rfl | hj
          · exact Or.inr (Or.inl (by omega))
          · exact Or.inl ⟨hi, j, hj, e⟩
        · exact Or.inr (Or.inr hi)
    · rw [if_neg h]
      obtain ⟨h1, h2⟩ := ih s hs
      refine ⟨h1, fun i => ?_⟩
      have h2' := h2 i
      dsimp only at h2'
      rw [h2']
      constructor
      · rintro (⟨hi, j, hj, e⟩ | hi)
        · exact Or.inl ⟨hi, j, List.mem_cons_of_mem _ hj, e⟩
        · exact Or.inr hi
      · rintro (⟨hi, j, hj, e⟩ | hi)
        · rcases List.mem_cons.1 hj with rfl | hj
          · exact absurd ⟨by omega, by omega⟩ h
          · exact Or.inl ⟨hi, j, hj, e⟩
        · exact Or.inr hi

theorem window_mem (lim w c : Nat) (s : List Nat) (hs : s.Pairwise (· < ·)) :
    (insertWindow lim w c s).Pairwise (· < ·) ∧
    ∀ i, i ∈ insertWindow lim w c s ↔ (i < lim ∧ i ≤ c + w ∧ c ≤ i + w) ∨ i ∈ s := by
  obtain ⟨h1, h2⟩ := window_aux lim w c (List.range (2 * w + 1)) s hs
  refine ⟨h1, fun i => ?_⟩
  unfold insertWindow
  rw [h2 i]
  refine or_congr (and_congr_right fun _ => ⟨?_, ?_⟩) Iff.rfl
  · rintro ⟨j, hj, e⟩
    rw [List.mem_range] at hj
    omega
  · rintro ⟨ha, hb⟩
    exact ⟨i + w - c, by rw [List.mem_range]; omega, by omega⟩

/-! ### Numbers -/

theorem toDigits_digit (n : Nat) (c : Char) (h : c ∈ Nat.toDigits 10 n) : c.isDigit = true :=
  Nat.isDigit_of_mem_toDigits (by norm_num) (by norm_num) h

theorem stoi_digits (s : List Char) (hs : s ≠ []) (hd : ∀ c ∈ s, c.isDigit = true) (h : val s < 2 ^ 31) :
    stoi s = some (val s : Int) := by
  obtain ⟨c, r, rfl⟩ := List.exists_cons_of_ne_nil hs
  have hc := hd c List.mem_cons_self
  obtain ⟨h1, h2, h3, -, -⟩ := DirList.digit_plain hc
  have e : digits 0 (c :: r) = val (c :: r) := by rw [DirList.digits_append _ _ hd]; rfl
  unfold stoi
  rw [List.dropWhile_cons_of_neg (by simp [h1])]
  dsimp only
  split
  · rename_i u hu; cases hu; exact absurd rfl h2
  · rename_i u hu; cases hu; exact absurd rfl h3
  · dsimp only
    rw [if_pos hc, e]
    simp only [Bool.false_eq_true, if_false]
    rw [if_pos ⟨by omega, by omega⟩]

theorem stoi_big (s : List Char) (hs : s ≠ []) (hd : ∀ c ∈ s, c.isDigit = true) (h : 2 ^ 31 ≤ val s) :
    stoi s = none := by
  obtain ⟨c, r, rfl⟩ := List.exists_cons_of_ne_nil hs
  have hc := hd c List.mem_cons_self
  obtain ⟨h1, h2, h3, -, -⟩ := DirList.digit_plain hc
  have e : digits 0 (c :: r) = val (c :: r) := by rw [DirList.digits_append _ _ hd]; rfl
  unfold stoi
  rw [List.dropWhile_cons_of_neg (by simp [h1])]
  dsimp only
  split
  · rename_i u hu; cases hu; exact absurd rfl h2
  · rename_i u hu; cases hu; exact absurd rfl h3
  · dsimp only
    rw [if_pos hc, e]
    simp only [Bool.false_eq_true, if_false]
    rw [if_neg (by omega)]

theorem stoi_toDigits (n : Nat) (h : n < 2 ^ 31) : stoi (Nat.toDigits 10 n) = some (n : Int) := by
  rw [stoi_digits _ Nat.toDigits_ne_nil (toDigits_digit n) (by rw [val_toDigits]; exact h), val_toDigits]

/-! ### The file -/

theorem split_line (f s : List Char) (hf : '\n' ∉ f) : Seq.split '\n' (f ++ '\n' :: s) = f :: Seq.split '\n' s := by
  have e : ∃ a l, f ++ '\n' :: s = a :: l := by cases f <;> simp
  obtain ⟨a, l, e⟩ := e
  rw [e, Seq.split_cons_stream, ← e]
  have hp : ∀ c ∈ f, (c != '\n') = true := by
    intro c hc; simp only [bne_iff_ne, ne_eq]; rintro rfl; exact hf hc
  rw [List.takeWhile_append_of_pos hp, List.dropWhile_append_of_pos hp]
  simp

theorem line_noNewline (l : Line) (h : OneLine l) : '\n' ∉ l.text := by
  cases l with
  | comment s => simpa [Line.text, OneLine] using h
  | number n =>
    intro hc
    exact absurd (toDigits_digit n _ hc) (by decide)

theorem split_file (ls : List Line) (h : ∀ l ∈ ls, OneLine l) : Seq.split '\n' (fileText ls) = ls.map Line.text := by
  induction ls with
  | nil => exact Seq.split_nil _
  | cons l ls ih =>
    rw [fileText, split_line _ _ (line_noNewline l (h l List.mem_cons_self)), ih fun m hm => h m (List.mem_cons_of_mem _ hm)]
    rfl

theorem number_head (n : Nat) : (Nat.toDigits 10 n).head? ≠ some '#' := by
  intro h
  exact absurd (toDigits_digit n _ (List.mem_of_head? h)) (by decide)

theorem subset_loop (lim w : Nat) (ls : List Line) (hlim : lim ≤ 2 ^ 31) (hn : ∀ n, Line.number n ∈ ls → n < lim)
    (r s : List Nat) (hr : r.Pairwise (· < ·)) (hs : s.Pairwise (· < ·)) :
    ∃ r' s', subsetLoop lim w (ls.map Line.text) (r, s) = some (r', s') ∧ r'.Pairwise (· < ·) ∧ s'.Pairwise (· < ·) ∧
      (∀ i, i ∈ r' ↔ Line.number i ∈ ls ∨ i ∈ r) ∧
      (∀ i, i ∈ s' ↔ (i < lim ∧ ∃ n, Line.number n ∈ ls ∧ i ≤ n + w ∧ n ≤ i + w) ∨ i ∈ s) := by
  induction ls generalizing r s with
  | nil => exact ⟨r, s, rfl, hr, hs, by simp, by simp⟩
  | cons l ls ih =>
    cases l with
    | comment t =>
      obtain ⟨r', s', h0, h1, h2, h3, h4⟩ := ih (fun n h => hn n (List.mem_cons_of_mem _ h)) r s hr hs
      refine ⟨r', s', ?_, h1, h2, fun i => by rw [h3]; simp, fun i => by rw [h4]; simp⟩
      rw [List.map_cons, subsetLoop, if_pos (by rfl)]
      exact h0
    | number n =>
      have hl : n < lim := hn n List.mem_cons_self
      obtain ⟨hw1, hw2⟩ := window_mem lim w n s hs
      obtain ⟨r', s', h0, h1, h2, h3, h4⟩ := ih (fun n h => hn n (List.mem_cons_of_mem _ h)) (insertSet n r)
        (insertWindow lim w n s) (insertSet_sorted n r hr) hw1
      refine ⟨r', s', ?_, h1, h2, fun i => ?_, fun i => ?_⟩
      · rw [List.map_cons, Line.text, subsetLoop, if_neg (number_head n), stoi_toDigits n (by omega)]
        dsimp only
        rw [if_pos ⟨by omega, by omega⟩]
        exact h0
      · rw [h3, mem_insertSet, List.mem_cons, Line.number.injEq]; tauto
      · rw [h4, hw2]
        constructor
        · rintro (⟨ha, m, hm, hb⟩ | ⟨ha, hb⟩ | hi)
          · exact Or.inl ⟨ha, m, List.mem_cons_of_mem _ hm, hb⟩
          · exact Or.inl ⟨ha, n, List.mem_cons_self, hb⟩
          · exact Or.inr hi
        · rintro (⟨ha, m, hm, hb⟩ | hi)
          · rcases List.mem_cons.1 hm with hm | hm
            · cases hm; exact Or.inr (Or.inl ⟨ha, hb⟩)
            · exact Or.inl ⟨ha, m, hm, hb⟩
          · exact Or.inr (Or.inr hi)

theorem subset_stop (lim w : Nat) (ls ms : List (List Char)) (bad : List Char) (hb : bad.head? ≠ some '#')
    (hbad : ∀ c, stoi bad = some c → ¬ (0 ≤ c ∧ c < lim)) (p : List Nat × List Nat) :
    subsetLoop lim w (ls ++ bad :: ms) p = none := by
  induction ls generalizing p with
  | nil =>
    rw [List.nil_append, subsetLoop, if_neg hb]
    cases h : stoi bad with
    | none => rfl
    | some c => dsimp only; rw [if_neg (hbad c h)]
  | cons l ls ih =>
    rw [List.cons_append, subsetLoop]
    by_cases h : l.head? = some '#'
    · rw [if_pos h]; exact ih p
    · rw [if_neg h]
      cases stoi l with
      | none => rfl
      | some c =>
        dsimp only
        split
        · exact ih _
        · rfl

theorem mem_numbers (ls : List Line) (n : Nat) : n ∈ numbers ls ↔ Line.number n ∈ ls := by
  unfold numbers
  rw [List.mem_filterMap]
  constructor
  · rintro ⟨l, hl, e⟩
    cases l with
    | comment s => simp at e
    | number m => simp at e; subst e; exact hl
  · intro h
    exact ⟨_, h, rfl⟩

theorem window_mem_iff (L : List Nat) (w N i : Nat) :
    i ∈ windowFrames L w N ↔ i < N ∧ ∃ n ∈ L, i ≤ n + w ∧ n ≤ i + w := by
  simp only [windowFrames, List.mem_filter, List.mem_range, List.any_eq_true, Bool.and_eq_true, decide_eq_true_eq]

theorem window_sorted (L : List Nat) (w N : Nat) : (windowFrames L w N).Pairwise (· < ·) :=
  List.Pairwise.filter _ List.pairwise_lt_range

theorem read_subset (lim w : Nat) (ls : List Line) (hlim : lim ≤ 2 ^ 31) (h1 : ∀ l ∈ ls, OneLine l)
    (hn : ∀ n ∈ numbers ls, n < lim) (hne : numbers ls ≠ []) :
    ∃ r, readSubset lim w (fileText ls) = some (r, windowFrames (numbers ls) w lim) ∧ r.Pairwise (· < ·) ∧
      ∀ i, i ∈ r ↔ i ∈ numbers ls := by
  obtain ⟨r', s', h0, hr, hs', h3, h4⟩ := subset_loop lim w ls hlim (fun n h => hn n ((mem_numbers ls n).2 h)) [] []
    List.Pairwise.nil List.Pairwise.nil
  have es : s' = windowFrames (numbers ls) w lim := by
    refine sorted_unique hs' (window_sorted _ _ _) fun i => ?_
    rw [h4, window_mem_iff]
    simp only [List.not_mem_nil, or_false, mem_numbers]
  refine ⟨r', ?_, hr, fun i => by rw [h3, mem_numbers]; simp⟩
  unfold readSubset
  rw [split_file ls h1, h0, es]
  dsimp only
  rw [if_pos]
  obtain ⟨n, hn'⟩ := List.exists_mem_of_ne_nil _ hne
  refine List.length_pos_of_mem (a := n) ?_
  rw [window_mem_iff]
  exact ⟨hn n hn', n, hn', by omega, by omega⟩

/-! ### Names -/

theorem num_inj {i j : Nat} (hi : i < 10 ^ 5) (hj : j < 10 ^ 5) (h : DirList.num 5 i = DirList.num 5 j) : i = j := by
  have := congrArg (digits 0) h
  rwa [DirList.digits_num 5 i hi, DirList.digits_num 5 j hj] at this

theorem num_sep (n : Nat) (c : Char) (hc : c ∈ DirList.num 5 n) : c ≠ '/' ∧ c ≠ '\\' ∧ c ≠ '.' := by
  have h := DirList.num_digit 5 n c hc
  refine ⟨?_, ?_, ?_⟩ <;> rintro rfl <;> exact absurd h (by decide)

theorem frame_base {d : List Char} {ext : String} (hd : DirList.Slashed d) (he : Ext ext) (n : Nat) :
    baseName (frame d ext n) = DirList.num 5 n ++ ext.toList := by
  obtain ⟨e, rfl⟩ := hd
  obtain ⟨x, hx, hx'⟩ := he
  unfold baseName frame
  have hp : ∀ c ∈ (DirList.num 5 n ++ ext.toList).reverse, (c != '/' && c != '\\') = true := by
    intro c hc
    rw [List.mem_reverse, List.mem_append] at hc
    rw [Bool.and_eq_true, bne_iff_ne, bne_iff_ne]
    rcases hc with hc | hc
    · exact ⟨(num_sep n c hc).1, (num_sep n c hc).2.1⟩
    · rw [hx, List.mem_cons] at hc
      rcases hc with rfl | hc
      · decide
      · exact ⟨(hx' c hc).2.1, (hx' c hc).2.2.1⟩
  rw [List.append_assoc, List.reverse_append, List.takeWhile_append_of_pos hp, List.reverse_append, List.reverse_append,
    List.reverse_singleton, List.singleton_append, List.takeWhile_cons_of_neg (by decide), List.reverse_reverse]
  rfl

theorem frame_name {d : List Char} {ext : String} (hd : DirList.Slashed d) (he : Ext ext) (n : Nat) :
    pathName (frame d ext n) = DirList.num 5 n := by
  unfold pathName
  rw [frame_base hd he]
  obtain ⟨x, hx, hx'⟩ := he
  rw [hx, if_pos (by simp), List.reverse_append, List.reverse_cons, List.append_assoc, List.dropWhile_append_of_pos]
  · simp
  · intro c hc
    rw [List.mem_reverse] at hc
    simpa using (hx' c hc).1

theorem num_val (n : Nat) (h : n < 10 ^ 5) : val (DirList.num 5 n) = n := by
  rw [DirList.num_padded 5 n (by norm_num) h, Packets.val_padded]

theorem frame_index {d : List Char} {ext : String} (hd : DirList.Slashed d) (he : Ext ext) (n : Nat) (h : n < 10 ^ 5) :
    pathIndex (frame d ext n) = some n := by
  unfold pathIndex
  rw [frame_name hd he, stoi_digits _ (by intro e; have := DirList.num_length 5 n; rw [e] at this; simp at this)
    (DirList.num_digit 5 n) (by rw [num_val n h]; omega), num_val n h, Option.map_some, DirList.toSize_nat n (by omega)]

theorem contains_iff (t s : List Char) : Seq.containsSub s t = true ↔ t <:+: s := by
  induction s with
  | nil => simp [Seq.containsSub, List.infix_nil]
  | cons c s ih =>
    rw [Seq.containsSub, Bool.or_eq_true, ih, List.isPrefixOf_iff_prefix, List.infix_cons_iff]

theorem infix_sep {t a b : List Char} {x : Char} (hx : x ∉ t) (h : t <:+: a ++ x :: b) : t <:+: a ∨ t <:+: b := by
  obtain ⟨u, v, e⟩ := h
  rw [List.append_assoc] at e
  rcases List.append_eq_append_iff.1 e with ⟨a', h1, h2⟩ | ⟨c', h1, h2⟩
  · -- `a = u ++ a'`
    rcases List.append_eq_append_iff.1 h2 with ⟨b', h3, h4⟩ | ⟨d', h3, h4⟩
    · left; exact ⟨u, b', by rw [h1, h3, List.append_assoc]⟩
    · cases d' with
      | nil => left; exact ⟨u, [], by rw [h1, h3]; simp⟩
      | cons y d' =>
        rw [List.cons_append, List.cons.injEq] at h4
        exact absurd (by rw [h3, ← h4.1]; simp) hx
  · -- `u = a ++ c'`
    cases c' with
    | nil =>
      cases t with
      | nil => left; exact List.nil_infix
      | cons y t =>
        rw [List.nil_append, List.cons_append, List.cons.injEq] at h2
        exact absurd (by rw [h2.1]; simp) hx
    | cons y c' =>
      rw [List.cons_append, List.cons.injEq] at h2
      right; exact ⟨c', v, by rw [h2.2, List.append_assoc]⟩

theorem frame_contains {d : List Char} {ext : String} (hd : DirList.Slashed d) (hn : NoNumber d) (he : Ext ext)
    (i j : Nat) (hi : i < 10 ^ 5) (hj : j < 10 ^ 5) :
    Seq.containsSub (frame d ext j) (padded 5 i) = true ↔ j = i := by
  rw [contains_iff, ← DirList.num_padded 5 i (by norm_num) hi]
  constructor
  · intro h
    obtain ⟨e, rfl⟩ := hd
    obtain ⟨x, hx, hx'⟩ := he
    unfold frame at h
    rw [hx, List.append_assoc, List.append_assoc, List.singleton_append] at h
    rcases infix_sep (fun hc => (num_sep i _ hc).1 rfl) h with h | h
    · exact absurd (h.trans (List.prefix_append _ _).isInfix) (hn i hi)
    · rcases infix_sep (fun hc => (num_sep i _ hc).2.2 rfl) h with h | h
      · exact (num_inj hi hj (h.eq_of_length (by rw [DirList.num_length, DirList.num_length]))).symm
      · exfalso
        cases hc : DirList.num 5 i with
        | nil => have := DirList.num_length 5 i; rw [hc] at this; simp at this
        | cons c r =>
          have hm : c ∈ DirList.num 5 i := by rw [hc]; simp
          have := (hx' c (h.subset hm)).2.2.2
          rw [DirList.num_digit 5 i c hm] at this
          exact absurd this (by decide)
  · rintro rfl
    exact ⟨d, ext.toList, rfl⟩

/-! ### Lists of frames -/

theorem clean_range (set : List Nat) (N : Nat) (f : Nat → List Char) (hne : set ≠ []) (h : ∀ i ∈ set, i < N) :
    clean set ((List.range N).map f) = some (set.map f) := by
  unfold clean
  cases hl : set.getLast? with
  | none => exact absurd (List.getLast?_eq_none_iff.1 hl) hne
  | some m =>
    dsimp only
    rw [if_pos (by rw [List.length_map, List.length_range]; exact h m (List.mem_of_getLast? hl))]
    congr 1
    refine List.map_congr_left fun i hi => ?_
    rw [List.getD_eq_getElem?_getD, List.getElem?_map, List.getElem?_range (h i hi)]
    rfl

theorem window_limit (L : List Nat) (w N M : Nat) (h : ∀ n ∈ L, n + w < N) (hM : N ≤ M) :
    windowFrames L w M = windowFrames L w N := by
  refine sorted_unique (List.Pairwise.filter _ List.pairwise_lt_range) (List.Pairwise.filter _ List.pairwise_lt_range) fun i => ?_
  simp only [windowFrames, List.mem_filter, List.mem_range, List.any_eq_true, Bool.and_eq_true, decide_eq_true_eq]
  constructor
  · rintro ⟨_, n, hn, h1, h2⟩
    exact ⟨by have := h n hn; omega, n, hn, h1, h2⟩
  · rintro ⟨h0, h1⟩
    exact ⟨by omega, h1⟩

theorem find_num (F : List Nat) (g : Nat) (hF : ∀ i ∈ F, i < 10 ^ 5) (hg : g < 10 ^ 5) :
    (F.map (DirList.num 5)).findIdx (· == DirList.num 5 g) = F.idxOf g := by
  induction F with
  | nil => rfl
  | cons a F ih =>
    rw [List.map_cons, List.findIdx_cons, List.idxOf_cons, ih fun i hi => hF i (List.mem_cons_of_mem _ hi)]
    congr 1
    by_cases h : a = g
    · subst h; simp
    · rw [beq_eq_false_iff_ne.2 h, beq_eq_false_iff_ne.2 fun e => h (num_inj (hF a List.mem_cons_self) hg e)]

theorem vap_table (F : List Nat) (d : List Char) (ext : String) (hd : DirList.Slashed d) (he : Ext ext)
    (hF : ∀ i ∈ F, i < 10 ^ 5) (hFn : F.Nodup) (G : List Nat) (hG : ∀ g ∈ G, g ∈ F) (hGn : G.Nodup) (i : Nat) (m : Lut) :
    ∃ m', vapTable (F.map (DirList.num 5)) (G.map (frame d ext)) i m = some m' ∧
      ∀ k, Lut.get m' k = match F[k]? with
        | none => Lut.get m k
        | some f => if f ∈ G then some (i + G.idxOf f) else Lut.get m k := by
  induction G generalizing i m with
  | nil =>
    refine ⟨m, rfl, fun k => ?_⟩
    cases F[k]? <;> simp
  | cons g G ih =>
    have hgF : g ∈ F := hG g List.mem_cons_self
    rw [List.nodup_cons] at hGn
    obtain ⟨m', h1, h2⟩ := ih (fun g' h => hG g' (List.mem_cons_of_mem _ h)) hGn.2 (i + 1) (Lut.set m (F.idxOf g) i)
    refine ⟨m', ?_, fun k => ?_⟩
    · rw [List.map_cons, vapTable, frame_name hd he, if_neg (by
        intro e; have := DirList.num_length 5 g; rw [e] at this; simp at this)]
      dsimp only
      rw [find_num F g hF (hF g hgF), List.length_map, if_pos (List.idxOf_lt_length_of_mem hgF)]
      exact h1
    · rw [h2, DirList.lut_get_set]
      cases hk : F[k]? with
      | none =>
        dsimp only
        rw [if_neg]
        rintro rfl
        rw [List.getElem?_eq_none_iff] at hk
        exact absurd (List.idxOf_lt_length_of_mem hgF) (by omega)
      | some f =>
        dsimp only
        obtain ⟨hkl, hkf⟩ := List.getElem?_eq_some_iff.1 hk
        by_cases hfg : f = g
        · subst hfg
          rw [if_neg hGn.1, if_pos (by rw [← hkf]; exact hFn.idxOf_getElem k hkl), if_pos List.mem_cons_self, List.idxOf_cons_self]
          rfl
        · have hne : F.idxOf g ≠ k := by
            rintro rfl
            rw [List.getElem_idxOf] at hkf
            exact hfg hkf.symm
          rw [if_neg hne]
          by_cases hfG : f ∈ G
          · rw [if_pos hfG, if_pos (List.mem_cons_of_mem _ hfG), List.idxOf_cons_ne _ (fun h => hfg h.symm)]
            congr 1; omega
          · rw [if_neg hfG, if_neg (by rw [List.mem_cons]; tauto)]

theorem range_insert (N : Nat) (s : List Nat) (hs : s.Pairwise (· < ·)) (h : ∀ i ∈ s, i < N) :
    (List.range N).foldl (fun s i => insertSet i s) s = List.range N := by
  obtain ⟨h1, h2⟩ := foldl_insert (List.range N) s hs
  refine sorted_unique h1 List.pairwise_lt_range fun i => ?_
  rw [h2, List.mem_range]
  constructor
  · rintro (h' | h')
    · exact h'
    · exact h i h'
  · exact Or.inl

theorem cleanAll_range (set : List Nat) (N : Nat) (d : List Char) (ext : String) (hd : DirList.Slashed d)
    (he : Ext ext) (hN : N ≤ 10 ^ 5) (hne : set ≠ []) (h : ∀ i ∈ set, i < N) :
    cleanAll set ((List.range N).map (frame d ext)) = some (set.map (frame d ext)) := by
  have hget : ∀ i ∈ set, ((List.range N).map (frame d ext)).getD i [] = frame d ext i := by
    intro i hi
    rw [List.getD_eq_getElem?_getD, List.getElem?_map, List.getElem?_range (h i hi)]
    rfl
  unfold cleanAll
  cases hl : set.getLast? with
  | none => exact absurd (List.getLast?_eq_none_iff.1 hl) hne
  | some m =>
    dsimp only
    rw [if_pos]
    · congr 1
      exact List.map_congr_left hget
    · refine ⟨by rw [List.length_map, List.length_range]; exact h m (List.mem_of_getLast? hl), fun i hi => ?_⟩
      have h5 : i < 10 ^ 5 := lt_of_lt_of_le (h i hi) hN
      rw [hget i hi]
      refine ⟨?_, frame_index hd he i h5⟩
      rw [contains_iff, ← DirList.num_padded 5 i (by norm_num) h5]
      exact ⟨d, ext.toList, rfl⟩

theorem find_number (G : List Nat) (d : List Char) (ext : String) (hd : DirList.Slashed d) (hn : NoNumber d) (he : Ext ext)
    (hG : ∀ g ∈ G, g < 10 ^ 5) (i : Nat) (hi : i < 10 ^ 5) :
    findNumber (G.map (frame d ext)) i = if i ∈ G then some (frame d ext i) else none := by
  unfold findNumber
  induction G with
  | nil => rfl
  | cons g G ih =>
    have ih := ih fun g' h => hG g' (List.mem_cons_of_mem _ h)
    have hc := frame_contains hd hn he i g hi (hG g List.mem_cons_self)
    rw [List.map_cons, List.find?_cons]
    by_cases h : g = i
    · subst h
      rw [hc.2 rfl, if_pos List.mem_cons_self]
    · rw [Bool.eq_false_iff.2 fun e => h (hc.1 e)]
      dsimp only
      rw [ih]
      by_cases hiG : i ∈ G
      · rw [if_pos hiG, if_pos (List.mem_cons_of_mem _ hiG)]
      · rw [if_neg hiG, if_neg]
        rw [List.mem_cons]
        rintro (rfl | h')
        · exact h rfl
        · exact hiG h'

theorem find_cleaned (L G : List Nat) (d : List Char) (ext : String) (hd : DirList.Slashed d) (hn : NoNumber d) (he : Ext ext)
    (hG : ∀ g ∈ G, g < 10 ^ 5) (hL : ∀ g ∈ L, g < 10 ^ 5) (i : Nat) (hi : i < 10 ^ 5) :
    findNumber (L.map fun j => (findNumber (G.map (frame d ext)) j).getD []) i
      = if i ∈ L ∧ i ∈ G then some (frame d ext i) else none := by
  induction L with
  | nil => simp [findNumber]
  | cons l L ih =>
    have ih := ih fun g' h => hL g' (List.mem_cons_of_mem _ h)
    have hl := hL l List.mem_cons_self
    unfold findNumber at ih ⊢
    have e : (List.find? (fun p => Seq.containsSub p (padded 5 l)) (G.map (frame d ext)))
        = findNumber (G.map (frame d ext)) l := rfl
    rw [List.map_cons, List.find?_cons, e, find_number G d ext hd hn he hG l hl]
    by_cases hlG : l ∈ G
    · rw [if_pos hlG, Option.getD_some]
      have hc := frame_contains hd hn he i l hi hl
      by_cases h : l = i
      · subst h
        rw [hc.2 rfl, if_pos ⟨List.mem_cons_self, hlG⟩]
      · rw [Bool.eq_false_iff.2 fun e => h (hc.1 e)]
        dsimp only
        rw [ih]
        by_cases hiG : i ∈ L ∧ i ∈ G
        · rw [if_pos hiG, if_pos ⟨List.mem_cons_of_mem _ hiG.1, hiG.2⟩]
        · rw [if_neg hiG, if_neg]
          rw [List.mem_cons]
          rintro ⟨rfl | h', h''⟩
          · exact h rfl
          · exact hiG ⟨h', h''⟩
    · rw [if_neg hlG, Option.getD_none]
      have hf : Seq.containsSub [] (padded 5 i) = false := by
        rw [Bool.eq_false_iff, ne_eq, contains_iff, List.infix_nil]
        intro e'
        have := Packets.padded_length 5 i (by norm_num) hi
        rw [e'] at this
        simp at this
      rw [hf]
      dsimp only
      rw [ih]
      by_cases hiG : i ∈ L ∧ i ∈ G
      · rw [if_pos hiG, if_pos ⟨List.mem_cons_of_mem _ hiG.1, hiG.2⟩]
      · rw [if_neg hiG, if_neg]
        rw [List.mem_cons]
        rintro ⟨rfl | h', h''⟩
        · exact hlG h''
        · exact hiG ⟨h', h''⟩

theorem zip_maps (F : List Nat) (a b : Nat → List Char) : (F.map a).zip (F.map b) = F.map fun i => (a i, b i) := by
  induction F with
  | nil => rfl
  | cons f F ih => rw [List.map_cons, List.map_cons, List.zip_cons_cons, ih]; rfl

/-- The rows a table of frames gives. -/
theorem vap_rows (F G : List Nat) (m : Lut) (a b : Nat → List Char) (inp : List (List Char × List Char)) (sub : List Nat)
    (hm : ∀ k, Lut.get m k = match F[k]? with
        | none => Lut.get ([] : Lut) k
        | some f => if f ∈ G then some (0 + G.idxOf f) else Lut.get ([] : Lut) k) (k : Nat) :
    Parsed.gt ⟨inp, (G.map a).zip (G.map b), m, sub⟩ k
      = (F[k]?).bind fun f => if f ∈ G then some (a f, b f) else none := by
  unfold Parsed.gt
  dsimp only
  rw [hm]
  cases F[k]? with
  | none => rfl
  | some f =>
    dsimp only
    rw [Option.bind_some]
    by_cases h : f ∈ G
    · rw [if_pos h, if_pos h]
      dsimp only
      rw [Nat.zero_add, zip_maps, List.getElem?_map, List.getElem?_eq_getElem (List.idxOf_lt_length_of_mem h),
        List.getElem_idxOf]
      rfl
    · rw [if_neg h, if_neg h]; rfl

/-- The row of a table. -/
def look (p : List (List Char × List Char) × Lut) (k : Nat) : Option (List Char × List Char) :=
  match Lut.get p.2 k with
  | none => none
  | some i => p.1[i]?

/-- The ground truth found for frame `f`. -/
def rowOf (gtRgb gtLw : List (List Char)) (f : Nat) : Option (List Char × List Char) :=
  if (findNumber gtRgb f).isSome || (findNumber gtLw f).isSome then
    some ((findNumber gtRgb f).getD [], (findNumber gtLw f).getD [])
  else none

theorem litiv_table (gtRgb gtLw : List (List Char)) (F : List Nat) (k0 : Nat) (p : List (List Char × List Char) × Lut)
    (hp : ∀ k r, Lut.get p.2 k = some r → k < k0 ∧ r < p.1.length) (k : Nat) :
    look (litivTable gtRgb gtLw F k0 p) k
      = if k < k0 then look p k else (F[k - k0]?).bind (rowOf gtRgb gtLw) := by
  induction F generalizing k0 p with
  | nil =>
    rw [litivTable, List.getElem?_nil, Option.bind_none]
    by_cases hk : k < k0
    · rw [if_pos hk]
    · rw [if_neg hk]
      unfold look
      cases h : Lut.get p.2 k with
      | none => rfl
      | some r => exact absurd (hp k r h).1 hk
  | cons f F ih =>
    rw [litivTable]
    have step : ∀ q : List (List Char × List Char) × Lut,
        (∀ k r, Lut.get q.2 k = some r → k < k0 + 1 ∧ r < q.1.length) →
        (∀ k, k < k0 → look q k = look p k) → look q k0 = rowOf gtRgb gtLw f →
        look (litivTable gtRgb gtLw F (k0 + 1) q) k
          = if k < k0 then look p k else ((f :: F)[k - k0]?).bind (rowOf gtRgb gtLw) := by
      intro q h1 h2 h3
      rw [ih (k0 + 1) q h1]
      by_cases hk : k < k0
      · rw [if_pos (by omega), if_pos hk, h2 k hk]
      · rw [if_neg hk]
        by_cases hk' : k = k0
        · subst hk'
          rw [if_pos (by omega), h3, Nat.sub_self]
          rfl
        · rw [if_neg (by omega), show k - k0 = (k - (k0 + 1)) + 1 by omega, List.getElem?_cons_succ]
    by_cases hb : ((findNumber gtRgb f).isSome || (findNumber gtLw f).isSome) = true
    · rw [if_pos hb]
      apply step
      · intro k r h
        dsimp only at h ⊢
        rw [DirList.lut_get_set] at h
        rw [List.length_append, List.length_singleton]
        by_cases hk : k0 = k
        · rw [if_pos hk, Option.some.injEq] at h
          omega
        · rw [if_neg hk] at h
          have := hp k r h
          omega
      · intro k hk
        unfold look
        dsimp only
        rw [DirList.lut_get_set, if_neg (by omega)]
        cases h : Lut.get p.2 k with
        | none => rfl
        | some r =>
          dsimp only
          rw [List.getElem?_append_left (hp k r h).2]
      · unfold look rowOf
        dsimp only
        rw [DirList.lut_get_set, if_pos rfl, if_pos hb]
        dsimp only
        rw [List.getElem?_append_right (by omega), Nat.sub_self]
        rfl
    · rw [if_neg hb]
      apply step
      · intro k r h
        have := hp k r h
        omega
      · intro k _; rfl
      · unfold rowOf
        rw [if_neg hb]
        unfold look
        cases h : Lut.get p.2 k0 with
        | none => rfl
        | some r => exact absurd (hp k0 r h).1 (by omega)

end Litiv.Subset
