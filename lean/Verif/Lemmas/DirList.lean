import Verif.Spec.DirList
import Verif.Lemmas.Packets
import Mathlib.Data.List.Sort
import Mathlib.Tactic

/-! # Auxiliary lemmas for the directory listings -/

namespace Litiv.DirList

open Packets (padded padded_lt padded_length val val_padded lex_append lex_append_left)

/-! ### Sorting -/

theorem sort_perm (l : List (List Char)) : (sortPaths l).Perm l := List.perm_insertionSort _ _

theorem sort_sorted (l : List (List Char)) : (sortPaths l).Pairwise (· ≤ ·) := List.pairwise_insertionSort _ _

theorem sort_unique {l m : List (List Char)} (h : l.Perm m) (hm : m.Pairwise (· ≤ ·)) : sortPaths l = m :=
  ((sort_perm l).trans h).eq_of_pairwise (fun _ _ _ _ h1 h2 => le_antisymm h1 h2) (sort_sorted l) hm

/-! ### Numbers -/

theorem ofNat_digit {k : Nat} (h : k < 10) : Char.ofNat (48 + k) = Nat.digitChar k := by
  interval_cases k <;> rfl

theorem num_padded (w n : Nat) (hw : 0 < w) (h : n < 10 ^ w) : num w n = padded w n := by
  induction w generalizing n with
  | zero => omega
  | succ w ih =>
    rw [num, ofNat_digit (Nat.mod_lt _ (by norm_num))]
    rcases Nat.eq_zero_or_pos w with rfl | hw'
    · unfold padded
      rw [Nat.toDigits_of_lt_base (by omega), Nat.mod_eq_of_lt (by omega)]
      rfl
    · rw [Packets.padded_succ w n hw', ih _ hw' (by rw [Nat.div_lt_iff_lt_mul (by norm_num), ← Nat.pow_succ]; exact h)]

theorem num_length (w n : Nat) : (num w n).length = w := by
  induction w generalizing n with
  | zero => rfl
  | succ w ih => rw [num, List.length_append, ih]; rfl

theorem num_digit (w n : Nat) (c : Char) (h : c ∈ num w n) : c.isDigit = true := by
  induction w generalizing n with
  | zero => simp [num] at h
  | succ w ih =>
    rw [num, List.mem_append] at h
    rcases h with h | h
    · exact ih _ h
    · rw [List.mem_singleton] at h
      subst h
      have : n % 10 < 10 := Nat.mod_lt _ (by norm_num)
      interval_cases n % 10 <;> rfl

theorem num_lt (w i j : Nat) (hj : j < 10 ^ w) (h : i < j) : num w i < num w j := by
  rcases Nat.eq_zero_or_pos w with rfl | hw
  · simp at hj; omega
  · rw [num_padded w i hw (by omega), num_padded w j hw hj]
    exact padded_lt w i j hw hj h

theorem fileName_lt (d : List Char) (pre suf : String) (w i j : Nat) (hj : j < 10 ^ w) (h : i < j) :
    d ++ fileName pre w suf i < d ++ fileName pre w suf j := by
  unfold fileName
  rw [List.append_assoc, List.append_assoc]
  exact lex_append_left (lex_append_left (lex_append (by rw [num_length, num_length]) (num_lt w i j hj h)))

theorem numbered_sorted (d : List Char) (pre suf : String) (w : Nat) (l : List Nat) (hl : l.Pairwise (· < ·))
    (hw : ∀ n ∈ l, n < 10 ^ w) : (l.map fun n => d ++ fileName pre w suf n).Pairwise (· < ·) := by
  rw [List.pairwise_map]
  exact hl.imp_of_mem fun _ hb h => fileName_lt d pre suf w _ _ (hw _ hb) h

/-! ### Listings -/

theorem files_holds {fs : FS} {d : List Char} {names : List (List Char)} (h : Holds fs d names)
    (ht : "Thumbs.db".toList ∉ names) :
    getFilesFromDir fs d = sortPaths (names.map fun n => Seq.addDirSlashIfMissing d ++ n) := by
  obtain ⟨es, he, hp⟩ := h
  unfold getFilesFromDir
  rw [he]
  dsimp only
  refine sort_unique ?_ (sort_sorted _)
  refine List.Perm.trans ?_ (sort_perm _).symm
  have e : es.filter (fun e => e.2 == .reg && e.1 != "Thumbs.db".toList)
      = (es.filter fun e => e.2 == .reg).filter fun e => e.1 != "Thumbs.db".toList := by
    rw [List.filter_filter]
    congr 1
    funext e
    rw [Bool.and_comm]
  rw [e]
  have h2 := (hp.filter fun e => e.1 != "Thumbs.db".toList).map fun e : List Char × Kind => Seq.addDirSlashIfMissing d ++ e.1
  refine h2.trans ?_
  rw [List.filter_eq_self.2 ?_, List.map_map]
  · exact List.Perm.refl _
  · intro a ha
    rw [List.mem_map] at ha
    obtain ⟨n, hn, rfl⟩ := ha
    simp only [bne_iff_ne, ne_eq]
    rintro rfl
    exact ht hn

theorem files_sorted {fs : FS} {d : List Char} {names : List (List Char)} (h : Holds fs d names)
    (ht : "Thumbs.db".toList ∉ names) (hs : (names.map fun n => Seq.addDirSlashIfMissing d ++ n).Pairwise (· < ·)) :
    getFilesFromDir fs d = names.map fun n => Seq.addDirSlashIfMissing d ++ n := by
  rw [files_holds h ht]
  exact sort_unique (List.Perm.refl _) (hs.imp le_of_lt)

theorem subs_holds {fs : FS} {d : List Char} {names : List (List Char)} (h : HoldsDirs fs d names) :
    getSubDirsFromDir fs d = sortPaths (names.map fun n => Seq.addDirSlashIfMissing d ++ n) := by
  obtain ⟨es, he, hp⟩ := h
  unfold getSubDirsFromDir
  rw [he]
  dsimp only
  refine sort_unique ?_ (sort_sorted _)
  refine List.Perm.trans ?_ (sort_perm _).symm
  have h2 := hp.map fun e : List Char × Kind => Seq.addDirSlashIfMissing d ++ e.1
  refine h2.trans ?_
  rw [List.map_map]
  exact List.Perm.refl _

theorem slashed_add {d : List Char} (h : Slashed d) : Seq.addDirSlashIfMissing d = d := by
  obtain ⟨e, rfl⟩ := h
  unfold Seq.addDirSlashIfMissing
  rw [if_neg (by simp), if_neg]
  · rw [List.getLast?_concat]
    rfl
  · intro h
    simp only [Bool.or_eq_true, beq_iff_eq] at h
    rcases h with h | h
    · have := congrArg List.getLast? h
      rw [List.getLast?_concat] at this
      simp at this
    · have := congrArg List.getLast? h
      rw [List.getLast?_concat] at this
      simp at this

theorem add_name {d : List Char} {n : List Char} {c : Char} (hc : n.getLast? = some c) (h1 : c ≠ '/') (h2 : c ≠ '\\')
    (h3 : c ≠ '.') : Seq.addDirSlashIfMissing (d ++ n) = d ++ n ++ ['/'] := by
  obtain ⟨m, rfl⟩ := List.getLast?_eq_some_iff.1 hc
  unfold Seq.addDirSlashIfMissing
  rw [← List.append_assoc, if_neg (by simp), if_neg, List.getLast?_concat]
  · simp [h1, h2]
  · intro h
    simp only [Bool.or_eq_true, beq_iff_eq] at h
    rcases h with h | h
    · have := congrArg List.getLast? h
      rw [List.getLast?_concat] at this
      simp at this
      exact h3 this
    · have := congrArg List.getLast? h
      rw [List.getLast?_concat] at this
      simp at this
      exact h3 this

/-! ### Searching -/

theorem find_none_iff (t s : List Char) : find t s = none ↔ Absent t s := by
  unfold Absent
  induction s with
  | nil =>
    rw [find, List.infix_nil]
    split
    · rename_i h; simpa using h
    · rename_i h; simpa using h
  | cons c s ih =>
    rw [find, List.infix_cons_iff]
    split
    · rename_i h
      simp only [reduceCtorEq, false_iff, not_not]
      exact Or.inl (List.isPrefixOf_iff_prefix.1 h)
    · rename_i h
      rw [Option.map_eq_none_iff, ih]
      constructor
      · rintro h1 (h2 | h2)
        · exact h (List.isPrefixOf_iff_prefix.2 h2)
        · exact h1 h2
      · intro h1 h2
        exact h1 (Or.inr h2)

theorem find_skip (t a r : List Char) (h : ∀ s, s <:+ a → s ≠ [] → ¬ t <+: s ++ r) :
    find t (a ++ r) = (find t r).map (· + a.length) := by
  induction a with
  | nil => rw [List.nil_append]; cases find t r <;> rfl
  | cons c a ih =>
    rw [List.cons_append, find, if_neg, ih]
    · cases find t r <;> simp; omega
    · intro s hs
      exact h s (hs.trans (List.suffix_cons c a))
    · rw [List.isPrefixOf_iff_prefix, ← List.cons_append]
      exact h _ List.suffix_rfl (by simp)

theorem find_self (t r : List Char) : find t (t ++ r) = some 0 := by
  cases h : t ++ r with
  | nil =>
    have : t = [] := (List.append_eq_nil_iff.1 h).1
    subst this; rfl
  | cons c s =>
    rw [find, if_pos]
    rw [List.isPrefixOf_iff_prefix, ← h]
    exact List.prefix_append t r

/-- A text without slashes and absent from a directory path is not found before the end of that path. -/
theorem find_dir (t d r : List Char) (hd : Slashed d) (ht : '/' ∉ t) (ha : Absent t d) :
    find t (d ++ r) = (find t r).map (· + d.length) := by
  refine find_skip t d r fun s hs hn hp => ?_
  obtain ⟨e, rfl⟩ := hd
  obtain ⟨u, hu⟩ := hs
  have hsl : s.getLast? = some '/' := by
    have := congrArg List.getLast? hu
    rw [List.getLast?_concat, List.getLast?_append_of_ne_nil _ hn] at this
    exact this
  rcases List.prefix_or_prefix_of_prefix hp (List.prefix_append s r) with h | h
  · apply ha
    refine h.isInfix.trans ?_
    rw [← hu]
    exact (List.suffix_append u s).isInfix
  · apply ht
    exact h.subset (List.mem_of_getLast? hsl)

theorem find_head (c : Char) (t r : List Char) (h : c ∉ r) : find (c :: t) r = none := by
  rw [find_none_iff]
  intro hi
  exact h (hi.subset (List.mem_cons_self))

theorem find_first (c : Char) (t a r : List Char) (h : c ∉ a) : find (c :: t) (a ++ r) = (find (c :: t) r).map (· + a.length) := by
  refine find_skip _ a r fun s hs hn hp => ?_
  cases s with
  | nil => exact hn rfl
  | cons x s =>
    rw [List.cons_append, List.cons_prefix_cons] at hp
    exact h (hs.subset (by rw [hp.1]; exact List.mem_cons_self))

/-! ### Decoding -/

theorem digits_append (a : Nat) (s : List Char) (hs : ∀ c ∈ s, c.isDigit = true) :
    digits a s = s.foldl (fun n c => n * 10 + (c.toNat - 48)) a := by
  induction s generalizing a with
  | nil => rfl
  | cons c s ih =>
    rw [digits, if_pos (hs c List.mem_cons_self), ih _ fun x hx => hs x (List.mem_cons_of_mem _ hx), List.foldl_cons,
      Nat.mul_comm]

theorem digits_num (w n : Nat) (h : n < 10 ^ w) : digits 0 (num w n) = n := by
  rw [digits_append _ _ (num_digit w n)]
  rcases Nat.eq_zero_or_pos w with rfl | hw
  · simp at h; subst h; rfl
  · rw [num_padded w n hw h]
    exact val_padded w n

theorem digit_plain {c : Char} (h : c.isDigit = true) : isSpace c = false ∧ c ≠ '-' ∧ c ≠ '+' ∧ c ≠ '.' ∧ c ≠ 'h' := by
  refine ⟨?_, ?_, ?_, ?_, ?_⟩
  · unfold isSpace
    have h1 : 48 ≤ c.toNat := by
      simp only [Char.isDigit, Bool.and_eq_true, decide_eq_true_eq] at h
      exact UInt32.le_iff_toNat_le.1 h.1
    rw [Bool.or_eq_false_iff]
    constructor
    · rw [beq_eq_false_iff_ne]
      rintro rfl
      exact absurd h1 (by decide)
    · rw [Bool.and_eq_false_iff]
      right
      rw [decide_eq_false_iff_not]
      omega
  all_goals
    rintro rfl
    exact absurd h (by decide)

theorem atoi_num (w n : Nat) (h : n < 10 ^ w) : atoi (num w n) = n := by
  unfold atoi
  have hs : (num w n).dropWhile isSpace = num w n := by
    cases hc : num w n with
    | nil => rfl
    | cons c s =>
      have := (digit_plain (num_digit w n c (by rw [hc]; exact List.mem_cons_self))).1
      rw [List.dropWhile_cons, if_neg (by rw [this]; simp)]
  rw [hs]
  split
  · rename_i t hc
    exact absurd rfl (digit_plain (num_digit w n '-' (by rw [hc]; exact List.mem_cons_self))).2.1
  · rename_i t hc
    exact absurd rfl (digit_plain (num_digit w n '+' (by rw [hc]; exact List.mem_cons_self))).2.2.1
  · rw [digits_num w n h]

theorem toSize_nat (n : Nat) (h : n < 2 ^ 64) : toSize n = n := by
  unfold toSize
  omega

theorem pathNumber_num (pre : String) (w n : Nat) (d : List Char) (suf : List Char) (hd : Slashed d) (ht : '/' ∉ pre.toList)
    (ha : Absent pre.toList d) (hw : w ≤ 19) (h : n < 10 ^ w) (hl : d.length + pre.toList.length < 2 ^ 64) :
    pathNumber pre.toList w (d ++ (pre.toList ++ num w n ++ suf)) = some n := by
  unfold pathNumber
  rw [find_dir _ _ _ hd ht ha, List.append_assoc, find_self]
  simp only [Option.map_some, Option.getD_some, Nat.zero_add]
  rw [Nat.mod_eq_of_lt hl]
  unfold substr
  rw [if_pos (by simp)]
  have e : (d ++ (pre.toList ++ (num w n ++ suf))).drop (d.length + pre.toList.length) = num w n ++ suf := by
    rw [← List.append_assoc, ← List.length_append, List.drop_left]
  rw [e, List.take_append_of_le_length (by rw [num_length]), List.take_of_length_le (by rw [num_length])]
  show some _ = some n
  rw [atoi_num w n h, toSize_nat]
  have : 10 ^ w ≤ 10 ^ 19 := Nat.pow_le_pow_right (by norm_num) hw
  omega

/-! ### Tables and loops -/

theorem lut_get_set (m : Lut) (k v j : Nat) : (m.set k v).get j = if k = j then some v else m.get j := by
  unfold Lut.set Lut.get
  rw [List.find?_cons]
  by_cases h : k = j
  · subst h; simp
  · rw [if_neg h]
    have : (k == j) = false := by simpa using h
    rw [this]

theorem cdnet_lut (n k : Nat) :
    Lut.get ((List.range n).foldl (fun (m : Lut) i => Lut.set m i i) []) k = if k < n then some k else none := by
  induction n with
  | zero => rfl
  | succ n ih =>
    rw [List.range_succ, List.foldl_append, List.foldl_cons, List.foldl_nil, lut_get_set, ih]
    by_cases h : n = k
    · subst h; simp
    · rw [if_neg h]
      by_cases h2 : k < n
      · rw [if_pos h2, if_pos (by omega)]
      · rw [if_neg h2, if_neg (by omega)]

theorem wall_inputs (data : List Char) (l : List Nat) (rest : List (List Char)) (b : Bool) (p : Parsed) (hd : Slashed data)
    (hlen : data.length < 2 ^ 63) (ha : Absent "hand_segmented_".toList data) (hb : Absent ".bmp".toList data) :
    wallLoop data ((l.map fun n => data ++ fileName "b" 5 ".bmp" n) ++ rest) b p
      = wallLoop data rest b { p with inputs := p.inputs ++ l.map fun n => data ++ fileName "b" 5 ".bmp" n } := by
  induction l generalizing p with
  | nil => simp
  | cons n l ih =>
    have hdig := num_digit 5 n
    have e1 : find "hand_segmented_".toList (data ++ fileName "b" 5 ".bmp" n) = none := by
      rw [find_dir _ _ _ hd (by decide) ha]
      have : find "hand_segmented_".toList (fileName "b" 5 ".bmp" n) = none := by
        refine find_head 'h' _ _ ?_
        unfold fileName
        rw [List.mem_append, List.mem_append]
        rintro ((h | h) | h)
        · exact absurd h (by decide)
        · exact (digit_plain (hdig _ h)).2.2.2.2 rfl
        · exact absurd h (by decide)
      rw [this]; rfl
    have e2 : find ".bmp".toList (data ++ fileName "b" 5 ".bmp" n) = some (data.length + 6) := by
      rw [find_dir _ _ _ hd (by decide) hb]
      have : find ".bmp".toList (fileName "b" 5 ".bmp" n) = some 6 := by
        unfold fileName
        refine (find_first '.' "bmp".toList ("b".toList ++ num 5 n) ".bmp".toList ?_).trans ?_
        · rw [List.mem_append]
          rintro (h | h)
          · exact absurd h (by decide)
          · exact (digit_plain (hdig _ h)).2.2.2.1 rfl
        · rw [List.length_append, num_length]
          rfl
      rw [this]
      simp [Nat.add_comm]
    have hl : (data ++ fileName "b" 5 ".bmp" n).length = data.length + 10 := by
      unfold fileName
      rw [List.length_append, List.length_append, List.length_append, num_length]
      rfl
    have e3 : ¬ data ++ fileName "b" 5 ".bmp" n = data ++ "script.txt".toList := by
      intro h
      have := List.append_cancel_left h
      unfold fileName at this
      have h0 := congrArg List.head? this
      simp at h0
    rw [List.map_cons, List.cons_append, wallLoop, if_neg e3, e1, e2, hl]
    simp only [Option.isSome_none, Bool.false_eq_true, if_false, Option.getD_some]
    rw [if_neg (by omega), ih]
    simp

theorem pets_loop (d : List Char) (suf : String) (l : List Nat) (i : Nat) (m : Lut) (hd : Slashed d)
    (ha : Absent "image_".toList d) (hlen : d.length < 2 ^ 63) (hw : ∀ n ∈ l, n < 10 ^ 4) (hl : l.Nodup) :
    ∃ m', petsLoop (l.map fun n => d ++ fileName "image_" 4 suf n) i m = some m' ∧
      ∀ k, m'.get k = if k ∈ l then some (i + l.idxOf k) else m.get k := by
  induction l generalizing i m with
  | nil => exact ⟨m, rfl, fun k => by simp⟩
  | cons n l ih =>
    have hn : pathNumber "image_".toList 4 (d ++ fileName "image_" 4 suf n) = some n :=
      pathNumber_num "image_" 4 n d suf.toList hd (by decide) ha (by norm_num) (hw n List.mem_cons_self) (by
        show d.length + 6 < _
        omega)
    obtain ⟨m', h1, h2⟩ := ih (i + 1) (m.set n i) (fun x hx => hw x (List.mem_cons_of_mem _ hx)) (List.nodup_cons.1 hl).2
    refine ⟨m', ?_, fun k => ?_⟩
    · rw [List.map_cons, petsLoop, hn]
      exact h1
    · rw [h2, lut_get_set]
      by_cases hk : n = k
      · subst hk
        rw [if_neg (List.nodup_cons.1 hl).1, if_pos rfl, if_pos List.mem_cons_self, List.idxOf_cons_self]
        simp
      · by_cases hk2 : k ∈ l
        · rw [if_pos hk2, if_pos (List.mem_cons_of_mem _ hk2), List.idxOf_cons_ne _ hk]
          congr 1
          omega
        · rw [if_neg hk2, if_neg hk, if_neg]
          rw [List.mem_cons]
          rintro (h | h)
          · exact hk h.symm
          · exact hk2 h

end Litiv.DirList
