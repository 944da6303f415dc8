import Verif.Lemmas.DirList

/-! # Properties of the directory listings and of the ground truth lookups -/

namespace Litiv.DirList

open Packets (padded padded_lt padded_length val val_padded lex_append_left)

/-! ### C189: listings -/

/-- **C189.** `getFilesFromDir` of a directory that can be opened lists, in increasing order, one path per regular
file other than `Thumbs.db`, and nothing else. -/
theorem files_listed (fs : FS) (d : List Char) (es : List (List Char × Kind)) (h : fs d = some es) :
    (getFilesFromDir fs d).Pairwise (· ≤ ·) ∧
    (∀ p, p ∈ getFilesFromDir fs d ↔
      ∃ n, (n, Kind.reg) ∈ es ∧ n ≠ "Thumbs.db".toList ∧ p = Seq.addDirSlashIfMissing d ++ n) ∧
    ((es.map (·.1)).Nodup → (getFilesFromDir fs d).Pairwise (· < ·)) := by
  have hm : ∀ p, p ∈ getFilesFromDir fs d ↔
      ∃ n, (n, Kind.reg) ∈ es ∧ n ≠ "Thumbs.db".toList ∧ p = Seq.addDirSlashIfMissing d ++ n := by
    intro p
    unfold getFilesFromDir
    rw [h]
    dsimp only
    rw [(sort_perm _).mem_iff, List.mem_map]
    constructor
    · rintro ⟨e, he, rfl⟩
      rw [List.mem_filter, Bool.and_eq_true, beq_iff_eq, bne_iff_ne] at he
      exact ⟨e.1, by rw [← he.2.1]; exact he.1, he.2.2, rfl⟩
    · rintro ⟨n, hn, ht, rfl⟩
      exact ⟨(n, .reg), by rw [List.mem_filter, Bool.and_eq_true, beq_iff_eq, bne_iff_ne]; exact ⟨hn, rfl, ht⟩, rfl⟩
  have hs : (getFilesFromDir fs d).Pairwise (· ≤ ·) := by
    unfold getFilesFromDir
    rw [h]
    exact sort_sorted _
  refine ⟨hs, hm, fun hn => ?_⟩
  have hnd : (getFilesFromDir fs d).Nodup := by
    unfold getFilesFromDir
    rw [h]
    dsimp only
    rw [(sort_perm _).nodup_iff]
    rw [List.nodup_map_iff_inj_on ?_]
    · intro a ha b hb hab
      exact List.inj_on_of_nodup_map hn (List.mem_of_mem_filter ha) (List.mem_of_mem_filter hb)
        (List.append_cancel_left hab)
    · exact (List.Nodup.of_map _ hn).filter _
  exact (hs.and hnd).imp fun h => lt_of_le_of_ne h.1 h.2

/-- **C189.** `getSubDirsFromDir` likewise lists the directories other than `.` and `..`. -/
theorem subdirs_listed (fs : FS) (d : List Char) (es : List (List Char × Kind)) (h : fs d = some es) :
    (getSubDirsFromDir fs d).Pairwise (· ≤ ·) ∧
    ∀ p, p ∈ getSubDirsFromDir fs d ↔
      ∃ n, (n, Kind.dir) ∈ es ∧ n ≠ ".".toList ∧ n ≠ "..".toList ∧ p = Seq.addDirSlashIfMissing d ++ n := by
  constructor
  · unfold getSubDirsFromDir
    rw [h]
    exact sort_sorted _
  · intro p
    unfold getSubDirsFromDir
    rw [h]
    dsimp only
    rw [(sort_perm _).mem_iff, List.mem_map]
    constructor
    · rintro ⟨e, he, rfl⟩
      rw [List.mem_filter, Bool.and_eq_true, Bool.and_eq_true, beq_iff_eq, bne_iff_ne, bne_iff_ne] at he
      exact ⟨e.1, by rw [← he.2.1.1]; exact he.1, he.2.1.2, he.2.2, rfl⟩
    · rintro ⟨n, hn, h1, h2, rfl⟩
      exact ⟨(n, .dir), by
        rw [List.mem_filter, Bool.and_eq_true, Bool.and_eq_true, beq_iff_eq, bne_iff_ne, bne_iff_ne]
        exact ⟨hn, ⟨rfl, h1⟩, h2⟩, rfl⟩

/-- **C189.** The listings do not depend on the order in which the file system enumerates a directory; a directory
that cannot be opened gives empty listings. -/
theorem listing_order (fs gs : FS) (d : List Char) (es fes : List (List Char × Kind)) (h1 : fs d = some es)
    (h2 : gs d = some fes) (hp : es.Perm fes) :
    getFilesFromDir fs d = getFilesFromDir gs d ∧ getSubDirsFromDir fs d = getSubDirsFromDir gs d := by
  unfold getFilesFromDir getSubDirsFromDir
  rw [h1, h2]
  dsimp only
  exact ⟨sort_unique (((hp.filter _).map _).trans (sort_perm _).symm) (sort_sorted _),
    sort_unique (((hp.filter _).map _).trans (sort_perm _).symm) (sort_sorted _)⟩

theorem listing_missing (fs : FS) (d : List Char) (h : fs d = none) :
    getFilesFromDir fs d = [] ∧ getSubDirsFromDir fs d = [] := by
  unfold getFilesFromDir getSubDirsFromDir
  rw [h]
  exact ⟨rfl, rfl⟩

/-- Non-vacuity: two orders of one directory with a file to skip, a subdirectory and two links. -/
example :
    let es : List (List Char × Kind) := [("b".toList, .reg), (".".toList, .dir), ("Thumbs.db".toList, .reg), ("s".toList, .dir),
      ("a".toList, .reg), ("..".toList, .dir), ("c".toList, .noStat)]
    getFilesFromDir (fun _ => some es) "d".toList = ["d/a".toList, "d/b".toList] ∧
    getFilesFromDir (fun _ => some es.reverse) "d".toList = ["d/a".toList, "d/b".toList] ∧
    getSubDirsFromDir (fun _ => some es) "d/".toList = ["d/s".toList] := by
  decide +kernel

/-! ### C190: numbered files -/

/-- **C190 (partial).** The files of a directory whose names carry a number of fixed width, with leading zeros, are
listed in the order of those numbers. What is missing is the same for numbers without leading zeros or with more
digits: `number_order_refuted`. -/
theorem number_order_partial (fs : FS) (d : List Char) (pre suf : String) (w : Nat) (l : List Nat)
    (hl : l.Pairwise (· < ·)) (hw : ∀ n ∈ l, n < 10 ^ w) (ht : ∀ n ∈ l, fileName pre w suf n ≠ "Thumbs.db".toList)
    (h : Holds fs d (l.map (fileName pre w suf))) :
    getFilesFromDir fs d = l.map fun n => Seq.addDirSlashIfMissing d ++ fileName pre w suf n := by
  rw [files_sorted h, List.map_map]
  · rfl
  · intro hm
    rw [List.mem_map] at hm
    obtain ⟨n, hn, e⟩ := hm
    exact ht n hn e
  · rw [List.map_map]
    exact numbered_sorted _ pre suf w l hl hw

/-- Non-vacuity: three frames, enumerated in another order among other entries. -/
example : Holds (fun _ => some [("in000010.jpg".toList, .reg), ("x".toList, .dir), ("in000002.jpg".toList, .reg),
    ("in000009.jpg".toList, .reg)]) "d".toList ([2, 9, 10].map (fileName "in" 6 ".jpg")) :=
  ⟨_, rfl, by decide +kernel⟩

/-- **C190 (refuted).** Frame 10 is listed before frame 9 when the numbers have no leading zeros. -/
theorem number_order_refuted :
    getFilesFromDir (fun _ => some [("9.png".toList, .reg), ("10.png".toList, .reg)]) "d/".toList
      = ["d/10.png".toList, "d/9.png".toList] ∧
    getFilesFromDir (fun _ => some [("99999.png".toList, .reg), ("100000.png".toList, .reg)]) "d/".toList
      = ["d/100000.png".toList, "d/99999.png".toList] := by
  decide +kernel

/-! ### C191: CDnet sequences -/

/-- **C191 (partial).** A CDnet sequence with one ground truth file per frame, under the same number, is parsed; packet
`k` is the `k`-th frame and its ground truth is the one of the same number. What is missing is an error when the
numbers do not match: `cdnet_refuted`. -/
theorem cdnet_partial (fs : FS) (data : List Char) (subs : List (List Char)) (l : List Nat) (hd : Slashed data)
    (hsub : HoldsDirs fs data subs) (h1 : "input".toList ∈ subs) (h2 : "groundtruth".toList ∈ subs)
    (hl : l.Pairwise (· < ·)) (hne : l ≠ []) (hw : ∀ n ∈ l, n < 10 ^ 6)
    (hi : Holds fs (data ++ "input".toList) (l.map (fileName "in" 6 ".jpg")))
    (hg : Holds fs (data ++ "groundtruth".toList) (l.map (fileName "gt" 6 ".png"))) :
    ∃ p, parseCDnet fs data = some p ∧
      ∀ k, p.input k = (l[k]?).map (fun n => data ++ "input/".toList ++ fileName "in" 6 ".jpg" n) ∧
        p.gt k = (l[k]?).map (fun n => data ++ "groundtruth/".toList ++ fileName "gt" 6 ".png" n) := by
  have ei : getFilesFromDir fs (data ++ "input".toList)
      = l.map fun n => data ++ "input/".toList ++ fileName "in" 6 ".jpg" n := by
    rw [number_order_partial fs _ "in" ".jpg" 6 l hl hw ?_ hi, add_name (c := 't') (by decide) (by decide) (by decide) (by decide)]
    · simp
    · intro n _ e
      have := congrArg List.head? e
      unfold fileName at this
      simp at this
  have eg : getFilesFromDir fs (data ++ "groundtruth".toList)
      = l.map fun n => data ++ "groundtruth/".toList ++ fileName "gt" 6 ".png" n := by
    rw [number_order_partial fs _ "gt" ".png" 6 l hl hw ?_ hg, add_name (c := 'h') (by decide) (by decide) (by decide) (by decide)]
    · simp
    · intro n _ e
      have := congrArg List.head? e
      unfold fileName at this
      simp at this
  have hs : ∀ n ∈ subs, data ++ n ∈ getSubDirsFromDir fs data := by
    intro n hn
    rw [subs_holds hsub, slashed_add hd, (sort_perm _).mem_iff]
    exact List.mem_map.2 ⟨n, hn, rfl⟩
  refine ⟨⟨l.map fun n => data ++ "input/".toList ++ fileName "in" 6 ".jpg" n,
      l.map fun n => data ++ "groundtruth/".toList ++ fileName "gt" 6 ".png" n,
      (List.range l.length).foldl (fun (m : Lut) i => Lut.set m i i) []⟩, ?_, ?_⟩
  · unfold parseCDnet
    dsimp only
    rw [if_pos ⟨hs _ h2, hs _ h1⟩, ei, eg, if_pos]
    · rw [List.length_map]
    · rw [List.length_map, List.length_map]
      exact ⟨List.length_pos_iff.2 hne, rfl⟩
  · intro k
    unfold Parsed.input Parsed.gt
    dsimp only
    rw [cdnet_lut]
    refine ⟨by rw [List.getElem?_map], ?_⟩
    by_cases hk : k < l.length
    · rw [if_pos hk]
      dsimp only
      rw [List.getElem?_map]
    · rw [if_neg hk, List.getElem?_eq_none (by omega)]
      rfl

/-- A file system of the directories given. -/
def mkFS (l : List (String × List (String × Kind))) : FS := fun d =>
  (l.find? fun e => e.1.toList == d).map fun e => e.2.map fun x => (x.1.toList, x.2)

/-- Non-vacuity: frames 1 and 2 of a sequence, with another directory beside. -/
example :
    let fs := mkFS [("s/", [("input", .dir), (".", .dir), ("groundtruth", .dir), ("..", .dir), ("ROI.bmp", .reg), ("x", .dir)]),
      ("s/input", [("in000002.jpg", .reg), ("in000001.jpg", .reg)]),
      ("s/groundtruth", [("gt000001.png", .reg), ("gt000002.png", .reg)])]
    HoldsDirs fs "s/".toList ["groundtruth".toList, "x".toList, "input".toList] ∧
    Holds fs ("s/".toList ++ "input".toList) ([1, 2].map (fileName "in" 6 ".jpg")) ∧
    Holds fs ("s/".toList ++ "groundtruth".toList) ([1, 2].map (fileName "gt" 6 ".png")) :=
  ⟨⟨_, rfl, by decide +kernel⟩, ⟨_, rfl, by decide +kernel⟩, ⟨_, rfl, by decide +kernel⟩⟩

/-- **C191 (refuted).** The pairing is by position only: frame 2 is evaluated with the ground truth of frame 3 when
the second frame's is missing and there is a file in excess. -/
theorem cdnet_refuted :
    let fs := mkFS [("s/", [("input", .dir), ("groundtruth", .dir)]),
      ("s/input", [("in000001.jpg", .reg), ("in000002.jpg", .reg)]),
      ("s/groundtruth", [("gt000001.png", .reg), ("gt000003.png", .reg)])]
    ∃ p, parseCDnet fs "s/".toList = some p ∧ p.input 1 = some "s/input/in000002.jpg".toList ∧
      p.gt 1 = some "s/groundtruth/gt000003.png".toList := by
  refine ⟨_, rfl, ?_⟩
  decide +kernel

/-- **C191.** A parsed CDnet sequence has a ground truth for each of its frames and for no other packet; a sequence
with another number of ground truth files is refused. -/
theorem cdnet_covered (fs : FS) (data : List Char) :
    (∀ p, parseCDnet fs data = some p →
      ∀ k, ((p.gt k).isSome ↔ (p.input k).isSome)) ∧
    ((getFilesFromDir fs (data ++ "groundtruth".toList)).length ≠ (getFilesFromDir fs (data ++ "input".toList)).length →
      parseCDnet fs data = none) := by
  constructor
  · intro p hp k
    unfold parseCDnet at hp
    dsimp only at hp
    by_cases h1 : data ++ "groundtruth".toList ∈ getSubDirsFromDir fs data ∧ data ++ "input".toList ∈ getSubDirsFromDir fs data
    · rw [if_pos h1] at hp
      by_cases h2 : (getFilesFromDir fs (data ++ "input".toList)).length > 0 ∧
          (getFilesFromDir fs (data ++ "groundtruth".toList)).length = (getFilesFromDir fs (data ++ "input".toList)).length
      · rw [if_pos h2, Option.some.injEq] at hp
        subst hp
        unfold Parsed.gt Parsed.input
        dsimp only
        rw [cdnet_lut]
        by_cases hk : k < (getFilesFromDir fs (data ++ "input".toList)).length
        · rw [if_pos hk]
          dsimp only
          rw [List.getElem?_eq_getElem hk, List.getElem?_eq_getElem (by omega)]
          simp
        · rw [if_neg hk, List.getElem?_eq_none (by omega)]
      · rw [if_neg h2] at hp; cases hp
    · rw [if_neg h1] at hp; cases hp
  · intro h
    unfold parseCDnet
    dsimp only
    by_cases h1 : data ++ "groundtruth".toList ∈ getSubDirsFromDir fs data ∧ data ++ "input".toList ∈ getSubDirsFromDir fs data
    · rw [if_pos h1, if_neg fun h2 => h h2.2]
    · rw [if_neg h1]

/-- **C191.** The output names of CDnet are never cut, different for different packets, and sorted in the order of the
packets below a million. -/
theorem cdnet_names (i j : Nat) (hi : i + 1 < 2 ^ 64) (hj : j + 1 < 2 ^ 64) :
    cdnetOutputName i = "bin".toList ++ padded 6 (i + 1) ∧
    (cdnetOutputName i = cdnetOutputName j → i = j) ∧
    (i < j → j + 1 < 10 ^ 6 → cdnetOutputName i < cdnetOutputName j) := by
  have e : ∀ k, k + 1 < 2 ^ 64 → cdnetOutputName k = "bin".toList ++ padded 6 (k + 1) := by
    intro k hk
    unfold cdnetOutputName
    rw [Nat.mod_eq_of_lt hk, List.take_of_length_le]
    rw [List.length_append]
    have := Packets.padded_le 6 (k + 1) hk (by norm_num)
    have h3 : "bin".toList.length = 3 := rfl
    omega
  refine ⟨e i hi, ?_, ?_⟩
  · rw [e i hi, e j hj]
    intro h
    have := congrArg val (List.append_cancel_left h)
    rw [val_padded, val_padded] at this
    omega
  · intro h h6
    rw [e i hi, e j hj]
    exact lex_append_left (padded_lt 6 _ _ (by norm_num) h6 (by omega))

example : cdnetOutputName 41 = "bin000042".toList ∧ cdnetOutputName 1234567 = "bin1234568".toList := by decide +kernel

/-! ### C192: Wallflower sequences -/

/-- **C192 (partial).** A Wallflower sequence of the frames `b00000.bmp`, `b00001.bmp`, …, a script and one hand
segmented image is parsed; packet `k` is frame `k`, and only the packet whose number is in the name of the segmented
image has a ground truth, that image. What is missing is the same for frames that do not start at zero and for paths
that hold the searched texts: `wallflower_first_refuted`, `wallflower_path_refuted`. -/
theorem wallflower_partial (fs : FS) (data : List Char) (N g : Nat) (ext : String) (hd : Slashed data)
    (hlen : data.length < 2 ^ 63) (ha : Absent "hand_segmented_".toList data) (hb : Absent ".bmp".toList data)
    (hN : N ≤ 10 ^ 5) (hN0 : 0 < N) (hg : g < 10 ^ 5)
    (h : Holds fs data (((List.range N).map (fileName "b" 5 ".bmp")) ++
      [fileName "hand_segmented_" 5 ext g, "script.txt".toList])) :
    ∃ p, parseWallflower fs data = some p ∧
      (∀ k, p.input k = if k < N then some (data ++ fileName "b" 5 ".bmp" k) else none) ∧
      ∀ k, p.gt k = if k = g then some (data ++ fileName "hand_segmented_" 5 ext g) else none := by
  have hf : getFilesFromDir fs data = ((List.range N).map fun n => data ++ fileName "b" 5 ".bmp" n) ++
      [data ++ fileName "hand_segmented_" 5 ext g, data ++ "script.txt".toList] := by
    rw [files_sorted h, slashed_add hd, List.map_append, List.map_map]
    · rfl
    · intro hm
      rw [List.mem_append, List.mem_map] at hm
      rcases hm with ⟨n, _, e⟩ | hm
      · have := congrArg List.head? e
        unfold fileName at this
        simp at this
      · rw [List.mem_cons, List.mem_singleton] at hm
        rcases hm with e | e
        · have := congrArg List.head? e
          unfold fileName at this
          simp at this
        · exact absurd e (by decide)
    · rw [slashed_add hd, List.map_append, List.map_map, List.pairwise_append]
      refine ⟨?_, ?_, ?_⟩
      · exact numbered_sorted data "b" ".bmp" 5 (List.range N) List.pairwise_lt_range
          fun n hn => by rw [List.mem_range] at hn; omega
      · rw [List.map_cons, List.map_cons, List.map_nil, List.pairwise_cons]
        refine ⟨fun x hx => ?_, by simp⟩
        rw [List.mem_singleton] at hx
        subst hx
        refine lex_append_left ?_
        unfold fileName
        exact List.cons_lt_cons_iff.2 (Or.inl (by decide))
      · intro x hx y hy
        rw [List.mem_map] at hx
        obtain ⟨n, _, rfl⟩ := hx
        rw [List.map_cons, List.map_cons, List.map_nil, List.mem_cons, List.mem_singleton] at hy
        rcases hy with rfl | rfl
        · refine lex_append_left ?_
          unfold fileName
          exact List.cons_lt_cons_iff.2 (Or.inl (by decide))
        · refine lex_append_left ?_
          unfold fileName
          exact List.cons_lt_cons_iff.2 (Or.inl (by decide))
  have hnum : pathNumber "hand_segmented_".toList 5 (data ++ fileName "hand_segmented_" 5 ext g) = some g :=
    pathNumber_num "hand_segmented_" 5 g data ext.toList hd (by decide) ha (by norm_num) hg (by
      show data.length + 15 < _
      omega)
  have hfound : (find "hand_segmented_".toList (data ++ fileName "hand_segmented_" 5 ext g)).isSome = true := by
    unfold fileName
    rw [find_dir _ _ _ hd (by decide) ha, List.append_assoc, find_self]
    rfl
  have hns : ¬ data ++ fileName "hand_segmented_" 5 ext g = data ++ "script.txt".toList := by
    intro e
    have := congrArg List.head? (List.append_cancel_left e)
    unfold fileName at this
    simp at this
  refine ⟨⟨(List.range N).map fun n => data ++ fileName "b" 5 ".bmp" n, [data ++ fileName "hand_segmented_" 5 ext g], [(g, 0)]⟩, ?_, ?_, ?_⟩
  · unfold parseWallflower
    rw [hf, wall_inputs data (List.range N) _ _ _ hd hlen ha hb, wallLoop, if_neg hns, if_pos hfound, hnum]
    dsimp only
    rw [wallLoop, if_pos rfl, wallLoop]
    dsimp only
    rw [if_neg]
    · rfl
    · simp
      omega
  · intro k
    unfold Parsed.input
    dsimp only
    rw [List.getElem?_map]
    by_cases hk : k < N
    · rw [if_pos hk, List.getElem?_range hk]
      rfl
    · rw [if_neg hk, List.getElem?_eq_none (by rw [List.length_range]; omega)]
      rfl
  · intro k
    unfold Parsed.gt
    dsimp only
    have : Lut.get [(g, 0)] k = if k = g then some 0 else none := by
      have := lut_get_set [] g 0 k
      unfold Lut.set at this
      rw [this]
      by_cases hk : g = k
      · rw [if_pos hk, if_pos hk.symm]
      · rw [if_neg hk, if_neg fun e => hk e.symm]
        rfl
    rw [this]
    by_cases hk : k = g
    · rw [if_pos hk, if_pos hk]
      rfl
    · rw [if_neg hk, if_neg hk]

/-- Non-vacuity: three frames, the second one segmented. -/
example : Slashed "w/".toList ∧ Absent "hand_segmented_".toList "w/".toList ∧ Absent ".bmp".toList "w/".toList ∧
    Holds (mkFS [("w/", [("script.txt", .reg), ("b00001.bmp", .reg), ("hand_segmented_00001.BMP", .reg), (".", .dir),
      ("b00000.bmp", .reg), ("b00002.bmp", .reg)])]) "w/".toList
      (((List.range 3).map (fileName "b" 5 ".bmp")) ++ [fileName "hand_segmented_" 5 ".BMP" 1, "script.txt".toList]) := by
  refine ⟨⟨['w'], rfl⟩, ?_, ?_, ⟨_, rfl, by decide +kernel⟩⟩
  · rw [← find_none_iff]; decide +kernel
  · rw [← find_none_iff]; decide +kernel

/-- **C192 (refuted).** With frames numbered from one, the segmented image of frame 1 becomes the ground truth of the
frame `b00002.bmp`. -/
theorem wallflower_first_refuted :
    let fs := mkFS [("w/", [("script.txt", .reg), ("b00001.bmp", .reg), ("b00002.bmp", .reg), ("hand_segmented_00001.BMP", .reg)])]
    ∃ p, parseWallflower fs "w/".toList = some p ∧ p.input 1 = some "w/b00002.bmp".toList ∧
      p.gt 1 = some "w/hand_segmented_00001.BMP".toList := by
  refine ⟨_, rfl, ?_⟩
  decide +kernel

/-- **C192 (refuted).** The texts are searched in the whole path: the sequence is refused when it is stored below a
directory whose name holds `hand_segmented_` or `.bmp`. -/
theorem wallflower_path_refuted :
    let es := [("script.txt", Kind.reg), ("b00000.bmp", .reg), ("hand_segmented_00000.BMP", .reg)]
    (parseWallflower (mkFS [("w/", es)]) "w/".toList).isSome = true ∧
    parseWallflower (mkFS [("hand_segmented_set/", es)]) "hand_segmented_set/".toList = none ∧
    parseWallflower (mkFS [("w.bmp/", es)]) "w.bmp/".toList = none := by
  decide +kernel

/-! ### C193: PETS sequences -/

/-- **C193 (partial).** With ground truth files `image_` and four digits, a PETS sequence is parsed and exactly the
packets whose numbers are among those of the files have a ground truth: the file of that number. What is missing is
the same for five digits and for directories whose name holds `image_`: `pets_refuted`. -/
theorem pets_partial (fs : FS) (data video sub : List Char) (suf : String) (l : List Nat) (c : Char) (hd : Slashed data)
    (hv : Holds fs data [video]) (hvt : video ≠ "Thumbs.db".toList) (hs : HoldsDirs fs data [sub])
    (hc : sub.getLast? = some c) (hc1 : c ≠ '/') (hc2 : c ≠ '\\') (hc3 : c ≠ '.')
    (hlen : (data ++ sub).length + 1 < 2 ^ 63) (ha : Absent "image_".toList (data ++ sub ++ ['/']))
    (hl : l.Pairwise (· < ·)) (hne : l ≠ []) (hw : ∀ n ∈ l, n < 10 ^ 4)
    (hg : Holds fs (data ++ sub) (l.map (fileName "image_" 4 suf))) :
    ∃ p, parsePets fs data = some p ∧
      ∀ k, p.gt k = if k ∈ l then some (data ++ sub ++ ['/'] ++ fileName "image_" 4 suf k) else none := by
  have e1 : getFilesFromDir fs data = [data ++ video] := by
    rw [files_sorted hv, slashed_add hd]
    · rfl
    · rw [List.mem_singleton]; exact fun h => hvt h.symm
    · simp
  have e2 : getSubDirsFromDir fs data = [data ++ sub] := by
    rw [subs_holds hs, slashed_add hd]
    exact sort_unique (List.Perm.refl _) (by simp)
  have e3 : getFilesFromDir fs (data ++ sub) = l.map fun n => data ++ sub ++ ['/'] ++ fileName "image_" 4 suf n := by
    rw [number_order_partial fs _ "image_" suf 4 l hl hw ?_ hg, add_name hc hc1 hc2 hc3]
    intro n _ e
    have := congrArg List.head? e
    unfold fileName at this
    simp at this
  have hnd : l.Nodup := hl.imp fun h => Nat.ne_of_lt h
  obtain ⟨m, h1, h2⟩ := pets_loop (data ++ sub ++ ['/']) suf l 0 [] ⟨_, rfl⟩ ha
    (by rw [List.length_append, List.length_singleton]; omega) hw hnd
  refine ⟨⟨[], l.map fun n => data ++ sub ++ ['/'] ++ fileName "image_" 4 suf n, m⟩, ?_, fun k => ?_⟩
  · unfold parsePets
    rw [e1, e2]
    dsimp only
    rw [e3, if_neg (by rw [List.length_map]; exact fun h => hne (List.length_eq_zero_iff.1 h)), h1]
  · unfold Parsed.gt
    dsimp only
    rw [h2]
    by_cases hk : k ∈ l
    · rw [if_pos hk, if_pos hk]
      dsimp only
      rw [Nat.zero_add, List.getElem?_map, List.getElem?_eq_getElem (List.idxOf_lt_length_of_mem hk), List.getElem_idxOf]
      rfl
    · rw [if_neg hk, if_neg hk]
      rfl

/-- Non-vacuity: a video with two ground truth files. -/
example :
    let fs := mkFS [("p/", [("cam1.avi", .reg), ("gt", .dir), (".", .dir), ("..", .dir)]),
      ("p/gt", [("image_0700.png", .reg), ("image_0034.png", .reg)])]
    Holds fs "p/".toList ["cam1.avi".toList] ∧ HoldsDirs fs "p/".toList ["gt".toList] ∧
    Absent "image_".toList ("p/".toList ++ "gt".toList ++ ['/']) ∧
    Holds fs ("p/".toList ++ "gt".toList) ([34, 700].map (fileName "image_" 4 ".png")) := by
  refine ⟨⟨_, rfl, by decide +kernel⟩, ⟨_, rfl, by decide +kernel⟩, ?_, ⟨_, rfl, by decide +kernel⟩⟩
  rw [← find_none_iff]; decide +kernel

/-- **C193 (refuted).** Frame 10000's ground truth replaces that of frame 1000 and is not served for its own frame;
below a directory named `image_gt`, no frame has its ground truth; and a file without the prefix is taken for one. -/
theorem pets_refuted :
    (∃ p, parsePets (mkFS [("p/", [("c.avi", .reg), ("gt", .dir)]),
        ("p/gt", [("image_1000.png", .reg), ("image_10000.png", .reg)])]) "p/".toList = some p ∧
      p.gt 1000 = some "p/gt/image_10000.png".toList ∧ p.gt 10000 = none) ∧
    (∃ p, parsePets (mkFS [("p/", [("c.avi", .reg), ("image_gt", .dir)]),
        ("p/image_gt", [("image_1000.png", .reg), ("image_1001.png", .reg)])]) "p/".toList = some p ∧
      p.gt 1000 = none ∧ p.gt 1001 = none ∧ p.gt 0 = some "p/image_gt/image_1001.png".toList) ∧
    (∃ p, parsePets (mkFS [("p/", [("c.avi", .reg), ("gt", .dir)]),
        ("p/gt", [("notes.txt", .reg)])]) "p/".toList = some p ∧ p.gt 0 = some "p/gt/notes.txt".toList) ∧
    (∃ p, parsePets (mkFS [("p/", [("c.avi", .reg), ("gt", .dir)]),
        ("p/gt", [("7-old.png", .reg)])]) "p/".toList = some p ∧ p.gt 7 = some "p/gt/7-old.png".toList) := by
  refine ⟨⟨_, rfl, ?_⟩, ⟨_, rfl, ?_⟩, ⟨_, rfl, ?_⟩, ⟨_, rfl, ?_⟩⟩ <;> decide +kernel

end Litiv.DirList
