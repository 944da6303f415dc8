import Verif.Lemmas.Subset

/-!
# C194–C197: frame subsets, temporal windows, ground truth tables and disparity ranges
-/

namespace Litiv.Subset

open DirList (Slashed)

/-! ## C194 the subset file -/

/-- **C194.** A file of comments and frame numbers yields the set of its numbers and the set of the frames within the
window of one of them, both in increasing order. -/
theorem subset_file (lim w : Nat) (ls : List Line) (hlim : lim ≤ 2 ^ 31) (h1 : ∀ l ∈ ls, OneLine l)
    (hn : ∀ n ∈ numbers ls, n < lim) (hne : numbers ls ≠ []) :
    ∃ real sub, readSubset lim w (fileText ls) = some (real, sub) ∧ real.Pairwise (· < ·) ∧ sub.Pairwise (· < ·) ∧
      (∀ i, i ∈ real ↔ i ∈ numbers ls) ∧ (∀ i, i ∈ sub ↔ i < lim ∧ ∃ n ∈ numbers ls, i ≤ n + w ∧ n ≤ i + w) := by
  obtain ⟨r, h, hr, hm⟩ := read_subset lim w ls hlim h1 hn hne
  exact ⟨r, _, h, hr, window_sorted _ _ _, hm, fun i => window_mem_iff _ _ _ _⟩

example : (∀ l ∈ [Line.comment " frames".toList, .number 7, .number 3], OneLine l) ∧
    numbers [Line.comment " frames".toList, .number 7, .number 3] = [7, 3] ∧
    String.ofList (fileText [Line.comment " frames".toList, .number 7, .number 3]) = "# frames\n7\n3\n" ∧
    readSubset 9 1 "# frames\n7\n3\n".toList = some ([3, 7], [2, 3, 4, 6, 7, 8]) := by
  refine ⟨?_, by decide, by decide, by decide +kernel⟩
  intro l hl
  fin_cases hl
  · change '\n' ∉ " frames".toList
    decide
  · trivial
  · trivial

/-- **C194.** A file which lists a frame that does not exist is refused. -/
theorem subset_rejects (lim w : Nat) (ls : List Line) (n : Nat) (h1 : ∀ l ∈ ls, OneLine l) (h : Line.number n ∈ ls)
    (hn : lim ≤ n) : readSubset lim w (fileText ls) = none := by
  obtain ⟨as, bs, rfl⟩ := List.append_of_mem h
  unfold readSubset
  rw [split_file _ h1, List.map_append, List.map_cons, subset_stop lim w _ _ (Line.number n).text (number_head n)]
  intro c hc
  have hd := toDigits_digit n
  by_cases hb : n < 2 ^ 31
  · change stoi (Nat.toDigits 10 n) = some c at hc
    rw [stoi_toDigits n hb, Option.some.injEq] at hc
    omega
  · exfalso
    change stoi (Nat.toDigits 10 n) = some c at hc
    rw [stoi_big _ Nat.toDigits_ne_nil hd (by rw [Packets.val_toDigits]; omega)] at hc
    simp at hc

theorem split_files (ls : List Line) (h : ∀ l ∈ ls, OneLine l) (x : List Char) :
    Seq.split '\n' (fileText ls ++ x) = ls.map Line.text ++ Seq.split '\n' x := by
  induction ls with
  | nil => rfl
  | cons l ls ih =>
    rw [fileText, List.append_assoc, List.cons_append, split_line _ _ (line_noNewline l (h l List.mem_cons_self)),
      ih fun m hm => h m (List.mem_cons_of_mem _ hm)]
    rfl

/-- **C194.** A file with a negative number among its lines is refused. -/
theorem subset_negative (lim w : Nat) (as bs : List Line) (n : Nat) (h1 : ∀ l ∈ as, OneLine l) (hn : 0 < n) :
    readSubset lim w (fileText as ++ '-' :: Nat.toDigits 10 n ++ '\n' :: fileText bs) = none := by
  have hm : '\n' ∉ '-' :: Nat.toDigits 10 n := by
    intro h
    rcases List.mem_cons.1 h with h | h
    · exact absurd h (by decide)
    · exact absurd (toDigits_digit n _ h) (by decide)
  unfold readSubset
  rw [List.append_assoc, split_files as h1, split_line _ _ hm, subset_stop lim w _ _ ('-' :: Nat.toDigits 10 n) (by simp)]
  intro c hc
  have hd : DirList.digits 0 (Nat.toDigits 10 n) = n := by
    rw [DirList.digits_append _ _ (toDigits_digit n)]
    exact Packets.val_toDigits n
  obtain ⟨x, r, hx⟩ := List.exists_cons_of_ne_nil (Nat.toDigits_ne_nil (b := 10) (n := n))
  have hxd : x.isDigit = true := toDigits_digit n x (by rw [hx]; exact List.mem_cons_self)
  rw [hx] at hc hd
  unfold stoi at hc
  have e : ('-' :: x :: r).dropWhile DirList.isSpace = '-' :: x :: r := by
    rw [List.dropWhile_cons, if_neg (by decide)]
  rw [e] at hc
  simp only [hxd, hd, if_true] at hc
  split at hc
  · have := Option.some.inj hc; omega
  · simp at hc

example : readSubset 20 1 ("3\n-4\n7\n".toList) = none := by decide +kernel

example : readSubset 9 1 (fileText [.number 3, .number 9]) = none := by decide +kernel

/-- **C194, blank lines.** Any blank line, wherever it stands, makes the file unreadable: `std::stoi` throws on it. -/
theorem subset_blank_refuted (lim w : Nat) (before after : List Line) (h1 : ∀ l ∈ before, OneLine l) :
    readSubset lim w (fileText before ++ '\n' :: fileText after) = none := by
  have e : Seq.split '\n' (fileText before ++ '\n' :: fileText after)
      = before.map Line.text ++ [] :: Seq.split '\n' (fileText after) := by
    induction before with
    | nil => exact split_line [] _ (by simp)
    | cons l ls ih =>
      rw [fileText, List.append_assoc, List.cons_append, split_line _ _ (line_noNewline l (h1 l List.mem_cons_self)),
        ih fun m hm => h1 m (List.mem_cons_of_mem _ hm)]
      rfl
  unfold readSubset
  rw [e, subset_stop lim w _ _ [] (by simp) (by intro c hc; simp [stoi] at hc)]

example : readSubset 9 1 "3\n\n".toList = none := by decide +kernel

/-! ## Temporal breaks -/

theorem breaks (m : Mode) (F : List Nat) (k : Nat) (hF : F ≠ []) :
    (m.load = true → breakVap m F k = some (decide (Starts F m.w k)) ∧ breakLitiv m F k = some (decide (Starts F m.w k))) := by
  intro hl
  unfold breakVap breakLitiv Starts
  have he : F.isEmpty = false := by cases F with
    | nil => exact absurd rfl hF
    | cons a F => rfl
  by_cases h0 : k = 0
  · rw [if_pos h0, if_pos h0]; simp [h0]
  · rw [if_neg h0, if_neg h0, hl, he]
    simp only [Bool.not_true, Bool.false_and, Bool.false_eq_true, if_false]
    by_cases h1 : m.w = 0 ∨ k ≥ F.length
    · rw [if_pos h1]
      have : (k = 0 ∨ m.w = 0 ∨ F.length ≤ k ∨ F.getD (k - 1) 0 + 1 ≠ F.getD k 0) := by tauto
      simp only [this, decide_true, and_self]
    · rw [if_neg h1]
      have : (k = 0 ∨ m.w = 0 ∨ F.length ≤ k ∨ F.getD (k - 1) 0 + 1 ≠ F.getD k 0) ↔ F.getD (k - 1) 0 + 1 ≠ F.getD k 0 := by tauto
      simp only [this]
      refine ⟨?_, ?_⟩ <;> congr 1 <;> (rw [Bool.eq_iff_iff, bne_iff_ne, decide_eq_true_eq])

/-! ## C195 VAP sequences -/

section Vap

variable (ls : List Line) (w N : Nat) (dr dt gr gt : List Char) (er et egr egt : String)

/-- **C195, subsets.** When the frame subset is loaded, the packets are the frames within the window of a listed frame, in
order, exactly the listed frames have ground truth, that of the same frame, and the temporal breaks are where
the sequence jumps. Partial: windows must end before the end of the sequence (`vap_end_refuted`) and every frame must
have a ground truth file (`vap_sparse_refuted`). -/
theorem vap_load_partial (ev : Bool) (h1 : ∀ l ∈ ls, OneLine l) (hne : numbers ls ≠ []) (hN : N ≤ 2500)
    (hn : ∀ n ∈ numbers ls, n + w < N) (hdr : Slashed dr) (hgr : Slashed gr) (her : Ext er) (hegr : Ext egr) :
    ∃ p, parseVap ⟨true, ev, w⟩ (some (fileText ls)) ((List.range N).map (frame dr er)) ((List.range N).map (frame dt et))
        ((List.range N).map (frame gr egr)) ((List.range N).map (frame gt egt)) = some p ∧
      p.inputs = (windowFrames (numbers ls) w N).map (fun i => (frame dr er i, frame dt et i)) ∧
      (∀ k, p.gt k = ((windowFrames (numbers ls) w N)[k]?).bind fun f =>
        if f ∈ numbers ls then some (frame gr egr f, frame gt egt f) else none) ∧
      ∀ k, breakVap ⟨true, ev, w⟩ p.sub k = some (decide (Starts (windowFrames (numbers ls) w N) w k)) := by
  obtain ⟨r, h0, hr, hrm⟩ := read_subset 2500 w ls (by norm_num) h1 (fun n h => by have := hn n h; omega) hne
  rw [window_limit (numbers ls) w N 2500 hn hN] at h0
  set F := windowFrames (numbers ls) w N with hF
  have hFN : ∀ i ∈ F, i < N := fun i hi => ((window_mem_iff _ _ _ _).1 hi).1
  have hrF : ∀ i ∈ r, i ∈ F := fun i hi =>
    (window_mem_iff _ _ _ _).2 ⟨by have := hn i ((hrm i).1 hi); omega, i, (hrm i).1 hi, by omega, by omega⟩
  obtain ⟨n, hn'⟩ := List.exists_mem_of_ne_nil _ hne
  have hnr := (hrm n).2 hn'
  have hrne : r ≠ [] := List.ne_nil_of_mem hnr
  have hFne : F ≠ [] := List.ne_nil_of_mem (hrF n hnr)
  have hN0 : 0 < N := by have := hn n hn'; omega
  have hemp : ∀ f : Nat → List Char, ((List.range N).map f).isEmpty = false := by
    intro f; rw [List.isEmpty_eq_false_iff]; intro h; rw [List.map_eq_nil_iff, List.range_eq_nil] at h; omega
  obtain ⟨m, hm, hm'⟩ := vap_table F gr egr hgr hegr (fun i hi => by have := hFN i hi; omega)
    ((window_sorted _ _ _).imp fun h => Nat.ne_of_lt h) r hrF (hr.imp fun h => Nat.ne_of_lt h) 0 []
  have hnames : (F.map (frame dr er)).map pathName = F.map (DirList.num 5) := by
    rw [List.map_map]
    exact List.map_congr_left fun i _ => frame_name hdr her i
  refine ⟨⟨(F.map (frame dr er)).zip (F.map (frame dt et)), (r.map (frame gr egr)).zip (r.map (frame gt egt)), m, F⟩, ?_, ?_, ?_, ?_⟩
  · simp only [parseVap, Bool.true_or, if_true, h0, hemp, Bool.or_self, Bool.false_eq_true, if_false,
      clean_range F N _ hFne hFN, clean_range r N _ hrne (fun i hi => hFN i (hrF i hi)), hnames, hm,
      List.length_map, ne_eq, not_true_eq_false, Option.bind_eq_bind, Option.bind_some, Option.pure_def, pure_bind]
  · exact zip_maps F _ _
  · intro k
    rw [vap_rows F r m _ _ _ _ hm']
    congr 1
    funext f
    simp only [hrm]
  · intro k
    exact (breaks ⟨true, ev, w⟩ F k hFne rfl).1

/-- **C195, whole sequences.** Without subsets, all frames are packets, each with the ground truth of the same frame,
and no packet but the first is a temporal break. -/
theorem vap_plain (hN : 0 < N) (hN5 : N ≤ 10 ^ 5) (text : Option (List Char)) (hdr : Slashed dr) (hgr : Slashed gr)
    (her : Ext er) (hegr : Ext egr) :
    ∃ p, parseVap ⟨false, false, w⟩ text ((List.range N).map (frame dr er)) ((List.range N).map (frame dt et))
        ((List.range N).map (frame gr egr)) ((List.range N).map (frame gt egt)) = some p ∧
      p.inputs = (List.range N).map (fun i => (frame dr er i, frame dt et i)) ∧
      (∀ k, p.gt k = if k < N then some (frame gr egr k, frame gt egt k) else none) ∧
      ∀ k, breakVap ⟨false, false, w⟩ p.sub k = some (decide (k = 0)) := by
  have hemp : ∀ f : Nat → List Char, ((List.range N).map f).isEmpty = false := by
    intro f; rw [List.isEmpty_eq_false_iff]; intro h; rw [List.map_eq_nil_iff, List.range_eq_nil] at h; omega
  obtain ⟨m, hm, hm'⟩ := vap_table (List.range N) gr egr hgr hegr (fun i hi => by rw [List.mem_range] at hi; omega)
    List.nodup_range (List.range N) (fun _ h => h) List.nodup_range 0 []
  have hnames : ((List.range N).map (frame dr er)).map pathName = (List.range N).map (DirList.num 5) := by
    rw [List.map_map]
    exact List.map_congr_left fun i _ => frame_name hdr her i
  refine ⟨⟨((List.range N).map (frame dr er)).zip ((List.range N).map (frame dt et)),
    ((List.range N).map (frame gr egr)).zip ((List.range N).map (frame gt egt)), m, []⟩, ?_, ?_, ?_, ?_⟩
  · simp only [parseVap, Bool.or_self, Bool.false_eq_true, if_false, hemp, hnames, hm,
      List.length_map, ne_eq, not_true_eq_false, Option.bind_eq_bind, Option.bind_some, Option.pure_def, pure_bind]
  · exact zip_maps _ _ _
  · intro k
    rw [vap_rows (List.range N) (List.range N) m _ _ _ _ hm']
    by_cases h : k < N
    · rw [List.getElem?_range h, Option.bind_some, if_pos (List.mem_range.2 h), if_pos h]
    · rw [List.getElem?_eq_none (by rw [List.length_range]; omega), if_neg h]; rfl
  · intro k
    unfold breakVap
    by_cases h : k = 0 <;> simp [h]

/-- **C195, evaluation of a subset.** When the subset is only evaluated, all frames are packets and exactly the listed
ones have ground truth. Partial: the temporal breaks are wrong (`vap_break_refuted`), and every frame must have a ground
truth file. -/
theorem vap_eval_partial (h1 : ∀ l ∈ ls, OneLine l) (hne : numbers ls ≠ []) (hN5 : N ≤ 10 ^ 5)
    (hn : ∀ n ∈ numbers ls, n < N ∧ n < 2500) (hdr : Slashed dr) (hgr : Slashed gr) (her : Ext er) (hegr : Ext egr) :
    ∃ p, parseVap ⟨false, true, w⟩ (some (fileText ls)) ((List.range N).map (frame dr er)) ((List.range N).map (frame dt et))
        ((List.range N).map (frame gr egr)) ((List.range N).map (frame gt egt)) = some p ∧
      p.inputs = (List.range N).map (fun i => (frame dr er i, frame dt et i)) ∧
      ∀ k, p.gt k = if k ∈ numbers ls then some (frame gr egr k, frame gt egt k) else none := by
  obtain ⟨r, h0, hr, hrm⟩ := read_subset 2500 w ls (by norm_num) h1 (fun n h => (hn n h).2) hne
  obtain ⟨n, hn'⟩ := List.exists_mem_of_ne_nil _ hne
  have hrne : r ≠ [] := List.ne_nil_of_mem ((hrm n).2 hn')
  have hN0 : 0 < N := by have := hn n hn'; omega
  have hrN : ∀ i ∈ r, i < N := fun i hi => (hn i ((hrm i).1 hi)).1
  have hemp : ∀ f : Nat → List Char, ((List.range N).map f).isEmpty = false := by
    intro f; rw [List.isEmpty_eq_false_iff]; intro h; rw [List.map_eq_nil_iff, List.range_eq_nil] at h; omega
  obtain ⟨m, hm, hm'⟩ := vap_table (List.range N) gr egr hgr hegr (fun i hi => by rw [List.mem_range] at hi; omega)
    List.nodup_range r (fun i h => List.mem_range.2 (hrN i h)) (hr.imp fun h => Nat.ne_of_lt h) 0 []
  have hnames : ((List.range N).map (frame dr er)).map pathName = (List.range N).map (DirList.num 5) := by
    rw [List.map_map]
    exact List.map_congr_left fun i _ => frame_name hdr her i
  refine ⟨⟨((List.range N).map (frame dr er)).zip ((List.range N).map (frame dt et)),
    (r.map (frame gr egr)).zip (r.map (frame gt egt)), m, windowFrames (numbers ls) w 2500⟩, ?_, ?_, ?_⟩
  · simp only [parseVap, Bool.or_self, Bool.or_true, if_true, h0, Bool.false_eq_true, if_false, hemp, hnames, hm,
      clean_range r N _ hrne hrN,
      List.length_map, ne_eq, not_true_eq_false, Option.bind_eq_bind, Option.bind_some, Option.pure_def, pure_bind]
  · exact zip_maps _ _ _
  · intro k
    rw [vap_rows (List.range N) r m _ _ _ _ hm']
    simp only [hrm]
    by_cases h : k < N
    · rw [List.getElem?_range h, Option.bind_some]
    · rw [List.getElem?_eq_none (by rw [List.length_range]; omega), if_neg fun hk => h (hn k hk).1]; rfl

end Vap

example : Slashed "v/rgb/".toList ∧ Ext ".jpg" ∧ (∀ n ∈ numbers [Line.number 3, .number 7], n + 1 < 9) ∧
    windowFrames (numbers [Line.number 3, .number 7]) 1 9 = [2, 3, 4, 6, 7, 8] ∧
    String.ofList (frame "v/rgb/".toList ".jpg" 42) = "v/rgb/00042.jpg" :=
  ⟨⟨"v/rgb".toList, by decide⟩, ⟨"jpg".toList, by decide⟩, by decide, by decide, by decide⟩

/-- **C195, windows at the end.** A listed frame whose window reaches past the last frame makes the sequence
unreadable: windows are cut at frame 2500, not at the end of the sequence. -/
theorem vap_end_refuted :
    parseVap ⟨true, true, 1⟩ (some (fileText [.number 3])) ((List.range 4).map (frame "r/".toList ".jpg"))
      ((List.range 4).map (frame "t/".toList ".jpg")) ((List.range 4).map (frame "g/".toList ".png"))
      ((List.range 4).map (frame "h/".toList ".png")) = none := by decide +kernel

/-- **C195, temporal breaks of whole sequences.** With an evaluated subset (frame 5, window 1) of a sequence loaded as a
whole, packets 3, 4, … are said to be temporal breaks although the sequence is contiguous. -/
theorem vap_break_refuted :
    ∃ p, parseVap ⟨false, true, 1⟩ (some (fileText [.number 5])) ((List.range 9).map (frame "r/".toList ".jpg"))
      ((List.range 9).map (frame "t/".toList ".jpg")) ((List.range 9).map (frame "g/".toList ".png"))
      ((List.range 9).map (frame "h/".toList ".png")) = some p ∧
      p.inputs.length = 9 ∧ breakVap ⟨false, true, 1⟩ p.sub 2 = some false ∧
      ∀ k, 3 ≤ k → breakVap ⟨false, true, 1⟩ p.sub k = some true := by
  refine ⟨⟨(List.range 9).map fun i => (frame "r/".toList ".jpg" i, frame "t/".toList ".jpg" i),
    [("g/00005.png".toList, "h/00005.png".toList)], [(5, 0)], [4, 5, 6]⟩, by decide +kernel, by decide, by decide, fun k hk => ?_⟩
  unfold breakVap
  rw [if_neg (by omega)]
  simp
  omega

/-- **C195, ground truth of some frames.** When only some frames have ground truth, the listed numbers are taken as
positions among the ground truth files: with files for frames 0, 2 and 4 and frame 1 listed, frame 2 is evaluated. -/
theorem vap_sparse_refuted :
    ∃ p, parseVap ⟨false, true, 0⟩ (some (fileText [.number 1])) ((List.range 5).map (frame "r/".toList ".jpg"))
      ((List.range 5).map (frame "t/".toList ".jpg")) ([0, 2, 4].map (frame "g/".toList ".png"))
      ([0, 2, 4].map (frame "h/".toList ".png")) = some p ∧
      p.gt 1 = none ∧ p.gt 2 = some ("g/00002.png".toList, "h/00002.png".toList) := by
  refine ⟨⟨(List.range 5).map fun i => (frame "r/".toList ".jpg" i, frame "t/".toList ".jpg" i),
    [("g/00002.png".toList, "h/00002.png".toList)], [(2, 0)], [1]⟩, by decide +kernel, by decide, by decide⟩

/-! ## C196 LITIV 2018 sequences -/

section Litiv

variable (N : Nat) (dr dl gr gl : List Char) (er el egr egl : String) (GV GW : List Nat)

theorem last_below (G : List Nat) (d : List Char) (ext : String) (hd : Slashed d) (he : Ext ext) (hN5 : N ≤ 10 ^ 5)
    (hG : ∀ g ∈ G, g < N) : lastBelow (G.map (frame d ext)) N = true := by
  unfold lastBelow
  rw [List.getLast?_map]
  cases h : G.getLast? with
  | none => rfl
  | some g =>
    have := hG g (List.mem_of_getLast? h)
    dsimp only [Option.map_some]
    rw [frame_index hd he g (by omega)]
    dsimp only
    simpa using this

theorem length_below (G : List Nat) (hs : G.Pairwise (· < ·)) (F : List Nat) (h : ∀ g ∈ G, g ∈ F) : G.length ≤ F.length :=
  (List.subperm_of_subset (hs.imp fun h => Nat.ne_of_lt h) h).length_le

theorem litiv_core (m : Mode) (text : Option (List Char)) (real F : List Nat) (hsub : litivSubset m text N = some (real, F))
    (hN5 : N ≤ 10 ^ 5) (hFs : F.Pairwise (· < ·)) (hFN : ∀ i ∈ F, i < N) (hrs : real.Pairwise (· < ·))
    (hrF : ∀ i ∈ real, i ∈ F) (hr : real ≠ []) (hall : m.load = false → F = List.range N)
    (hreal : m.load = false → m.evalOnly = false → real = List.range N)
    (hdr : Slashed dr) (hdl : Slashed dl) (hgr : Slashed gr) (hgl : Slashed gl) (hnr : NoNumber gr) (hnl : NoNumber gl)
    (her : Ext er) (hel : Ext el) (hegr : Ext egr) (hegl : Ext egl)
    (hGR : GV.Pairwise (· < ·)) (hGL : GW.Pairwise (· < ·)) (hGRN : ∀ g ∈ GV, g < N) (hGLN : ∀ g ∈ GW, g < N) :
    ∃ p, parseLitiv m text ((List.range N).map (frame dr er)) ((List.range N).map (frame dl el))
        (GV.map (frame gr egr)) (GW.map (frame gl egl)) = some p ∧
      p.inputs = F.map (fun i => (frame dr er i, frame dl el i)) ∧ p.sub = F ∧
      ∀ k, p.gt k = (F[k]?).bind (truth gr gl egr egl GV GW (fun f => f ∈ real)) := by
  obtain ⟨n, hn⟩ := List.exists_mem_of_ne_nil _ hr
  have hFne : F ≠ [] := List.ne_nil_of_mem (hrF n hn)
  have hN0 : 0 < N := by have := hFN n (hrF n hn); omega
  have hemp : ∀ f : Nat → List Char, ((List.range N).map f).isEmpty = false := by
    intro f; rw [List.isEmpty_eq_false_iff]; intro h; rw [List.map_eq_nil_iff, List.range_eq_nil] at h; omega
  have hGRl : GV.length ≤ N := by
    have := length_below GV hGR (List.range N) fun g hg => List.mem_range.2 (hGRN g hg)
    rwa [List.length_range] at this
  have hGLl : GW.length ≤ N := by
    have := length_below GW hGL (List.range N) fun g hg => List.mem_range.2 (hGLN g hg)
    rwa [List.length_range] at this
  have hget : ∀ (d : List Char) (e : String) (i : Nat), i < N → ((List.range N).map (frame d e)).getD i [] = frame d e i := by
    intro d e i hi
    rw [List.getD_eq_getElem?_getD, List.getElem?_map, List.getElem?_range hi]
    rfl
  have hidx : ((List.range N).any fun i => pathIndex (((List.range N).map (frame dr er)).getD i []) != some i ||
      pathIndex (((List.range N).map (frame dl el)).getD i []) != some i) = false := by
    rw [List.any_eq_false]
    intro i hi
    rw [List.mem_range] at hi
    rw [hget dr er i hi, hget dl el i hi, frame_index hdr her i (by omega), frame_index hdl hel i (by omega)]
    simp
  have hlen := length_below real hrs F hrF
  have hF5 : ∀ f ∈ F, f < 10 ^ 5 := fun f hf => lt_of_lt_of_le (hFN f hf) hN5
  have hlast1 := last_below N GV gr egr hgr hegr hN5 hGRN
  have hlast2 := last_below N GW gl egl hgl hegl hN5 hGLN
  -- the ground truth lists after cleaning
  have key : ∀ A B : List (List Char),
      (∀ f ∈ F, findNumber A f = if f ∈ real ∧ f ∈ GV then some (frame gr egr f) else none) →
      (∀ f ∈ F, findNumber B f = if f ∈ real ∧ f ∈ GW then some (frame gl egl f) else none) →
      ∀ (inp : List (List Char × List Char)) (k : Nat),
        Parsed.gt ⟨inp, (litivTable A B F 0 ([], [])).1, (litivTable A B F 0 ([], [])).2, F⟩ k
          = (F[k]?).bind (truth gr gl egr egl GV GW (fun f => f ∈ real)) := by
    intro A B hA hB inp k
    have h := litiv_table A B F 0 ([], []) (by intro k r h; simp [DirList.Lut.get] at h) k
    rw [if_neg (by omega), Nat.sub_zero] at h
    change look (litivTable A B F 0 ([], [])) k = _
    rw [h]
    cases hk : F[k]? with
    | none => rfl
    | some f =>
      rw [Option.bind_some, Option.bind_some]
      have hf : f ∈ F := List.mem_of_getElem? hk
      unfold rowOf truth
      rw [hA f hf, hB f hf]
      by_cases h0 : f ∈ real <;> by_cases h1 : f ∈ GV <;> by_cases h2 : f ∈ GW <;> simp [h0, h1, h2]
  by_cases hl : m.load = true
  · refine ⟨_, ?_, ?_, ?_, key (real.map fun j => (findNumber (GV.map (frame gr egr)) j).getD [])
      (real.map fun j => (findNumber (GW.map (frame gl egl)) j).getD [])
      (fun f hf => find_cleaned real GV gr egr hgr hnr hegr (fun g hg => by have := hGRN g hg; omega)
        (fun g hg => hF5 g (hrF g hg)) f (hF5 f hf))
      (fun f hf => find_cleaned real GW gl egl hgl hnl hegl (fun g hg => by have := hGLN g hg; omega)
        (fun g hg => hF5 g (hrF g hg)) f (hF5 f hf))
      ((F.map (frame dr er)).zip (F.map (frame dl el)))⟩
    · have hre : real.isEmpty = false := by rw [List.isEmpty_eq_false_iff]; exact hr
      simp only [parseLitiv, hemp, List.length_map, List.length_range, hidx, hlast1, hlast2, hsub, hl,
        cleanAll_range F N dr er hdr her hN5 hFne hFN, cleanAll_range F N dl el hdl hel hN5 hFne hFN, cleanSome, hre,
        Bool.true_or, if_true, Bool.false_eq_true, if_false, Bool.and_self, Bool.not_true, ne_eq, not_true_eq_false,
        Bool.or_self, gt_iff_lt, decide_false, decide_true, not_lt.2 hGRl, not_lt.2 hGLl, not_lt.2 hlen,
        Option.bind_eq_bind, Option.bind_some, Option.pure_def, pure_bind]
    · exact zip_maps F _ _
    · rfl
  · rw [Bool.not_eq_true] at hl
    have hFr := hall hl
    by_cases he : m.evalOnly = true
    · refine ⟨_, ?_, ?_, ?_, key (real.map fun j => (findNumber (GV.map (frame gr egr)) j).getD [])
        (real.map fun j => (findNumber (GW.map (frame gl egl)) j).getD [])
        (fun f hf => find_cleaned real GV gr egr hgr hnr hegr (fun g hg => by have := hGRN g hg; omega)
          (fun g hg => hF5 g (hrF g hg)) f (hF5 f hf))
        (fun f hf => find_cleaned real GW gl egl hgl hnl hegl (fun g hg => by have := hGLN g hg; omega)
          (fun g hg => hF5 g (hrF g hg)) f (hF5 f hf))
        (((List.range N).map (frame dr er)).zip ((List.range N).map (frame dl el)))⟩
      · have hre : real.isEmpty = false := by rw [List.isEmpty_eq_false_iff]; exact hr
        have hFl : F.length = N := by rw [hFr, List.length_range]
        rw [hFl] at hlen
        simp only [parseLitiv, hemp, List.length_map, List.length_range, hidx, hlast1, hlast2, hsub, hl, he, hFl,
          cleanSome, hre,
          Bool.or_true, if_true, Bool.false_eq_true, if_false, Bool.and_self, Bool.not_true, ne_eq, not_true_eq_false,
          Bool.or_self, gt_iff_lt, decide_false, decide_true, not_lt.2 hGRl, not_lt.2 hGLl, not_lt.2 hlen,
          Option.bind_eq_bind, Option.bind_some, Option.pure_def, pure_bind]
      · rw [hFr]; exact zip_maps _ _ _
      · rfl
    · rw [Bool.not_eq_true] at he
      have hrr := hreal hl he
      refine ⟨_, ?_, ?_, ?_, key (GV.map (frame gr egr)) (GW.map (frame gl egl)) (fun f hf => ?_) (fun f hf => ?_)
        (((List.range N).map (frame dr er)).zip ((List.range N).map (frame dl el)))⟩
      · have hFl : F.length = N := by rw [hFr, List.length_range]
        simp only [parseLitiv, hemp, List.length_map, List.length_range, hidx, hlast1, hlast2, hsub, hl, he, hFl,
          Bool.or_true, if_true, Bool.false_eq_true, if_false, Bool.and_self, Bool.not_true, ne_eq, not_true_eq_false,
          Bool.or_self, gt_iff_lt, decide_false, decide_true, not_lt.2 hGRl, not_lt.2 hGLl,
          Option.bind_eq_bind, Option.bind_some, Option.pure_def, pure_bind]
      · rw [hFr]; exact zip_maps _ _ _
      · rfl
      · rw [find_number GV gr egr hgr hnr hegr (fun g hg => by have := hGRN g hg; omega) f (hF5 f hf), hrr]
        simp only [List.mem_range.2 (hFN f hf), true_and]
      · rw [find_number GW gl egl hgl hnl hegl (fun g hg => by have := hGLN g hg; omega) f (hF5 f hf), hrr]
        simp only [List.mem_range.2 (hFN f hf), true_and]

variable (hN5 : N ≤ 10 ^ 5) (hdr : Slashed dr) (hdl : Slashed dl) (hgr : Slashed gr) (hgl : Slashed gl)
  (hnr : NoNumber gr) (hnl : NoNumber gl) (her : Ext er) (hel : Ext el) (hegr : Ext egr) (hegl : Ext egl)
  (hGR : GV.Pairwise (· < ·)) (hGL : GW.Pairwise (· < ·)) (hGRN : ∀ g ∈ GV, g < N) (hGLN : ∀ g ∈ GW, g < N)

include hN5 hdr hdl hgr hgl hnr hnl her hel hegr hegl hGR hGL hGRN hGLN

/-- **C196, subsets.** When the frame subset is loaded, the packets are the frames within the window of a listed frame, in
order; the listed frames that have ground truth files are given theirs, all other packets none; temporal breaks are
where the sequence jumps. Partial: the path of the ground truth directories must not contain five digits in a row
(`litiv_path_refuted`). -/
theorem litiv_load_partial (ls : List Line) (w : Nat) (ev : Bool) (h1 : ∀ l ∈ ls, OneLine l) (hne : numbers ls ≠ [])
    (hn : ∀ n ∈ numbers ls, n < N) :
    ∃ p, parseLitiv ⟨true, ev, w⟩ (some (fileText ls)) ((List.range N).map (frame dr er))
        ((List.range N).map (frame dl el)) (GV.map (frame gr egr)) (GW.map (frame gl egl)) = some p ∧
      p.inputs = (windowFrames (numbers ls) w N).map (fun i => (frame dr er i, frame dl el i)) ∧
      (∀ k, p.gt k = ((windowFrames (numbers ls) w N)[k]?).bind
        (truth gr gl egr egl GV GW (fun f => f ∈ numbers ls))) ∧
      ∀ k, breakLitiv ⟨true, ev, w⟩ p.sub k = some (decide (Starts (windowFrames (numbers ls) w N) w k)) := by
  obtain ⟨r, h0, hr, hrm⟩ := read_subset N w ls (by omega) h1 hn hne
  obtain ⟨n, hn'⟩ := List.exists_mem_of_ne_nil _ hne
  have hrF : ∀ i ∈ r, i ∈ windowFrames (numbers ls) w N := fun i hi =>
    (window_mem_iff _ _ _ _).2 ⟨hn i ((hrm i).1 hi), i, (hrm i).1 hi, by omega, by omega⟩
  have hnr' := (hrm n).2 hn'
  obtain ⟨p, hp, hi, hs, hg⟩ := litiv_core N dr dl gr gl er el egr egl GV GW ⟨true, ev, w⟩ (some (fileText ls)) r
    (windowFrames (numbers ls) w N) (by simp [litivSubset, h0]) hN5 (window_sorted _ _ _)
    (fun i hi => ((window_mem_iff _ _ _ _).1 hi).1) hr hrF (List.ne_nil_of_mem hnr')
    (fun h => Bool.noConfusion h) (fun h => Bool.noConfusion h)
    hdr hdl hgr hgl hnr hnl her hel hegr hegl hGR hGL hGRN hGLN
  refine ⟨p, hp, hi, fun k => ?_, fun k => ?_⟩
  · rw [hg]
    cases (windowFrames (numbers ls) w N)[k]? with
    | none => rfl
    | some f => simp only [Option.bind_some, truth, hrm]
  · rw [hs]
    exact (breaks ⟨true, ev, w⟩ _ k (List.ne_nil_of_mem (hrF n hnr')) rfl).2

/-- **C196, evaluation of a subset.** When the subset is only evaluated, all frames are packets, exactly the listed ones
may have ground truth, and no packet but the first is a temporal break. Partial as above. -/
theorem litiv_eval_partial (ls : List Line) (w : Nat) (h1 : ∀ l ∈ ls, OneLine l) (hne : numbers ls ≠ [])
    (hn : ∀ n ∈ numbers ls, n < N) :
    ∃ p, parseLitiv ⟨false, true, w⟩ (some (fileText ls)) ((List.range N).map (frame dr er))
        ((List.range N).map (frame dl el)) (GV.map (frame gr egr)) (GW.map (frame gl egl)) = some p ∧
      p.inputs = (List.range N).map (fun i => (frame dr er i, frame dl el i)) ∧
      (∀ k, p.gt k = truth gr gl egr egl GV GW (fun f => f ∈ numbers ls) k) ∧
      ∀ k, breakLitiv ⟨false, true, w⟩ p.sub k = some (decide (k = 0)) := by
  obtain ⟨r, h0, hr, hrm⟩ := read_subset N w ls (by omega) h1 hn hne
  obtain ⟨n, hn'⟩ := List.exists_mem_of_ne_nil _ hne
  have hnr' := (hrm n).2 hn'
  obtain ⟨p, hp, hi, hs, hg⟩ := litiv_core N dr dl gr gl er el egr egl GV GW ⟨false, true, w⟩ (some (fileText ls)) r
    (List.range N) (by
      simp only [litivSubset, Bool.false_or, if_true, h0, Bool.false_eq_true, if_false]
      rw [range_insert N _ (window_sorted _ _ _) fun i hi => ((window_mem_iff _ _ _ _).1 hi).1]) hN5 List.pairwise_lt_range
    (fun i hi => List.mem_range.1 hi) hr (fun i hi => List.mem_range.2 (hn i ((hrm i).1 hi))) (List.ne_nil_of_mem hnr')
    (fun _ => rfl) (fun _ h => Bool.noConfusion h)
    hdr hdl hgr hgl hnr hnl her hel hegr hegl hGR hGL hGRN hGLN
  refine ⟨p, hp, hi, fun k => ?_, fun k => ?_⟩
  · rw [hg]
    by_cases h : k < N
    · rw [List.getElem?_range h, Option.bind_some]
      simp only [truth, hrm]
    · rw [List.getElem?_eq_none (by rw [List.length_range]; omega), truth, if_neg fun hk => h (hn k hk.1)]; rfl
  · unfold breakLitiv
    by_cases h : k = 0 <;> simp [h]

/-- **C196, whole sequences.** Partial as above. -/
theorem litiv_plain_partial (hN : 0 < N) (text : Option (List Char)) (w : Nat) :
    ∃ p, parseLitiv ⟨false, false, w⟩ text ((List.range N).map (frame dr er))
        ((List.range N).map (frame dl el)) (GV.map (frame gr egr)) (GW.map (frame gl egl)) = some p ∧
      p.inputs = (List.range N).map (fun i => (frame dr er i, frame dl el i)) ∧
      (∀ k, p.gt k = truth gr gl egr egl GV GW (fun _ => True) k) ∧
      ∀ k, breakLitiv ⟨false, false, w⟩ p.sub k = some (decide (k = 0)) := by
  obtain ⟨p, hp, hi, hs, hg⟩ := litiv_core N dr dl gr gl er el egr egl GV GW ⟨false, false, w⟩ text (List.range N)
    (List.range N) (by
      simp only [litivSubset, Bool.or_self, Bool.false_eq_true, if_false]
      rw [range_insert N [] List.Pairwise.nil (by simp)]) hN5 List.pairwise_lt_range
    (fun i hi => List.mem_range.1 hi) List.pairwise_lt_range (fun i hi => hi)
    (List.ne_nil_of_mem (List.mem_range.2 hN))
    (fun _ => rfl) (fun _ _ => rfl)
    hdr hdl hgr hgl hnr hnl her hel hegr hegl hGR hGL hGRN hGLN
  refine ⟨p, hp, hi, fun k => ?_, fun k => ?_⟩
  · rw [hg]
    by_cases h : k < N
    · rw [List.getElem?_range h, Option.bind_some]
      simp only [truth, List.mem_range, h]
    · rw [List.getElem?_eq_none (by rw [List.length_range]; omega), truth, if_neg]
      · rfl
      · rintro ⟨-, hk | hk⟩
        · exact h (hGRN k hk)
        · exact h (hGLN k hk)
  · unfold breakLitiv
    by_cases h : k = 0 <;> simp [h]

end Litiv

/-- The hypotheses are met by directories without digits. -/
example : NoNumber "v/gt/".toList := by
  intro n _ h
  have hl := DirList.num_length 5 n
  cases hc : DirList.num 5 n with
  | nil => rw [hc] at hl; simp at hl
  | cons c r =>
    have hm : c ∈ DirList.num 5 n := by rw [hc]; simp
    have hd := DirList.num_digit 5 n c hm
    have := h.subset hm
    fin_cases this <;> exact absurd hd (by decide)

/-- **C196, paths with digits.** With a data path that contains `00001`, packet 1 is given the first ground truth file
there is, here that of frame 3, although frame 1 has none. -/
theorem litiv_path_refuted :
    ∃ p, parseLitiv ⟨false, false, 0⟩ none ((List.range 4).map (frame "00001/r/".toList ".jpg"))
      ((List.range 4).map (frame "00001/l/".toList ".jpg")) ([3].map (frame "00001/g/".toList ".png"))
      ([3].map (frame "00001/h/".toList ".png")) = some p ∧
      p.gt 1 = some ("00001/g/00003.png".toList, "00001/h/00003.png".toList) := by
  refine ⟨⟨(List.range 4).map fun i => (frame "00001/r/".toList ".jpg" i, frame "00001/l/".toList ".jpg" i),
    [("00001/g/00003.png".toList, "00001/h/00003.png".toList), ("00001/g/00003.png".toList, "00001/h/00003.png".toList)],
    [(3, 1), (1, 0)], [0, 1, 2, 3]⟩, by decide +kernel, by decide⟩

/-! ## C197 disparity ranges -/

/-- **C197, VAP.** At scale 1, a range from `a` to `b` is reported as 0 to `b - a` with offset `a`, so that every disparity
of the range, shifted by the offset, is within the reported bounds. Partial: other scales (`vap_range_refuted`). -/
theorem vap_range_partial (a b d : Nat) (hab : a < b) (hb : b < 2 ^ 64) (h1 : a ≤ d) (h2 : d ≤ b) :
    rangeVap (some (a, b)) 1 = some ((a : Int), 0, b - a) ∧ 0 ≤ (d : Int) - a ∧ (d : Int) - a ≤ (b - a : Nat) := by
  have hf : ∀ x : Nat, (x : Rat).floor = (x : Int) := fun x => Int.floor_natCast (R := Rat) x
  refine ⟨?_, by omega, by omega⟩
  unfold rangeVap
  dsimp only [Option.getD_some]
  by_cases h : a > 0
  · rw [if_pos h]
    dsimp only
    have e : (b + (2 ^ 64 - a)) % 2 ^ 64 = b - a := by omega
    rw [e, one_mul, one_mul, one_mul, hf, hf, hf]
    simp only [Int.toNat_natCast]
    rw [if_pos (by omega)]
  · rw [if_neg h]
    have : a = 0 := by omega
    subst this
    dsimp only
    rw [one_mul, one_mul, hf, hf]
    simp only [Int.toNat_natCast]
    rw [if_pos (by omega)]
    rfl

example : rangeVap (some (12, 40)) 1 = some (12, 0, 28) := by decide +kernel

/-- **C197, VAP without range file.** Disparities up to 100 are expected. -/
theorem vap_range_default : rangeVap none 1 = some (0, 0, 100) := by decide +kernel

/-- **C197, VAP at half scale.** From 1 to 4: the offset is 0 and the reported maximum 1, but the largest disparity is
2 pixels at that scale. And a minimum above the maximum is not refused: the difference wraps around. -/
theorem vap_range_refuted :
    rangeVap (some (1, 4)) (1 / 2) = some (0, 0, 1) ∧ (1 / 2 * 4 : Rat) - 0 > 1 ∧
    rangeVap (some (150, 100)) 1 = some (150, 0, 2 ^ 64 - 50) := by
  refine ⟨by decide +kernel, by norm_num, by decide +kernel⟩

/-- **C197, LITIV 2018.** At scale 1, for a range from `a` to `b` (of at most 254), whatever the signs: the reported bounds
are 0 and `b - a`, and a pair of points whose disparity is within the range is given a value within the bounds in the
ground truth maps: the disparity counted from `a`, or down from `b` when disparities are flipped. Partial: other
scales (`litiv_range_refuted`). -/
theorem litiv_range_partial (a b d : Int) (hab : a < b) (h254 : b - a ≤ 254) (h1 : a ≤ -d) (h2 : -d ≤ b) :
    ∃ flip off v, rangeLitiv (some (a, b)) 1 = some (flip, off, 0, b - a) ∧ gtDisparity flip off d = some v ∧
      0 ≤ v ∧ v ≤ b - a ∧ v = (if flip then b - -d else -d - a) := by
  have hr : ∀ z : Int, roundAway (1 * (z : Rat)) = z := by
    intro z
    have hf : ∀ x : Int, ((x : Rat) + 1 / 2).floor = x := by
      intro x
      change ⌊((x : Rat) + 1 / 2)⌋ = x
      rw [Int.floor_eq_iff]
      constructor <;> linarith
    unfold roundAway
    rw [one_mul]
    by_cases h : (0 : Rat) ≤ z
    · rw [if_pos h, hf]
    · rw [if_neg h, ← Int.cast_neg, hf, neg_neg]
  unfold rangeLitiv
  dsimp only [Option.getD_some]
  by_cases hs : a.natAbs > b.natAbs
  · rw [if_pos hs]
    dsimp only
    by_cases hz : -b ≠ 0
    · rw [if_pos hz]
      dsimp only
      rw [hr, hr, hr, if_pos (by omega)]
      refine ⟨true, b, d + b, by simp only [Option.some.injEq, Prod.mk.injEq, true_and]; omega, ?_, by omega, by omega, by simp; omega⟩
      unfold gtDisparity
      rw [if_pos (by simp; omega)]; rfl
    · rw [if_neg hz]
      dsimp only
      have hb : b = 0 := by omega
      subst hb
      rw [hr, hr, hr, if_pos (by omega)]
      refine ⟨true, 0, d + 0, by simp only [Option.some.injEq, Prod.mk.injEq, true_and]; omega, ?_, by omega, by omega, by simp⟩
      unfold gtDisparity
      rw [if_pos (by simp; omega)]; rfl
  · rw [if_neg hs]
    dsimp only
    by_cases hz : a ≠ 0
    · rw [if_pos hz]
      dsimp only
      rw [hr, hr, hr, if_pos (by omega)]
      refine ⟨false, -a, -d + -a, rfl, ?_, by omega, by omega, by simp; omega⟩
      unfold gtDisparity
      rw [if_pos (by simp; omega)]; rfl
    · rw [if_neg hz]
      dsimp only
      have ha : a = 0 := by omega
      subst ha
      rw [hr, hr, if_pos (by omega)]
      refine ⟨false, 0, -d + 0, by simp only [Option.some.injEq, Prod.mk.injEq, true_and]; omega, ?_, by omega, by omega, by simp⟩
      unfold gtDisparity
      rw [if_pos (by simp; omega)]; rfl

example : rangeLitiv (some (-10, 60)) 1 = some (false, 10, 0, 70) ∧ gtDisparity false 10 (-60) = some 70 ∧
    rangeLitiv (some (-60, 10)) 1 = some (true, 10, 0, 70) ∧ gtDisparity true 10 60 = some 70 := by decide +kernel

/-- **C197, LITIV 2018 at half scale.** The bounds are scaled, the disparities of the ground truth maps are not: with a
range from 0 to 60 the reported maximum is 30, and the maps hold values up to 60. -/
theorem litiv_range_refuted :
    rangeLitiv (some (0, 60)) (1 / 2) = some (false, 0, 0, 30) ∧ gtDisparity false 0 (-60) = some 60 := by decide +kernel

end Litiv.Subset
