import Verif.Spec.Bilodeau
import Verif.Lemmas.Subset
import Verif.Props.Seq

/-! # Lemmas about the LITIV 2014 sequences -/

namespace Litiv.Bilodeau

open DirList (Lut)
open Subset (stoi baseName pathName)

/-! ### Names and paths -/

theorem digit_facts {c : Char} (h : c.isDigit = true) : c ≠ '/' ∧ c ≠ '\\' ∧ c ≠ '.' ∧ c ≠ 'R' ∧ c ≠ 'V' ∧ c ≠ '\n' := by
  refine ⟨?_, ?_, ?_, ?_, ?_, ?_⟩ <;> (rintro rfl; exact absurd h (by decide))

theorem base_of (d b : List Char) (hb : ∀ c ∈ b, c ≠ '/' ∧ c ≠ '\\') : baseName (d ++ '/' :: b) = b := by
  unfold baseName
  have hp : ∀ c ∈ b.reverse, (c != '/' && c != '\\') = true := by
    intro c hc
    have := hb c (List.mem_reverse.1 hc)
    simp [this.1, this.2]
  rw [List.reverse_append, List.reverse_cons, List.append_assoc, List.takeWhile_append_of_pos hp]
  simp

theorem base_plain (b : List Char) (hb : ∀ c ∈ b, c ≠ '/' ∧ c ≠ '\\') : baseName b = b := by
  unfold baseName
  have hp : ∀ c ∈ b.reverse, (c != '/' && c != '\\') = true := by
    intro c hc
    have := hb c (List.mem_reverse.1 hc)
    simp [this.1, this.2]
  have := List.takeWhile_append_of_pos (l₂ := []) hp
  rw [List.append_nil] at this
  rw [this]; simp

theorem name_of (p stem e : List Char) (hb : baseName p = stem ++ '.' :: e) (he : '.' ∉ e) : pathName p = stem := by
  unfold pathName
  have hm : '.' ∈ baseName p := by rw [hb]; simp
  rw [if_pos hm, hb, List.reverse_append, List.reverse_cons, List.append_assoc, List.dropWhile_append_of_pos]
  · simp
  · intro c hc
    have : c ≠ '.' := fun h => he (h ▸ List.mem_reverse.1 hc)
    simp [this]

theorem extract_of (pre : String) (p name e : List Char) (hb : baseName p = pre.toList ++ name ++ '.' :: e)
    (he : '.' ∉ e) (hn : name ≠ []) : extract pre p = some name := by
  unfold extract
  have hm : '.' ∈ baseName p := by rw [hb]; simp
  rw [if_pos hm, name_of p _ e hb he, ← String.length_toList, List.drop_left, if_pos]
  rw [List.length_append]
  have := List.length_pos_iff.2 hn
  omega

theorem file_base (d : List Char) (pre : String) (hpre : ∀ c ∈ pre.toList, c ≠ '/' ∧ c ≠ '\\') (name : List Char)
    (hn : IsName name) : baseName (file d pre name) = pre.toList ++ name ++ '.' :: ['j', 'p', 'g'] := by
  unfold file
  rw [base_of]
  · rfl
  · intro c hc
    rw [List.mem_append, List.mem_append] at hc
    rcases hc with (hc | hc) | hc
    · exact hpre c hc
    · exact ⟨(digit_facts (hn.2.1 c hc)).1, (digit_facts (hn.2.1 c hc)).2.1⟩
    · have : c = '.' ∨ c = 'j' ∨ c = 'p' ∨ c = 'g' := by simpa using hc
      rcases this with rfl | rfl | rfl | rfl <;> decide

theorem extract_file (d : List Char) (pre : String) (hpre : ∀ c ∈ pre.toList, c ≠ '/' ∧ c ≠ '\\') (name : List Char)
    (hn : IsName name) : extract pre (file d pre name) = some name :=
  extract_of pre _ name _ (file_base d pre hpre name hn) (by decide) hn.1

theorem token_in (d : List Char) (t : String) (q : List Char) (name : List Char) :
    Seq.stringContainsToken (d ++ '/' :: (t.toList ++ name ++ q)) [t.toList] = true := by
  rw [Seq.stringContainsToken, if_pos]
  rw [Subset.contains_iff]
  exact ⟨d ++ ['/'], name ++ q, by simp⟩

theorem token_out (d : List Char) (t pre : String) (x : Char) (hx : x ∈ t.toList) (hs : '/' ∉ t.toList)
    (hd : DirList.Absent t.toList d) (name : List Char) (hpre : x ∉ pre.toList) (hq : x ∉ ".jpg".toList)
    (hname : x ∉ name) : Seq.stringContainsToken (file d pre name) [t.toList] = false := by
  rw [Seq.stringContainsToken, Seq.stringContainsToken]
  rw [if_neg]
  rw [Subset.contains_iff]
  intro h
  unfold file at h
  rcases Subset.infix_sep hs h with h | h
  · exact hd h
  · have := h.sublist.subset hx
    rw [List.mem_append, List.mem_append] at this
    rcases this with (h | h) | h
    · exact hpre h
    · exact hname h
    · exact hq h

/-- Selecting the files of one kind. -/
theorem keep_listing (d : List Char) (ir vis : String) (l : List (Bool × List Char)) (k : Bool)
    (hin : ∀ e ∈ l, Seq.stringContainsToken (file d (if e.1 then ir else vis) e.2)
      [(if k then ir else vis).toList] = true ↔ e.1 = k) :
    keep (if k then ir else vis) (listing d ir vis l) =
      (ofKind k l).map (file d (if k then ir else vis)) := by
  unfold keep listing ofKind
  rw [List.filter_map, List.map_filterMap]
  induction l with
  | nil => rfl
  | cons e l ih =>
    have h := hin e List.mem_cons_self
    have ih := ih fun e he => hin e (List.mem_cons_of_mem _ he)
    rw [List.filterMap_cons, List.filter_cons]
    by_cases hk : e.1 = k
    · have h' := h.2 hk
      rw [Function.comp_apply, if_pos h', List.map_cons, ih]
      simp only [hk, if_true, Option.map_some]
    · rw [Function.comp_apply, if_neg (fun hh => hk (h.1 hh)), ih]
      simp only [hk, if_false, Option.map_none]

theorem mapM_extract (d : List Char) (pre : String) (hpre : ∀ c ∈ pre.toList, c ≠ '/' ∧ c ≠ '\\') (l : List (List Char))
    (hl : ∀ n ∈ l, IsName n) : (l.map (file d pre)).mapM (extract pre) = some l := by
  induction l with
  | nil => rfl
  | cons n l ih =>
    rw [List.map_cons, List.mapM_cons, extract_file d pre hpre n (hl n List.mem_cons_self),
      ih fun n hn => hl n (List.mem_cons_of_mem _ hn)]
    rfl

theorem mem_ofKind {k : Bool} {l : List (Bool × List Char)} {n : List Char} : n ∈ ofKind k l ↔ (k, n) ∈ l := by
  unfold ofKind
  rw [List.mem_filterMap]
  constructor
  · rintro ⟨⟨b, m⟩, h, h2⟩
    by_cases hb : b = k
    · simp [hb] at h2; subst h2 hb; exact h
    · simp [hb] at h2
  · intro h; exact ⟨(k, n), h, by simp⟩

theorem absent_longer {d : List Char} {t u : List Char} (h : DirList.Absent t d) : DirList.Absent (t ++ u) d := by
  intro h'
  exact h ((List.prefix_append t u).isInfix.trans h')

theorem kinds_frames (d : List Char) (hd : Plain d) (l : List (Bool × List Char)) (hl : ∀ e ∈ l, IsName e.2) (k : Bool) :
    ∀ e ∈ l, Seq.stringContainsToken (file d (if e.1 then "IR" else "Vis") e.2)
      [(if k then "IR" else "Vis" : String).toList] = true ↔ e.1 = k := by
  rintro ⟨b, n⟩ he
  have hn := hl _ he
  have hR : 'R' ∉ n := fun h => (digit_facts (hn.2.1 _ h)).2.2.2.1 rfl
  have hV : 'V' ∉ n := fun h => (digit_facts (hn.2.1 _ h)).2.2.2.2.1 rfl
  cases b <;> cases k
  · simp only [Bool.false_eq_true, if_false, iff_true]; exact token_in d "Vis" _ n
  · simp only [Bool.false_eq_true, if_false, if_true, iff_false, Bool.not_eq_true]
    exact token_out d "IR" "Vis" 'R' (by decide) (by decide) hd.1 n (by decide) (by decide) hR
  · simp only [Bool.false_eq_true, if_false, if_true, iff_false, Bool.not_eq_true, Bool.true_eq_false]
    exact token_out d "Vis" "IR" 'V' (by decide) (by decide) hd.2 n (by decide) (by decide) hV
  · simp only [if_true, iff_true]; exact token_in d "IR" _ n

theorem kinds_masks (d : List Char) (hd : Plain d) (l : List (Bool × List Char)) (hl : ∀ e ∈ l, IsName e.2) (k : Bool) :
    ∀ e ∈ l, Seq.stringContainsToken (file d (if e.1 then "IRForeground" else "VisForeground") e.2)
      [(if k then "IRForeground" else "VisForeground" : String).toList] = true ↔ e.1 = k := by
  rintro ⟨b, n⟩ he
  have hn := hl _ he
  have hR : 'R' ∉ n := fun h => (digit_facts (hn.2.1 _ h)).2.2.2.1 rfl
  have hV : 'V' ∉ n := fun h => (digit_facts (hn.2.1 _ h)).2.2.2.2.1 rfl
  have h1 : DirList.Absent "IRForeground".toList d := absent_longer (u := "Foreground".toList) hd.1
  have h2 : DirList.Absent "VisForeground".toList d := absent_longer (u := "Foreground".toList) hd.2
  cases b <;> cases k
  · simp only [Bool.false_eq_true, if_false, iff_true]; exact token_in d "VisForeground" _ n
  · simp only [Bool.false_eq_true, if_false, if_true, iff_false, Bool.not_eq_true]
    exact token_out d "IRForeground" "VisForeground" 'R' (by decide) (by decide) h1 n (by decide) (by decide) hR
  · simp only [Bool.false_eq_true, if_false, if_true, iff_false, Bool.not_eq_true, Bool.true_eq_false]
    exact token_out d "VisForeground" "IRForeground" 'V' (by decide) (by decide) h2 n (by decide) (by decide) hV
  · simp only [if_true, iff_true]; exact token_in d "IRForeground" _ n

theorem filterIn_mem (l t : List (List Char)) : Seq.filterIn l t = l.filter fun n => n ∈ t := by
  rw [Seq.filterIn_spec]
  apply List.filter_congr
  intro x _
  simp

theorem names_listing (din dm : List Char) (hin : Plain din) (hm : Plain dm) (f m : List (Bool × List Char))
    (hf : ∀ e ∈ f, IsName e.2) (hm' : ∀ e ∈ m, IsName e.2) (hne : common f m ≠ []) :
    names (listing din "IR" "Vis" f) (listing dm "IRForeground" "VisForeground" m) = some (common f m) := by
  have k1 := keep_listing din "IR" "Vis" f true (kinds_frames din hin f hf true)
  have k2 := keep_listing din "IR" "Vis" f false (kinds_frames din hin f hf false)
  have k3 := keep_listing dm "IRForeground" "VisForeground" m true (kinds_masks dm hm m hm' true)
  have k4 := keep_listing dm "IRForeground" "VisForeground" m false (kinds_masks dm hm m hm' false)
  simp only [if_true, Bool.false_eq_true, if_false] at k1 k2 k3 k4
  have hnm : ∀ k, ∀ n ∈ ofKind k f, IsName n := fun k n h => hf _ (mem_ofKind.1 h)
  have hnm' : ∀ k, ∀ n ∈ ofKind k m, IsName n := fun k n h => hm' _ (mem_ofKind.1 h)
  obtain ⟨n, hn⟩ := List.exists_mem_of_ne_nil _ hne
  unfold common at hn
  rw [List.mem_filter, decide_eq_true_eq] at hn
  have e1 : ∀ {k l} {d : List Char} {pre : String}, n ∈ ofKind k l → ((ofKind k l).map (file d pre)).isEmpty = false := by
    intro k l d pre h
    rw [List.isEmpty_eq_false_iff]
    intro h'
    rw [List.map_eq_nil_iff] at h'
    rw [h'] at h
    simp at h
  unfold names
  simp only [k1, k2, k3, k4, e1 hn.1, e1 hn.2.1, e1 hn.2.2.1, e1 hn.2.2.2, Bool.or_self, Bool.false_eq_true, if_false,
    mapM_extract din "IR" (by decide) _ (hnm true), mapM_extract din "Vis" (by decide) _ (hnm false),
    mapM_extract dm "IRForeground" (by decide) _ (hnm' true), mapM_extract dm "VisForeground" (by decide) _ (hnm' false),
    Option.bind_eq_bind, Option.bind_some, filterIn_mem, List.filter_filter]
  have e2 : (ofKind true f).filter (fun a => decide (a ∈ ofKind false m) && (decide (a ∈ ofKind true m) &&
      decide (a ∈ ofKind false f))) = common f m := by
    unfold common
    congr 1
    funext a
    rw [Bool.eq_iff_iff]
    simp only [Bool.and_eq_true, decide_eq_true_eq]
    tauto
  rw [e2, if_pos (List.length_pos_iff.2 hne)]

theorem number_eq (s : List Char) : number s = Packets.val s := rfl

theorem realIndex_name (n : List Char) (h : IsName n) : realIndex n = some (number n) := by
  unfold realIndex
  have h3 : Packets.val n < 10000 := h.2.2
  rw [Subset.stoi_digits n h.1 h.2.1 (by omega), number_eq]
  simp only
  rw [if_pos (by omega), Int.toNat_natCast]

theorem mem_listing {d : List Char} {ir vis : String} {l : List (Bool × List Char)} {k : Bool} {n : List Char}
    (h : n ∈ ofKind k l) : file d (if k then ir else vis) n ∈ listing d ir vis l :=
  List.mem_map.2 ⟨(k, n), mem_ofKind.1 h, rfl⟩

theorem mem_ir {d : List Char} {ir vis : String} {l : List (Bool × List Char)} {n : List Char}
    (h : n ∈ ofKind true l) : file d ir n ∈ listing d ir vis l := by
  have := mem_listing (d := d) (ir := ir) (vis := vis) (k := true) h
  rwa [if_pos rfl] at this

theorem mem_vis {d : List Char} {ir vis : String} {l : List (Bool × List Char)} {n : List Char}
    (h : n ∈ ofKind false l) : file d vis n ∈ listing d ir vis l := by
  have := mem_listing (d := d) (ir := ir) (vis := vis) (k := false) h
  rwa [if_neg (by decide)] at this

theorem slash (d : List Char) (a b : String) (n : List Char) (h : a.toList = '/' :: b.toList) :
    d ++ a.toList ++ n ++ ".jpg".toList = file d b n := by
  rw [h]
  simp only [file, List.append_assoc, List.cons_append]

theorem packet_name (din dm : List Char) (f m : List (Bool × List Char)) (masks : Bool) (n : List Char)
    (hn : n ∈ common f m) (hi : IsName n) :
    packet din dm (listing din "IR" "Vis" f) (listing dm "IRForeground" "VisForeground" m) masks n =
      some (if masks then ⟨file din "Vis" n, file din "IR" n, file dm "VisForeground" n, file dm "IRForeground" n⟩
        else ⟨file din "Vis" n, file din "IR" n, [], []⟩, number n) := by
  unfold common at hn
  rw [List.mem_filter, decide_eq_true_eq] at hn
  obtain ⟨h1, h2, h3, h4⟩ := hn
  have g1 : file din "IR" n ∈ listing din "IR" "Vis" f := mem_ir h1
  have g2 : file din "Vis" n ∈ listing din "IR" "Vis" f := mem_vis h2
  have g3 : file dm "IRForeground" n ∈ listing dm "IRForeground" "VisForeground" m := mem_ir h3
  have g4 : file dm "VisForeground" n ∈ listing dm "IRForeground" "VisForeground" m := mem_vis h4
  have e1 : din ++ "/IR".toList ++ n ++ ".jpg".toList = file din "IR" n := slash din "/IR" "IR" n rfl
  have e2 : din ++ "/Vis".toList ++ n ++ ".jpg".toList = file din "Vis" n := slash din "/Vis" "Vis" n rfl
  have e3 : dm ++ "/IRForeground".toList ++ n ++ ".jpg".toList = file dm "IRForeground" n := slash dm "/IRForeground" "IRForeground" n rfl
  have e4 : dm ++ "/VisForeground".toList ++ n ++ ".jpg".toList = file dm "VisForeground" n := slash dm "/VisForeground" "VisForeground" n rfl
  unfold packet packetPaths
  simp only [e1, e2, e3, e4, realIndex_name n hi]
  rw [if_pos (And.intro g1 g2), if_pos (And.intro g3 g4)]
  cases masks <;> simp only [if_true, Bool.false_eq_true, if_false, Option.bind_eq_bind, Option.bind_some, Option.pure_def]

/-! ### Records -/

theorem getline_line (l rest buf : List Char) (h : '\n' ∉ l) :
    getline { rest := l ++ '\n' :: rest } buf = ({ rest := rest }, l) := by
  have hp : ∀ c ∈ l, (c != '\n') = true := by
    intro c hc
    have : c ≠ '\n' := fun e => h (e ▸ hc)
    simp [this]
  unfold getline
  rw [if_neg (by simp), if_pos (by simp), List.takeWhile_append_of_pos hp, List.dropWhile_append_of_pos hp]
  simp

theorem toDigits_line (n : Nat) : '\n' ∉ Nat.toDigits 10 n := fun h =>
  (digit_facts (Subset.toDigits_digit n _ h)).2.2.2.2.2 rfl

theorem bounded_nat (lim n : Nat) (h : n < lim) (hl : lim < 2 ^ 31) : bounded lim (Nat.toDigits 10 n) = some n := by
  unfold bounded
  rw [Subset.stoi_toDigits n (by omega)]
  simp only
  rw [if_pos (by omega), Int.toNat_natCast]

/-- The first line of a record. -/
def Rec.line (r : Rec) : List Char := "IRForeground".toList ++ r.name ++ '.' :: r.ext

theorem line_plain (r : Rec) (h : r.Ok) : '\n' ∉ r.line ∧ ∀ c ∈ r.line, c ≠ '/' ∧ c ≠ '\\' := by
  have key : ∀ c ∈ r.line, c ≠ '\n' ∧ c ≠ '/' ∧ c ≠ '\\' := by
    intro c hc
    unfold Rec.line at hc
    rw [List.mem_append, List.mem_append, List.mem_cons] at hc
    rcases hc with (hc | hc) | hc | hc
    · exact (by decide : ∀ c ∈ "IRForeground".toList, c ≠ '\n' ∧ c ≠ '/' ∧ c ≠ '\\') c hc
    · have := digit_facts (h.name.2.1 c hc); exact ⟨this.2.2.2.2.2, this.1, this.2.1⟩
    · subst hc; decide
    · have := h.ext c hc; exact ⟨this.1, this.2.1, this.2.2.1⟩
  exact ⟨fun hc => (key _ hc).1 rfl, fun c hc => (key c hc).2⟩

theorem extract_line (r : Rec) (h : r.Ok) : extract "IRForeground" r.line = some r.name :=
  extract_of _ _ _ r.ext (base_plain _ (line_plain r h).2) (fun hc => (h.ext _ hc).2.2.2 rfl) h.name.1

theorem text_lines (r : Rec) (rest : List Char) : r.text ++ rest = r.line ++ '\n' :: (r.vis ++ '\n' ::
    (Nat.toDigits 10 r.pt.x ++ '\n' :: (Nat.toDigits 10 r.pt.y ++ '\n' :: (Nat.toDigits 10 r.pt.d ++ '\n' :: rest)))) := by
  unfold Rec.text Rec.line
  generalize "IRForeground".toList = a
  generalize Nat.toDigits 10 r.pt.x = b
  generalize Nat.toDigits 10 r.pt.y = c
  generalize Nat.toDigits 10 r.pt.d = d
  simp only [List.append_assoc, List.cons_append, List.nil_append]

theorem readRecord_ok (r : Rec) (h : r.Ok) (rest buf : List Char) :
    getline { rest := r.text ++ rest } buf = (⟨r.vis ++ '\n' :: (Nat.toDigits 10 r.pt.x ++ '\n' ::
      (Nat.toDigits 10 r.pt.y ++ '\n' :: (Nat.toDigits 10 r.pt.d ++ '\n' :: rest))), false, false⟩, r.line) ∧
    readRecord ⟨r.vis ++ '\n' :: (Nat.toDigits 10 r.pt.x ++ '\n' ::
      (Nat.toDigits 10 r.pt.y ++ '\n' :: (Nat.toDigits 10 r.pt.d ++ '\n' :: rest))), false, false⟩ r.line =
      some ({ rest := rest }, Nat.toDigits 10 r.pt.d, r.name, r.pt) := by
  constructor
  · rw [text_lines, getline_line _ _ _ (line_plain r h).1]
  · have hne : r.name.isEmpty = false := by rw [List.isEmpty_eq_false_iff]; exact h.name.1
    unfold readRecord
    simp only [extract_line r h, hne, Option.bind_eq_bind, Option.bind_some, Option.pure_def,
      getline_line _ _ _ h.vis, getline_line _ _ _ (toDigits_line _), bounded_nat 480 _ h.x (by norm_num),
      bounded_nat 360 _ h.y (by norm_num), bounded_nat 100 _ h.d (by norm_num), Bool.false_eq_true, if_false]

/-- The names after a record. -/
def addName (ns : List (List Char)) (r : Rec) : List (List Char) := if r.name ∈ ns then ns else ns ++ [r.name]

theorem readLoop_records (l : List Rec) (hl : ∀ r ∈ l, r.Ok) (n : Nat) (hn : l.length < n) (buf : List Char)
    (ns : List (List Char)) (m : List (List Char × List Pt)) :
    readLoop n { rest := fileText l } buf ns m =
      some (l.foldl addName ns, l.foldl (fun m r => addPoint r.name r.pt m) m) := by
  induction l generalizing n buf ns m with
  | nil =>
    obtain ⟨n, rfl⟩ := Nat.exists_eq_add_of_lt hn
    simp [readLoop, fileText, getline]
  | cons r l ih =>
    obtain ⟨k, rfl⟩ : ∃ k, n = k + 1 := ⟨n - 1, by simp at hn; omega⟩
    obtain ⟨h1, h2⟩ := readRecord_ok r (hl r List.mem_cons_self) (fileText l) buf
    have e : fileText (r :: l) = r.text ++ fileText l := rfl
    unfold readLoop
    rw [e, h1]
    simp only [Bool.false_eq_true, if_false]
    rw [h2]
    simp only
    rw [ih (fun r hr => hl r (List.mem_cons_of_mem _ hr)) k (by simp at hn; omega)]
    rfl

theorem length_fileText (l : List Rec) : l.length ≤ (fileText l).length := by
  induction l with
  | nil => simp
  | cons r l ih =>
    have e : fileText (r :: l) = r.text ++ fileText l := rfl
    have : 1 ≤ r.text.length := by
      unfold Rec.text
      rw [List.length_append, List.length_singleton]
      omega
    rw [e, List.length_append, List.length_cons]
    omega

theorem maxLoop_records (l : List Rec) (hl : ∀ r ∈ l, r.Ok) (n : Nat) (hn : l.length < n) (buf : List Char) (cur : Nat) :
    maxLoop n { rest := fileText l } buf cur = some (l.foldl (fun c r => max c r.pt.d) cur) := by
  induction l generalizing n buf cur with
  | nil =>
    obtain ⟨n, rfl⟩ := Nat.exists_eq_add_of_lt hn
    simp [maxLoop, fileText, getline]
  | cons r l ih =>
    obtain ⟨k, rfl⟩ : ∃ k, n = k + 1 := ⟨n - 1, by simp at hn; omega⟩
    have h := hl r List.mem_cons_self
    have e : fileText (r :: l) = r.text ++ fileText l := rfl
    unfold maxLoop
    rw [e, text_lines]
    simp only [getline_line _ _ _ (line_plain r h).1, getline_line _ _ _ h.vis, getline_line _ _ _ (toDigits_line _),
      bounded_nat 100 _ h.d (by norm_num), Bool.false_eq_true, if_false]
    rw [ih (fun r hr => hl r (List.mem_cons_of_mem _ hr)) k (by simp at hn; omega)]
    rfl

theorem foldl_max (l : List Rec) (cur : Nat) :
    cur ≤ l.foldl (fun c r => max c r.pt.d) cur ∧ (∀ r ∈ l, r.pt.d ≤ l.foldl (fun c r => max c r.pt.d) cur) ∧
    (l.foldl (fun c r => max c r.pt.d) cur = cur ∨ ∃ r ∈ l, r.pt.d = l.foldl (fun c r => max c r.pt.d) cur) := by
  induction l generalizing cur with
  | nil => simp
  | cons a l ih =>
    obtain ⟨h1, h2, h3⟩ := ih (max cur a.pt.d)
    simp only [List.foldl_cons]
    refine ⟨le_trans (le_max_left _ _) h1, ?_, ?_⟩
    · intro r hr
      rcases List.mem_cons.1 hr with rfl | hr
      · exact le_trans (le_max_right _ _) h1
      · exact h2 r hr
    · rcases h3 with h3 | ⟨r, hr, h3⟩
      · rw [h3]
        rcases le_total cur a.pt.d with hc | hc
        · right; exact ⟨a, List.mem_cons_self, by rw [max_eq_right hc]⟩
        · left; exact max_eq_left hc
      · right; exact ⟨r, List.mem_cons_of_mem _ hr, h3⟩

/-! ### The table of points -/

theorem addPoint_keys (name : List Char) (p : Pt) (m : List (List Char × List Pt)) :
    (addPoint name p m).map (·.1) = if name ∈ m.map (·.1) then m.map (·.1) else m.map (·.1) ++ [name] := by
  induction m with
  | nil => simp [addPoint]
  | cons e m ih =>
    unfold addPoint
    by_cases h : e.1 = name
    · simp [h]
    · rw [if_neg h, List.map_cons, ih]
      simp only [List.map_cons, List.mem_cons, Ne.symm h, false_or]
      split <;> simp

/-- Looking a name up. -/
def find (m : List (List Char × List Pt)) (name : List Char) : List Pt :=
  ((m.find? fun e => e.1 == name).map (·.2)).getD []

theorem find_addPoint (name : List Char) (p : Pt) (m : List (List Char × List Pt)) (x : List Char) :
    find (addPoint name p m) x = if x = name then find m x ++ [p] else find m x := by
  induction m with
  | nil =>
    by_cases h : x = name
    · subst h; simp [addPoint, find]
    · simp [addPoint, find, h, Ne.symm h]
  | cons e m ih =>
    unfold addPoint
    by_cases h : e.1 = name
    · rw [if_pos h]
      by_cases hx : x = name
      · subst hx; simp [find, h]
      · have hne : ¬ e.1 = x := fun h' => hx (h'.symm.trans h)
        simp [find, hx, hne]
    · rw [if_neg h]
      by_cases hx : e.1 = x
      · have : ¬ x = name := fun h' => h (hx.trans h')
        simp [find, hx, this]
      · have e1 : ∀ m', find (e :: m') x = find m' x := fun m' => by simp [find, hx]
        rw [e1, e1, ih]

theorem fold_table (l : List Rec) (ns : List (List Char)) (m : List (List Char × List Pt)) (hk : m.map (·.1) = ns)
    (hn : ns.Nodup) :
    (l.foldl (fun m r => addPoint r.name r.pt m) m).map (·.1) = l.foldl addName ns ∧ (l.foldl addName ns).Nodup ∧
    (∀ x, x ∈ l.foldl addName ns ↔ x ∈ ns ∨ ∃ r ∈ l, r.name = x) ∧
    ∀ x, find (l.foldl (fun m r => addPoint r.name r.pt m) m) x = find m x ++ pointsOf l x := by
  induction l generalizing ns m with
  | nil => exact ⟨hk, hn, by simp, by simp [pointsOf]⟩
  | cons r l ih =>
    simp only [List.foldl_cons]
    have hk' : (addPoint r.name r.pt m).map (·.1) = addName ns r := by
      rw [addPoint_keys, hk]; rfl
    have hn' : (addName ns r).Nodup := by
      unfold addName
      split
      · exact hn
      · rename_i h
        rw [List.nodup_append]
        exact ⟨hn, by simp, by intro a ha b hb; simp at hb; subst hb; rintro rfl; exact h ha⟩
    obtain ⟨h1, h2, h3, h4⟩ := ih _ _ hk' hn'
    refine ⟨h1, h2, ?_, ?_⟩
    · intro x
      rw [h3 x]
      unfold addName
      constructor
      · rintro (h | ⟨s, hs, h⟩)
        · split at h
          · exact Or.inl h
          · rcases List.mem_append.1 h with h | h
            · exact Or.inl h
            · right; exact ⟨r, List.mem_cons_self, by simpa using (List.mem_singleton.1 h).symm⟩
        · right; exact ⟨s, List.mem_cons_of_mem _ hs, h⟩
      · rintro (h | ⟨s, hs, h⟩)
        · left; split
          · exact h
          · exact List.mem_append_left _ h
        · rcases List.mem_cons.1 hs with rfl | hs
          · left; subst h; split
            · assumption
            · simp
          · right; exact ⟨s, hs, h⟩
    · intro x
      rw [h4 x, find_addPoint]
      unfold pointsOf
      rw [List.filter_cons]
      by_cases hx : x = r.name
      · subst hx; simp
      · simp [hx, Ne.symm hx]

theorem pointsOf_ne {l : List Rec} {x : List Char} (h : ∃ r ∈ l, r.name = x) : pointsOf l x ≠ [] := by
  obtain ⟨r, hr, rfl⟩ := h
  unfold pointsOf
  intro h'
  rw [List.map_eq_nil_iff, List.filter_eq_nil_iff] at h'
  exact h' r hr (by simp)

/-! ### The ground truth table -/

/-- The points of packet `k`. -/
def look (t : Truth) (k : Nat) : Option (List Pt) := (Lut.get t.lut k).map fun g => t.points.getD g []

theorem lut_get_set (m : Lut) (k v j : Nat) : Lut.get (Lut.set m k v) j = if j = k then some v else Lut.get m j := by
  unfold Lut.get Lut.set
  by_cases h : j = k
  · subst h; simp
  · simp [h, Ne.symm h]

theorem truthLoop_ok (packets : List (List Char)) (hp : packets.Nodup) (hi : ∀ n ∈ packets, IsName n)
    (m : List (List Char × List Pt)) (ns : List (List Char)) (hn : ns.Nodup) (hm : ∀ n ∈ ns, find m n ≠ [])
    (t : Truth) (ht : ∀ k g, Lut.get t.lut k = some g → g < t.points.length) :
    ∃ t', truthLoop packets m ns t = some t' ∧
      (∀ k g, Lut.get t'.lut k = some g → g < t'.points.length) ∧
      (∀ k, look t' k = if h : k < packets.length then
        if packets[k] ∈ ns then some (find m packets[k]) else look t k else look t k) ∧
      (∀ k, Lut.get t'.real k = if h : k < packets.length then
        if packets[k] ∈ ns then some (number packets[k]) else Lut.get t.real k else Lut.get t.real k) := by
  induction ns generalizing t with
  | nil => exact ⟨t, rfl, ht, by simp, by simp⟩
  | cons n ns ih =>
    rw [List.nodup_cons] at hn
    unfold truthLoop
    by_cases hk : packets.idxOf n < packets.length
    · have hmem : n ∈ packets := List.idxOf_lt_length_iff.1 hk
      have hget : packets[packets.idxOf n] = n := List.getElem_idxOf hk
      have hne : (find m n).isEmpty = false := by
        rw [List.isEmpty_eq_false_iff]; exact hm n List.mem_cons_self
      simp only
      rw [if_pos hk]
      change ∃ t', (if (find m n).isEmpty = true then none else _) = some t' ∧ _
      rw [hne, realIndex_name n (hi n hmem)]
      simp only [Bool.false_eq_true, if_false]
      obtain ⟨t', h1, h2, h3, h4⟩ := ih hn.2 (fun x hx => hm x (List.mem_cons_of_mem _ hx))
        ⟨t.points ++ [find m n], Lut.set t.lut (packets.idxOf n) ((t.points ++ [find m n]).length - 1),
          Lut.set t.real (packets.idxOf n) (number n)⟩ (by
            intro k g hg
            rw [lut_get_set] at hg
            rw [List.length_append, List.length_singleton]
            split at hg
            · have := Option.some.inj hg; simp at this; omega
            · have := ht k g hg; omega)
      refine ⟨t', h1, h2, ?_, ?_⟩
      · intro k
        rw [h3 k]
        have hl : look ⟨t.points ++ [find m n], Lut.set t.lut (packets.idxOf n) ((t.points ++ [find m n]).length - 1),
          Lut.set t.real (packets.idxOf n) (number n)⟩ k = if k = packets.idxOf n then some (find m n) else look t k := by
          unfold look
          rw [lut_get_set]
          by_cases hkk : k = packets.idxOf n
          · rw [if_pos hkk, if_pos hkk]; simp [List.getD_eq_getElem?_getD]
          · rw [if_neg hkk, if_neg hkk]
            cases hg : Lut.get t.lut k with
            | none => rfl
            | some g =>
              have := ht k g hg
              simp [List.getD_eq_getElem?_getD, List.getElem?_append_left this]
        rw [hl]
        by_cases hkl : k < packets.length
        · simp only [hkl, dif_pos, List.mem_cons]
          by_cases hkk : k = packets.idxOf n
          · subst hkk; simp [hget, hn.1]
          · have : packets[k] ≠ n := by
              intro h
              apply hkk
              rw [← h, hp.idxOf_getElem]
            simp [this, hkk]
        · have hkk : k ≠ packets.idxOf n := by omega
          simp [hkl, hkk]
      · intro k
        rw [h4 k]
        simp only [lut_get_set]
        by_cases hkl : k < packets.length
        · simp only [hkl, dif_pos, List.mem_cons]
          by_cases hkk : k = packets.idxOf n
          · subst hkk; simp [hget, hn.1]
          · have : packets[k] ≠ n := by
              intro h
              apply hkk
              rw [← h, hp.idxOf_getElem]
            simp [this, hkk]
        · have hkk : k ≠ packets.idxOf n := by omega
          simp [hkl, hkk]
    · simp only
      rw [if_neg hk]
      obtain ⟨t', h1, h2, h3, h4⟩ := ih hn.2 (fun x hx => hm x (List.mem_cons_of_mem _ hx)) t ht
      have hout : ∀ k (h : k < packets.length), packets[k] ≠ n := by
        intro k h e
        exact hk (List.idxOf_lt_length_iff.2 (e ▸ List.getElem_mem h))
      refine ⟨t', h1, h2, ?_, ?_⟩
      · intro k; rw [h3 k]
        by_cases hkl : k < packets.length
        · simp [hkl, hout k hkl]
        · simp [hkl]
      · intro k; rw [h4 k]
        by_cases hkl : k < packets.length
        · simp [hkl, hout k hkl]
        · simp [hkl]

/-! ### Maps and ranges -/

theorem draw_at (pts : List Pt) (x y : Nat) : draw pts x y = dispAt pts x y := by
  unfold draw dispAt
  induction pts using List.reverseRecOn with
  | nil => rfl
  | append_singleton pts p ih =>
    rw [List.foldl_append, List.filter_append]
    simp only [List.foldl_cons, List.foldl_nil, List.filter_cons, List.filter_nil]
    by_cases h : p.x = x ∧ p.y = y
    · rw [if_pos ⟨h.1.symm, h.2.symm⟩]; simp [h]
    · rw [if_neg (fun h' => h ⟨h'.1.symm, h'.2.symm⟩), ih]
      simp [h]

theorem floor_one (n : Nat) : ⌊(n : ℚ) * 1⌋.toNat = n := by
  rw [mul_one, Int.floor_natCast (R := ℚ), Int.toNat_natCast]

/-- After complete records, what cannot be read makes the file unreadable. -/
theorem readLoop_stuck (l : List Rec) (hl : ∀ r ∈ l, r.Ok) (tail : List Char)
    (ht : ∀ n buf ns m, readLoop n { rest := tail } buf ns m = none) (n : Nat) (buf : List Char)
    (ns : List (List Char)) (m : List (List Char × List Pt)) :
    readLoop n { rest := fileText l ++ tail } buf ns m = none := by
  induction l generalizing n buf ns m with
  | nil => exact ht n buf ns m
  | cons r l ih =>
    cases n with
    | zero => rfl
    | succ k =>
      obtain ⟨h1, h2⟩ := readRecord_ok r (hl r List.mem_cons_self) (fileText l ++ tail) buf
      have e : fileText (r :: l) ++ tail = r.text ++ (fileText l ++ tail) := by
        change (r.text ++ fileText l) ++ tail = _
        rw [List.append_assoc]
      unfold readLoop
      rw [e, h1]
      simp only [Bool.false_eq_true, if_false]
      rw [h2]
      simp only
      exact ih (fun r hr => hl r (List.mem_cons_of_mem _ hr)) k _ _ _

theorem stoi_line (r : Rec) : Subset.stoi r.line = none := by
  have : ∃ t, r.line = 'I' :: t := ⟨_, rfl⟩
  obtain ⟨t, e⟩ := this
  rw [e]
  simp [Subset.stoi, DirList.isSpace]

theorem roundEven_near (q : ℚ) : |(roundEven q : ℚ) - q| ≤ 1 / 2 := by
  have h1 := Int.floor_le q
  have h2 := Int.lt_floor_add_one q
  unfold roundEven
  dsimp only
  rw [abs_le]
  by_cases a : q - ⌊q⌋ < 1 / 2
  · rw [if_pos a]; constructor <;> linarith
  · rw [if_neg a]
    by_cases b : q - ⌊q⌋ > 1 / 2
    · rw [if_pos b]; push_cast; constructor <;> linarith
    · rw [if_neg b]
      by_cases c : ⌊q⌋ % 2 = 0
      · rw [if_pos c]; constructor <;> linarith
      · rw [if_neg c]; push_cast; constructor <;> linarith

theorem roundEven_range (q : ℚ) (z : Int) : ((z : ℚ) ≤ q → z ≤ roundEven q) ∧ (q ≤ z → roundEven q ≤ z) := by
  have h := abs_le.1 (roundEven_near q)
  have hz : ∀ a b : Int, (a : ℚ) < b + 1 → a ≤ b := fun a b h => by
    have : a < b + 1 := by exact_mod_cast h
    omega
  exact ⟨fun hq => hz _ _ (by linarith), fun hq => hz _ _ (by linarith)⟩

theorem scaled_value (scale : ℚ) (h0 : 0 ≤ scale) (d : Nat) :
    (d = 255 → scaled scale d = 255) ∧
    (d ≠ 255 → (d : ℚ) * scale ≤ 255 → |(scaled scale d : ℚ) - d * scale| ≤ 1 / 2) ∧
    (d ≠ 255 → 255 ≤ (d : ℚ) * scale → scaled scale d = 255) := by
  have hn : (0 : ℚ) ≤ d * scale := mul_nonneg (Nat.cast_nonneg _) h0
  have hr := (roundEven_range (d * scale) 0).1 (by exact_mod_cast hn)
  refine ⟨fun h => if_pos h, ?_, ?_⟩
  · intro h hs
    have hu := (roundEven_range (d * scale) 255).2 (by exact_mod_cast hs)
    unfold scaled
    rw [if_neg h, Nat.min_eq_right (by omega)]
    have : (((roundEven (d * scale)).toNat : Nat) : ℚ) = (roundEven (d * scale) : ℚ) := by
      have : (((roundEven (d * scale)).toNat : Nat) : Int) = roundEven (d * scale) := Int.toNat_of_nonneg hr
      exact_mod_cast this
    rw [this]
    exact roundEven_near _
  · intro h hs
    have hu := (roundEven_range (d * scale) 255).1 (by exact_mod_cast hs)
    unfold scaled
    rw [if_neg h, Nat.min_eq_left (by omega)]

theorem nearest_inside (old new x : Nat) (hx : x < new) (ho : 0 < old) : nearest old new x = x * old / new := by
  unfold nearest
  have : x * old / new < old := by
    rw [Nat.div_lt_iff_lt_mul (by omega), Nat.mul_comm old]
    exact Nat.mul_lt_mul_of_pos_right hx ho
  omega

end Litiv.Bilodeau
