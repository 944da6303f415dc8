import Verif.Lemmas.Bilodeau

/-!
# Properties of the LITIV 2014 sequences (C201-C203)
-/

namespace Litiv.Bilodeau

open DirList (Lut)

theorem range_records (drange : Option (Nat × Option Nat)) (scale : ℚ) (l : List Rec) (hl : ∀ r ∈ l, r.Ok)
    (h0 : drange = none → 0 < maxDisp l)
    (hb : ⌊((bounds drange l).1 : ℚ) * scale⌋.toNat < ⌊((bounds drange l).2 : ℚ) * scale⌋.toNat) :
    range drange scale (fileText l) =
      some (⌊((bounds drange l).1 : ℚ) * scale⌋.toNat, ⌊((bounds drange l).2 : ℚ) * scale⌋.toNat) := by
  unfold range
  rcases drange with _ | ⟨a, _ | b⟩
  · have h := maxLoop_records l hl ((fileText l).length + 1) (by have := length_fileText l; omega) [] 0
    simp only [h]
    have h0 : l.foldl (fun c r => max c r.pt.d) 0 > 0 := h0 rfl
    rw [if_pos h0]
    exact if_pos hb
  · exact if_pos hb
  · exact if_pos hb

theorem mapM_packets (din dm : List Char) (f m : List (Bool × List Char)) (masks : Bool) (ns : List (List Char))
    (hs : ∀ n ∈ ns, n ∈ common f m ∧ IsName n) :
    ns.mapM (packet din dm (listing din "IR" "Vis" f) (listing dm "IRForeground" "VisForeground" m) masks) =
      some (ns.map fun n =>
        (if masks then ⟨file din "Vis" n, file din "IR" n, file dm "VisForeground" n, file dm "IRForeground" n⟩
        else ⟨file din "Vis" n, file din "IR" n, [], []⟩, number n)) := by
  induction ns with
  | nil => rfl
  | cons n ns ih =>
    have h := hs n List.mem_cons_self
    rw [List.mapM_cons, packet_name din dm f m masks n h.1 h.2, ih fun n hn => hs n (List.mem_cons_of_mem _ hn)]
    simp only [Option.bind_eq_bind, Option.bind_some, Option.pure_def, List.map_cons]

theorem common_name {f m : List (Bool × List Char)} (hf : ∀ e ∈ f, IsName e.2) {n : List Char} (h : n ∈ common f m) :
    IsName n := by
  unfold common at h
  exact hf _ (mem_ofKind.1 (List.mem_filter.1 h).1)

/-- Everything `parseData` computes for a well-formed sequence. -/
theorem parse_good (din dm : List Char) (f m : List (Bool × List Char)) (l : List Rec) (hg : Good din dm f m l)
    (masks : Bool) (drange : Option (Nat × Option Nat)) (scale : ℚ) (h0 : drange = none → 0 < maxDisp l)
    (hb : ⌊((bounds drange l).1 : ℚ) * scale⌋.toNat < ⌊((bounds drange l).2 : ℚ) * scale⌋.toNat) :
    ∃ t, parse din dm (listing din "IR" "Vis" f) (listing dm "IRForeground" "VisForeground" m) masks (fileText l)
        drange scale = some ⟨(common f m).map fun n =>
          (if masks then ⟨file din "Vis" n, file din "IR" n, file dm "VisForeground" n, file dm "IRForeground" n⟩
          else ⟨file din "Vis" n, file din "IR" n, [], []⟩), (common f m).map number, t,
          ⌊((bounds drange l).1 : ℚ) * scale⌋.toNat, ⌊((bounds drange l).2 : ℚ) * scale⌋.toNat⟩ ∧
      (∀ k, look t k = if h : k < (common f m).length then
        if ∃ r ∈ l, r.name = (common f m)[k] then some (pointsOf l (common f m)[k]) else none else none) ∧
      (∀ k, Lut.get t.real k = if h : k < (common f m).length then
        if ∃ r ∈ l, r.name = (common f m)[k] then some (number (common f m)[k]) else none else none) := by
  have hnames := names_listing din dm hg.din hg.dm f m hg.frames hg.masks hg.some
  have hcn : ∀ n ∈ common f m, IsName n := fun n hn => common_name hg.frames hn
  have hps := mapM_packets din dm f m masks (common f m) fun n hn => ⟨hn, hcn n hn⟩
  have hread := readLoop_records l hg.recs ((fileText l).length + 1) (by have := length_fileText l; omega) [] [] []
  obtain ⟨k1, k2, k3, k4⟩ := fold_table l [] [] rfl List.nodup_nil
  have hmem : ∀ x, x ∈ l.foldl addName [] ↔ ∃ r ∈ l, r.name = x := fun x => by rw [k3 x]; simp
  have hfind : ∀ x, find (l.foldl (fun m r => addPoint r.name r.pt m) []) x = pointsOf l x := fun x => by
    rw [k4 x]; simp [find]
  have htruth : readTruth (fileText l) =
      some (l.foldl addName [], l.foldl (fun m r => addPoint r.name r.pt m) []) := by
    unfold readTruth
    rw [hread]
    simp only
    rw [if_pos]
    rw [← k1, List.length_map]
  obtain ⟨t, t1, -, t3, t4⟩ := truthLoop_ok (common f m) hg.once hcn (l.foldl (fun m r => addPoint r.name r.pt m) [])
    (l.foldl addName []) k2 (fun n hn => by rw [hfind]; exact pointsOf_ne ((hmem n).1 hn)) {} (by simp [Lut.get])
  refine ⟨t, ?_, ?_, ?_⟩
  · unfold parse
    rw [hnames]
    simp only [Option.bind_eq_bind, Option.bind_some, Option.pure_def]
    rw [hps]
    simp only [Option.bind_some]
    rw [htruth]
    simp only [Option.bind_some]
    rw [t1]
    simp only [Option.bind_some]
    rw [range_records drange scale l hg.recs h0 hb]
    simp only [Option.bind_some, List.map_map, Function.comp_def]
  · intro k
    rw [t3 k]
    by_cases hk : k < (common f m).length
    · simp only [hk, dif_pos, hmem, hfind]
      rfl
    · simp only [hk]
      rfl
  · intro k
    rw [t4 k]
    by_cases hk : k < (common f m).length
    · simp only [hk, dif_pos, hmem]
      rfl
    · simp only [hk]
      rfl

/-! ### C201: packets -/

/-- C201. A well-formed sequence is read, and its packets are the frames for which all four files exist, in the order of
the infrared frames; each packet is given the paths of its own frame, and its real index is the number of the frame. -/
theorem packets (din dm : List Char) (f m : List (Bool × List Char)) (l : List Rec) (hg : Good din dm f m l)
    (masks : Bool) (h0 : 0 < maxDisp l) :
    ∃ P, parse din dm (listing din "IR" "Vis" f) (listing dm "IRForeground" "VisForeground" m) masks (fileText l)
        none 1 = some P ∧
      P.inputs.map (·.ir) = (common f m).map (file din "IR") ∧
      P.inputs.map (·.vis) = (common f m).map (file din "Vis") ∧
      P.inputs.map (·.irMask) = (common f m).map (fun n => if masks then file dm "IRForeground" n else []) ∧
      P.inputs.map (·.visMask) = (common f m).map (fun n => if masks then file dm "VisForeground" n else []) ∧
      P.real = (common f m).map number := by
  obtain ⟨t, h, -⟩ := parse_good din dm f m l hg masks none 1 (fun _ => h0) (by
    rw [floor_one, floor_one]; exact h0)
  refine ⟨_, h, ?_, ?_, ?_, ?_, rfl⟩ <;> cases masks <;> simp only [List.map_map] <;> rfl

/-! ### C202: ground truth -/

/-- C202. Exactly the packets whose frame has a record have a ground truth map, and at the original size the map holds at
every pixel the disparity of the last record for that frame and pixel, and 255 elsewhere; with flipped disparities it is
mirrored. Other sizes: `truth_scaled`. What is missing: files which are not made of complete records, see `truncated_refuted`. -/
theorem truth_partial (din dm : List Char) (f m : List (Bool × List Char)) (l : List Rec) (hg : Good din dm f m l)
    (masks : Bool) (h0 : 0 < maxDisp l) (P : Parsed)
    (hP : parse din dm (listing din "IR" "Vis" f) (listing dm "IRForeground" "VisForeground" m) masks (fileText l)
      none 1 = some P) (flipped : Bool) (k : Nat) :
    ((gtMap P.truth k 1 480 360 flipped).isSome = true ↔
      ∃ h : k < (common f m).length, ∃ r ∈ l, r.name = (common f m)[k]) ∧
    ∀ img, gtMap P.truth k 1 480 360 flipped = some img → ∀ (h : k < (common f m).length) (x y : Nat),
      img x y = dispAt (pointsOf l (common f m)[k]) (if flipped then 479 - x else x) y := by
  obtain ⟨t, h, hl, -⟩ := parse_good din dm f m l hg masks none 1 (fun _ => h0) (by
    rw [floor_one, floor_one]; exact h0)
  have e := Option.some.inj (hP.symm.trans h)
  subst e
  have hl := hl k
  have hgt : gtMap t k 1 480 360 flipped =
      (look t k).map fun pts => if flipped then flip 480 (draw pts) else draw pts := by
    unfold gtMap look
    cases Lut.get t.lut k <;> simp
  simp only [hgt, hl]
  by_cases hk : k < (common f m).length
  · simp only [hk, dif_pos]
    by_cases hr : ∃ r ∈ l, r.name = (common f m)[k]
    · rw [if_pos hr]
      refine ⟨⟨fun _ => ⟨trivial, hr⟩, fun _ => rfl⟩, ?_⟩
      intro img hi _ x y
      rw [Option.map_some] at hi
      rw [← Option.some.inj hi]
      cases flipped
      · exact draw_at _ _ _
      · exact draw_at _ _ _
    · rw [if_neg hr]
      refine ⟨⟨fun h => by simp at h, fun ⟨_, h⟩ => absurd h hr⟩, ?_⟩
      intro img hi
      simp at hi
  · simp only [hk]
    refine ⟨⟨fun h => by simp at h, fun ⟨h, _⟩ => absurd h (by simp)⟩, ?_⟩
    intro img hi
    simp at hi

/-- C202, other sizes. With a map of `w` by `h` pixels instead of 480 by 360, the pixel at `x`, `y` shows the pixel of the
original map at `x * 480 / w`, `y * 360 / h`: "don't care" stays so, a disparity is multiplied by the scale factor and
rounded to a nearest integer, or shown as 255 if it is larger than that. -/
theorem truth_scaled (din dm : List Char) (f m : List (Bool × List Char)) (l : List Rec) (hg : Good din dm f m l)
    (masks : Bool) (drange : Option (Nat × Option Nat)) (scale : ℚ) (hs : 0 ≤ scale) (h0 : drange = none → 0 < maxDisp l)
    (hb : ⌊((bounds drange l).1 : ℚ) * scale⌋.toNat < ⌊((bounds drange l).2 : ℚ) * scale⌋.toNat) (P : Parsed)
    (hP : parse din dm (listing din "IR" "Vis" f) (listing dm "IRForeground" "VisForeground" m) masks (fileText l)
      drange scale = some P) (w h : Nat) (hne : ¬ (w = 480 ∧ h = 360)) (flipped : Bool) (k : Nat)
    (hk : k < (common f m).length) (img : Img) (hi : gtMap P.truth k scale w h flipped = some img)
    (x y : Nat) (hx : x < w) (hy : y < h) (d : Nat)
    (hd : d = dispAt (pointsOf l (common f m)[k]) ((if flipped then w - 1 - x else x) * 480 / w) (y * 360 / h)) :
    (d = 255 → img x y = 255) ∧
    (d ≠ 255 → (d : ℚ) * scale ≤ 255 → |(img x y : ℚ) - d * scale| ≤ 1 / 2) ∧
    (d ≠ 255 → 255 ≤ (d : ℚ) * scale → img x y = 255) := by
  obtain ⟨t, hp, hl, -⟩ := parse_good din dm f m l hg masks drange scale h0 hb
  have e := Option.some.inj (hP.symm.trans hp)
  subst e
  have hl := hl k
  have hgt : gtMap t k scale w h flipped = (look t k).map fun pts =>
      let m : Img := fun x y => scaled scale (draw pts (nearest 480 w x) (nearest 360 h y))
      if flipped then flip w m else m := by
    unfold gtMap look
    cases Lut.get t.lut k <;> simp [hne]
  rw [hgt, hl] at hi
  simp only [hk, dif_pos] at hi
  by_cases hr : ∃ r ∈ l, r.name = (common f m)[k]
  · rw [if_pos hr, Option.map_some] at hi
    have key : img x y = scaled scale d := by
      rw [← Option.some.inj hi, hd]
      cases flipped
      · change scaled scale (draw _ (nearest 480 w x) (nearest 360 h y)) = _
        rw [draw_at, nearest_inside _ _ _ hx (by norm_num), nearest_inside _ _ _ hy (by norm_num)]
        rfl
      · change scaled scale (draw _ (nearest 480 w (w - 1 - x)) (nearest 360 h y)) = _
        rw [draw_at, nearest_inside _ _ _ (by omega) (by norm_num), nearest_inside _ _ _ hy (by norm_num)]
        rfl
    rw [key]
    exact scaled_value scale hs d
  · rw [if_neg hr] at hi
    simp at hi

/-- C202. A blank line after complete records makes the file unreadable, whatever follows. -/
theorem blank_refused (l : List Rec) (hl : ∀ r ∈ l, r.Ok) (rest : List Char) :
    readTruth (fileText l ++ '\n' :: rest) = none := by
  unfold readTruth
  rw [readLoop_stuck l hl]
  intro n buf ns m
  cases n with
  | zero => rfl
  | succ n =>
    unfold readLoop
    have := getline_line [] rest buf (by simp)
    rw [List.nil_append] at this
    rw [this]
    rfl

/-- C202. A record cut at the end of its first line, without line feed, is refused. -/
theorem first_line_refused (l : List Rec) (hl : ∀ r ∈ l, r.Ok) (r : Rec) (hr : r.Ok) :
    readTruth (fileText l ++ ("IRForeground".toList ++ r.name ++ '.' :: r.ext)) = none := by
  change readTruth (fileText l ++ r.line) = none
  unfold readTruth
  rw [readLoop_stuck l hl]
  intro n buf ns m
  cases n with
  | zero => rfl
  | succ n =>
    have hne : r.line.isEmpty = false := rfl
    have g : getline { rest := r.line } buf = ({ rest := [], eof := true, fail := false }, r.line) := by
      unfold getline
      rw [if_neg (by simp), if_neg (line_plain r hr).1, hne]
    have hb : bounded 480 r.line = none := by unfold bounded; rw [stoi_line]
    have hrec : readRecord { rest := [], eof := true, fail := false } r.line = none := by
      unfold readRecord
      rw [extract_line r hr]
      have hn : r.name.isEmpty = false := by
        have := hr.name
        cases hx : r.name with
        | nil => rw [hx] at this; exact absurd rfl this.1
        | cons => rfl
      simp [hn, getline, hb]
    unfold readLoop
    rw [g]
    simp only [Bool.false_eq_true, if_false, hrec]

/-- Characters of a literal. -/
abbrev L (s : String) : List Char := s.toList

/-- Two frames with all files, one without masks; records for a frame and for a missing one. -/
def exF : List (Bool × List Char) := [(true, ['7']), (true, ['8']), (true, ['1', '2']), (false, ['1', '2']), (false, ['7']), (false, ['8'])]
def exM : List (Bool × List Char) := [(false, ['7']), (true, ['1', '2']), (false, ['1', '2']), (true, ['7'])]
def exR : List Rec := [⟨['1', '2'], ['j', 'p', 'g'], ['v'], ⟨5, 6, 20⟩⟩, ⟨['9'], ['j'], [], ⟨1, 1, 40⟩⟩,
  ⟨['1', '2'], ['j', 'p', 'g'], ['v'], ⟨5, 6, 30⟩⟩, ⟨['1', '2'], [], ['v'], ⟨0, 0, 3⟩⟩]

example : common exF exM = [['7'], ['1', '2']] := by decide +kernel

theorem exGood : Good ['/', 'a'] ['/', 'b'] exF exM exR := by
  have hn : ∀ e ∈ exF ++ exM, IsName e.2 := by
    intro e he
    have : e.2 = ['7'] ∨ e.2 = ['8'] ∨ e.2 = ['1', '2'] := by
      simp [exF, exM] at he
      rcases he with rfl | rfl | rfl | rfl | rfl | rfl | rfl | rfl | rfl | rfl <;> simp
    rcases this with h | h | h <;> rw [h] <;> exact ⟨by decide, by decide, by decide⟩
  have pl : ∀ d : List Char, 'R' ∉ d → 'V' ∉ d → Plain d := by
    intro d h1 h2
    exact ⟨fun h => h1 (h.sublist.subset (by decide)), fun h => h2 (h.sublist.subset (by decide))⟩
  refine ⟨pl _ (by decide) (by decide), pl _ (by decide) (by decide), fun e he => hn e (List.mem_append_left _ he),
    fun e he => hn e (List.mem_append_right _ he), by decide +kernel, by decide +kernel, ?_⟩
  intro r hr
  simp [exR] at hr
  rcases hr with rfl | rfl | rfl | rfl
  · exact ⟨⟨by decide, by decide, by decide⟩, by decide, by decide, by decide, by decide, by decide⟩
  · exact ⟨⟨by decide, by decide, by decide⟩, by decide, by decide, by decide, by decide, by decide⟩
  · exact ⟨⟨by decide, by decide, by decide⟩, by decide, by decide, by decide, by decide, by decide⟩
  · exact ⟨⟨by decide, by decide, by decide⟩, by decide, by decide, by decide, by decide, by decide⟩

example : maxDisp exR = 40 ∧ dispAt (pointsOf exR ['1', '2']) 5 6 = 30 ∧ dispAt (pointsOf exR ['1', '2']) 4 6 = 255 := by
  decide +kernel

example : (bounds none exR).2 = 40 ∧ ⌊(40 : ℚ) * (1 / 2)⌋.toNat = 20 ∧ ∀ r ∈ exR, r.Ok := by
  refine ⟨by decide +kernel, by decide +kernel, exGood.recs⟩

/-- C202 does not hold for truncated files. When the last line has no line feed, reading past it leaves the buffer as it
is: a record that ends after its third line is accepted, with the column as row and as disparity. -/
theorem truncated_refuted :
    readTruth (L "IRForeground3.jpg\nVisForeground3.jpg\n17") =
      some ([['3']], [(['3'], [⟨17, 17, 17⟩])]) ∧
    readTruth (L "IRForeground3.jpg\nVisForeground3.jpg\n17\n") = none ∧
    readTruth (L "IRForeground3.jpg\nVisForeground3.jpg\n17\n8\n9\n\n") = none ∧
    readTruth (L "IRForeground3.jpg\nVisForeground3.jpg\n17\n8\n9") = some ([['3']], [(['3'], [⟨17, 8, 9⟩])]) := by
  refine ⟨by decide +kernel, by decide +kernel, by decide +kernel, by decide +kernel⟩

/-! ### C203: disparity range -/

/-- C203. Without range file and at the original size the range starts at zero, its end is the greatest disparity of the
records, and every value of every ground truth map is "don't care" or within the range. With a range file the range is
the one it gives. What is missing: other scale factors, see `range_refuted`. -/
theorem range_partial (din dm : List Char) (f m : List (Bool × List Char)) (l : List Rec) (hg : Good din dm f m l)
    (masks : Bool) (h0 : 0 < maxDisp l) (P : Parsed)
    (hP : parse din dm (listing din "IR" "Vis" f) (listing dm "IRForeground" "VisForeground" m) masks (fileText l)
      none 1 = some P) :
    P.lo = 0 ∧ (∀ r ∈ l, r.pt.d ≤ P.hi) ∧ (∃ r ∈ l, r.pt.d = P.hi) ∧
    ∀ k flipped img, k < (common f m).length → gtMap P.truth k 1 480 360 flipped = some img →
      ∀ x y, img x y = 255 ∨ img x y ≤ P.hi := by
  obtain ⟨t, h, -, -⟩ := parse_good din dm f m l hg masks none 1 (fun _ => h0) (by
    rw [floor_one, floor_one]; exact h0)
  have e := Option.some.inj (hP.symm.trans h)
  have hlo : P.lo = 0 := by rw [e]; exact floor_one 0
  have hhi : P.hi = maxDisp l := by rw [e]; exact floor_one _
  obtain ⟨-, m2, m3⟩ := foldl_max l 0
  refine ⟨hlo, fun r hr => by rw [hhi]; exact m2 r hr, ?_, ?_⟩
  · rw [hhi]
    rcases m3 with m3 | m3
    · exfalso; unfold maxDisp at h0; omega
    · exact m3
  · intro k flipped img hk hi x y
    rw [(truth_partial din dm f m l hg masks h0 P hP flipped k).2 img hi hk x y, hhi]
    generalize (if flipped = true then 479 - x else x) = x'
    unfold dispAt
    cases hx : ((pointsOf l (common f m)[k]).filter fun p => p.x = x' ∧ p.y = y).getLast? with
    | none => left; rfl
    | some p =>
      right
      have hp := List.mem_of_getLast? hx
      have hp := (List.mem_filter.1 hp).1
      unfold pointsOf at hp
      obtain ⟨r, hr, rfl⟩ := List.mem_map.1 hp
      exact m2 r (List.mem_filter.1 hr).1

/-- C203, range file at the original size. -/
theorem range_file (din dm : List Char) (f m : List (Bool × List Char)) (l : List Rec) (hg : Good din dm f m l)
    (masks : Bool) (a b : Nat) (hab : a < b) :
    ∃ P, parse din dm (listing din "IR" "Vis" f) (listing dm "IRForeground" "VisForeground" m) masks (fileText l)
      (some (a, some b)) 1 = some P ∧ P.lo = a ∧ P.hi = b := by
  obtain ⟨t, h, -, -⟩ := parse_good din dm f m l hg masks (some (a, some b)) 1 (by simp) (by
    rw [floor_one, floor_one]; exact hab)
  exact ⟨_, h, floor_one a, floor_one b⟩

/-- C203 does not hold at other scales, nor is every well-formed sequence read: the bounds are truncated while the
disparities are rounded, so that at scale 3/4 a disparity of 2 is 2 in the map and above the greatest disparity, 1; a
large scale factor turns disparities into "don't care"; and a sequence without positive disparity is refused. -/
theorem range_refuted :
    range none (3/4) (L "IRForeground3.jpg\nv\n0\n0\n2\n") = some (0, 1) ∧
    (∃ img, gtMap ⟨[[⟨0, 0, 2⟩]], [(0, 0)], [(0, 3)]⟩ 0 (3/4) 360 270 false = some img ∧ img 0 0 = 2) ∧
    range none 3 (L "IRForeground3.jpg\nv\n0\n0\n90\n") = some (0, 270) ∧
    (∃ img, gtMap ⟨[[⟨0, 0, 90⟩]], [(0, 0)], [(0, 3)]⟩ 0 3 1440 1080 false = some img ∧ img 0 0 = 255) ∧
    range none 1 (L "IRForeground3.jpg\nv\n0\n0\n0\n") = none := by
  refine ⟨by decide +kernel, ⟨_, rfl, by decide +kernel⟩, by decide +kernel, ⟨_, rfl, by decide +kernel⟩, by decide +kernel⟩

end Litiv.Bilodeau
