import Verif.Lemmas.Display

/-!
# C170-C173: the display helper
-/

namespace Litiv.Display
open Spec

variable {ι α : Type} (prepare : ι → Size → Option (Int × Int × Bool) → Img α)

/-! ### C170: what is shown, and what the mouse callback reports -/

/-- C170: a display is a grid of equally large tiles, one for each image, and every pixel of it is that of its tile; tiles and display have
the sizes reported by the next mouse events. -/
theorem display_grid (hp : Resizes prepare) (s s' : St α) (rows : List (List ι)) (sug : Size) (h : display prepare s rows sug = some s') :
    ∃ shown, s'.shown = some shown ∧ (shown.cols : Int) = s'.lastTile.w * ((rows.headD []).length : Int) ∧
      (shown.rows : Int) = s'.lastTile.h * (rows.length : Int) ∧ s'.lastDisp = ⟨shown.cols, shown.rows⟩ ∧
      ∀ r (hr : r < rows.length) c (hc : c < rows[r].length) (u v : Nat), (u : Int) < s'.lastTile.w → (v : Int) < s'.lastTile.h →
        ∃ cur, shown.px (r * s'.lastTile.h.toNat + v) (c * s'.lastTile.w.toNat + u) = (prepare rows[r][c] s'.lastTile cur).px v u := by
  obtain ⟨tile, shown, h1, h2, h3, rfl, h4, h5, h6⟩ := display_spec prepare hp s s' rows sug h
  refine ⟨shown, rfl, h4, h5, rfl, fun r hr c hc u v hu hv => ⟨_, h6 r hr c hc u v ?_ ?_⟩⟩
  · dsimp only at hu; omega
  · dsimp only at hv; omega

/-- C170: after a display and any mouse events, keys and option changes, a mouse event on the display reports the tile under the mouse
and the position in it: the pixel shown under the mouse is the pixel of that tile's image at the reported position. -/
theorem mouse_reports (hp : Resizes prepare) (s s' : St α) (rows : List (List ι)) (sug : Size) (h : display prepare s rows sug = some s')
    (acts : List Act) (shown : Img α) (hs : (acts.foldl Act.run s').shown = some shown) (event flags : Int) (x y : Nat) (hx : x < shown.cols) (hy : y < shown.rows) :
    ∃ e, (mouse (acts.foldl Act.run s') event x y flags).latest = e ∧ e.x = x ∧ e.y = y ∧ e.disp = ⟨shown.cols, shown.rows⟩ ∧ e.event = event ∧ e.flags = flags ∧
      0 ≤ e.ix ∧ e.ix < e.tile.w ∧ 0 ≤ e.iy ∧ e.iy < e.tile.h ∧
      ∃ (r c : Nat) (hr : r < rows.length) (hc : c < rows[r].length) (cur : _), (r : Int) = y / e.tile.h ∧ (c : Int) = x / e.tile.w ∧
        (x : Int) = c * e.tile.w + e.ix ∧ (y : Int) = r * e.tile.h + e.iy ∧
        shown.px y x = (prepare rows[r][c] e.tile cur).px e.iy.toNat e.ix.toNat := by
  obtain ⟨tile, shown', h1, h2, h3, rfl, h4, h5, h6⟩ := display_spec prepare hp s s' rows sug h
  obtain ⟨k1, k2, k3, _⟩ := runs_keep { s with lastDisp := ⟨(shown'.cols : Int), (shown'.rows : Int)⟩, lastTile := tile, shown := some shown' } acts
  generalize hS : acts.foldl Act.run _ = S at hs k1 k2 k3 ⊢
  rw [hs] at k3
  dsimp only at k1 k2 k3
  cases k3
  obtain ⟨t1, t2, t3, _⟩ := tileSize_some s.max rows sug tile h1
  have hw : (tile.w.toNat : Int) = tile.w := by omega
  have hh : (tile.h.toNat : Int) = tile.h := by omega
  have hW : 0 < tile.w.toNat := by omega
  have hH : 0 < tile.h.toNat := by omega
  have e := mouse_inside S event flags x y (by rw [k1]; exact Int.ofNat_lt.2 hx) (by rw [k1]; exact Int.ofNat_lt.2 hy) (by rw [k2]; exact h2) (by rw [k2]; exact h3)
  rw [k1, k2] at e
  refine ⟨_, e, rfl, rfl, rfl, rfl, rfl, Int.natCast_nonneg _, ?_, Int.natCast_nonneg _, ?_, ?_⟩
  · dsimp only
    have := Nat.mod_lt x hW
    omega
  · dsimp only
    have := Nat.mod_lt y hH
    omega
  · have hr : y / tile.h.toNat < rows.length := by
      rw [Nat.div_lt_iff_lt_mul hH]
      have : (y : Int) < tile.h * rows.length := by rw [← h5]; exact_mod_cast hy
      rw [← hh] at this
      have : y < tile.h.toNat * rows.length := by exact_mod_cast this
      rw [Nat.mul_comm]; exact this
    have hc : x / tile.w.toNat < rows[y / tile.h.toNat].length := by
      rw [t3 _ (List.getElem_mem hr), Nat.div_lt_iff_lt_mul hW]
      have : (x : Int) < tile.w * ((rows.headD []).length : Int) := by rw [← h4]; exact_mod_cast hx
      rw [← hw] at this
      have : x < tile.w.toNat * (rows.headD []).length := by exact_mod_cast this
      rw [Nat.mul_comm]; exact this
    have key := h6 _ hr _ hc (x % tile.w.toNat) (y % tile.h.toNat) (Nat.mod_lt x hW) (Nat.mod_lt y hH)
    have ex : x / tile.w.toNat * tile.w.toNat + x % tile.w.toNat = x := by rw [Nat.mul_comm]; exact Nat.div_add_mod x _
    have ey : y / tile.h.toNat * tile.h.toNat + y % tile.h.toNat = y := by rw [Nat.mul_comm]; exact Nat.div_add_mod y _
    rw [ex, ey] at key
    refine ⟨_, _, hr, hc, _, ?_, ?_, ?_, ?_, key⟩
    · dsimp only; rw [Int.natCast_ediv, hh]
    · dsimp only; rw [Int.natCast_ediv, hw]
    · dsimp only; rw [← hw]; exact_mod_cast ex.symm
    · dsimp only; rw [← hh]; exact_mod_cast ey.symm

/-- C170: if the same kind of display is shown again after a mouse event on it, the cursor is drawn on every tile at the reported
position, and highlighted on the tile under the mouse only. -/
theorem cursor_drawn (hp : Resizes prepare) (s s' s'' : St α) (rows rows' : List (List ι)) (sug : Size) (h : display prepare s rows sug = some s')
    (hc : s'.cursor = true) (shown : Img α) (hs : s'.shown = some shown) (event flags : Int) (x y : Nat) (hx : x < shown.cols) (hy : y < shown.rows)
    (h' : display prepare (mouse s' event x y flags) rows' sug = some s'') (ht : s''.lastTile = s'.lastTile) (shown' : Img α) (hs' : s''.shown = some shown')
    (r c u v : Nat) (hr : r < rows'.length) (hc' : c < rows'[r].length) (hu : (u : Int) < s'.lastTile.w) (hv : (v : Int) < s'.lastTile.h) :
    shown'.px (r * s'.lastTile.h.toNat + v) (c * s'.lastTile.w.toNat + u) =
      (prepare rows'[r][c] s'.lastTile (some (x % s'.lastTile.w, y % s'.lastTile.h,
        decide (x / s'.lastTile.w = (c : Int) ∧ y / s'.lastTile.h = (r : Int))))).px v u := by
  obtain ⟨tile, sh, h1, h2, h3, rfl, h4, h5, h6⟩ := display_spec prepare hp s s' rows sug h
  dsimp only at hc hs
  cases hs
  obtain ⟨tile', sh', g1, g2, g3, rfl, g4, g5, g6⟩ := display_spec prepare hp _ s'' rows' sug h'
  dsimp only at ht hs' hu hv ⊢
  cases hs'
  subst ht
  have hw : (tile'.w.toNat : Int) = tile'.w := by omega
  have hh : (tile'.h.toNat : Int) = tile'.h := by omega
  rw [g6 r hr c hc' u v (by omega) (by omega)]
  congr 1
  have e := mouse_inside { s with lastDisp := ⟨(shown.cols : Int), (shown.rows : Int)⟩, lastTile := tile', shown := some shown } event flags x y
    (Int.ofNat_lt.2 hx) (Int.ofNat_lt.2 hy) h2 h3
  rw [e]
  have hc1 : (mouse { s with lastDisp := ⟨(shown.cols : Int), (shown.rows : Int)⟩, lastTile := tile', shown := some shown } event x y flags).cursor = true := hc
  rw [hc1]
  have m1 := Nat.mod_lt x (by omega : 0 < tile'.w.toNat)
  have m2 := Nat.mod_lt y (by omega : 0 < tile'.h.toNat)
  unfold cursorOn
  rw [if_pos ⟨rfl, by dsimp only; omega, by dsimp only; omega, by dsimp only; omega, by dsimp only; omega, rfl⟩]
  dsimp only
  rw [Int.tdiv_eq_ediv_of_nonneg (by omega), Int.tdiv_eq_ediv_of_nonneg (by omega)]
  have f1 : ((x % tile'.w.toNat : Nat) : Int) = (x : Int) % tile'.w := by push_cast; rw [hw]
  have f2 : ((y % tile'.h.toNat : Nat) : Int) = (y : Int) % tile'.h := by push_cast; rw [hh]
  rw [f1, f2]

/-! ### C171: maximum size -/

/-- C171, partial: with a maximum size which is a square, the display always fits into it. -/
theorem display_fits_square_partial (hp : Resizes prepare) (s s' : St α) (rows : List (List ι)) (sug : Size) (h : display prepare s rows sug = some s')
    (hm : Sane s.max) (ht : Sane (total rows sug)) (hsq : s.max.w = s.max.h) : Fits s.max s'.lastDisp := by
  obtain ⟨tile, shown, h1, h2, h3, rfl, h4, h5, h6⟩ := display_spec prepare hp s s' rows sug h
  obtain ⟨t1, t2, t3, t4, rfl⟩ := tileSize_some s.max rows sug tile h1
  have hf : Fits s.max (fit s.max (total rows sug)) := by
    refine fit_portrait _ _ hm ht hsq.le ?_
    rcases lt_or_ge (total rows sug).h (total rows sug).w with h | h
    · exact Or.inl h
    · refine Or.inr ?_
      have := hm.1
      rw [← hsq]; nlinarith
  dsimp only at h4 h5 ⊢
  constructor
  · dsimp only
    rw [h4]
    exact le_trans (Int.ediv_mul_le _ (by omega)) hf.1
  · dsimp only
    rw [h5]
    exact le_trans (Int.ediv_mul_le _ (by omega)) hf.2

/-- C171, partial: with a maximum size wider than high, as by default, the display fits into it, unless it is too wide, wider than high,
and not as wide in proportion as the maximum size. Missing: these displays, see `display_fits_refuted`. -/
theorem display_fits_partial (hp : Resizes prepare) (s s' : St α) (rows : List (List ι)) (sug : Size) (h : display prepare s rows sug = some s')
    (hm : Sane s.max) (ht : Sane (total rows sug)) (hl : s.max.h ≤ s.max.w)
    (hno : ¬(s.max.w < (total rows sug).w ∧ (total rows sug).h < (total rows sug).w ∧ s.max.h * (total rows sug).w < (total rows sug).h * s.max.w)) :
    Fits s.max s'.lastDisp := by
  obtain ⟨tile, shown, h1, h2, h3, rfl, h4, h5, h6⟩ := display_spec prepare hp s s' rows sug h
  obtain ⟨t1, t2, t3, t4, rfl⟩ := tileSize_some s.max rows sug tile h1
  have hf := fit_landscape _ _ hm ht hl hno
  dsimp only at h4 h5 ⊢
  constructor
  · dsimp only
    rw [h4]
    exact le_trans (Int.ediv_mul_le _ (by omega)) hf.1
  · dsimp only
    rw [h5]
    exact le_trans (Int.ediv_mul_le _ (by omega)) hf.2

/-- C171, partial: with a maximum size wider than high, images are never enlarged over the suggested tile size. Missing: maximum sizes higher than
wide, see `display_enlarged_refuted`. -/
theorem display_not_enlarged_partial (hp : Resizes prepare) (s s' : St α) (rows : List (List ι)) (sug : Size) (h : display prepare s rows sug = some s')
    (hm : Sane s.max) (ht : Sane (total rows sug)) (hl : s.max.h ≤ s.max.w) : Fits sug s'.lastTile := by
  obtain ⟨tile, shown, h1, h2, h3, rfl, h4, h5, h6⟩ := display_spec prepare hp s s' rows sug h
  obtain ⟨t1, t2, t3, t4, rfl⟩ := tileSize_some s.max rows sug tile h1
  have hf := fit_shrinks _ _ hm ht hl
  constructor
  · dsimp only
    have : (fit s.max (total rows sug)).w / ((rows.headD []).length : Int) ≤ (total rows sug).w / ((rows.headD []).length : Int) := Int.ediv_le_ediv (by omega) hf.1
    refine le_trans this ?_
    rw [total, Int.mul_ediv_cancel _ (by omega)]
  · dsimp only
    have : (fit s.max (total rows sug)).h / (rows.length : Int) ≤ (total rows sug).h / (rows.length : Int) := Int.ediv_le_ediv (by omega) hf.2
    refine le_trans this ?_
    rw [total, Int.mul_ediv_cancel _ (by omega)]

/-- C171: a display which is small enough keeps the suggested tile size. -/
theorem display_unchanged (hp : Resizes prepare) (s s' : St α) (rows : List (List ι)) (sug : Size) (h : display prepare s rows sug = some s')
    (hf : Fits s.max (total rows sug)) : s'.lastTile = sug := by
  obtain ⟨tile, shown, h1, h2, h3, rfl, h4, h5, h6⟩ := display_spec prepare hp s s' rows sug h
  obtain ⟨t1, t2, t3, t4, rfl⟩ := tileSize_some s.max rows sug tile h1
  have : fit s.max (total rows sug) = total rows sug := by
    rw [fit, if_neg]
    rintro ⟨_, h | h⟩
    · have := hf.1; omega
    · have := hf.2; omega
  dsimp only
  rw [this, total, Int.mul_ediv_cancel _ (by omega), Int.mul_ediv_cancel _ (by omega)]

/-- C171: images in rows of the same length can be shown if no tile gets an empty size; so always if the maximum size is not exceeded. -/
theorem display_succeeds (hp : Resizes prepare) (s : St α) (rows : List (List ι)) (sug : Size) (n : Nat) (hr : ∀ r ∈ rows, r.length = n) (h0 : 0 < n) (h1 : rows ≠ [])
    (hw : 0 < sug.w) (hh : 0 < sug.h) (hf : Fits s.max (total rows sug) ∨ ((n : Int) ≤ (fit s.max (total rows sug)).w ∧ (rows.length : Int) ≤ (fit s.max (total rows sug)).h)) :
    ∃ s', display prepare s rows sug = some s' := by
  cases rows with
  | nil => exact absurd rfl h1
  | cons r0 rs =>
    have e0 : r0.length = n := hr r0 (by simp)
    have ht : tileSize s.max (r0 :: rs) sug = some ⟨(fit s.max (total (r0 :: rs) sug)).w / (n : Int), (fit s.max (total (r0 :: rs) sug)).h / ((rs.length + 1 : Nat) : Int)⟩ := by
      simp only [tileSize]
      rw [if_pos ⟨mul_pos hw hh, by omega, by rw [List.all_eq_true]; intro r h; simp [hr r (by simp [h]), e0]⟩]
      simp [total, e0]
    have hpos : 0 < (fit s.max (total (r0 :: rs) sug)).w / (n : Int) ∧ 0 < (fit s.max (total (r0 :: rs) sug)).h / ((rs.length + 1 : Nat) : Int) := by
      rcases hf with hf | hf
      · have : fit s.max (total (r0 :: rs) sug) = total (r0 :: rs) sug := by
          rw [fit, if_neg]
          rintro ⟨_, h | h⟩
          · have := hf.1; omega
          · have := hf.2; omega
        rw [this]
        simp only [total, List.headD_cons, List.length_cons, e0]
        rw [Int.mul_ediv_cancel _ (by omega), Int.mul_ediv_cancel _ (by omega)]
        exact ⟨hw, hh⟩
      · exact ⟨(Int.le_ediv_iff_mul_le (by omega)).2 (by simpa using hf.1), (Int.le_ediv_iff_mul_le (by omega)).2 (by simpa using hf.2)⟩
    obtain ⟨l, l1, l2, l3, _⟩ := rowImgs_spec prepare hp s ⟨(fit s.max (total (r0 :: rs) sug)).w / (n : Int), (fit s.max (total (r0 :: rs) sug)).h / ((rs.length + 1 : Nat) : Int)⟩ hpos.1 hpos.2 n h0 (r0 :: rs) hr 0
    cases l with
    | nil => simp at l2
    | cons i is =>
      obtain ⟨j, j1, _⟩ := joinCol_spec _ _ (Int.pos_iff_toNat_pos.1 hpos.2) is i 1 (by rw [(l3 i (by simp)).1, Nat.one_mul]) (l3 i (by simp)).2 (fun t ht => l3 t (by simp [ht]))
      unfold display
      rw [ht]
      simp only [Option.bind_eq_bind, Option.bind_some]
      rw [if_pos hpos, l1]
      dsimp only
      rw [j1]
      exact ⟨_, rfl⟩

/-- A way to prepare images for the examples: the tile number in every pixel. -/
def plain (i : Nat) (t : Size) (_ : Option (Int × Int × Bool)) : Img Nat := ⟨t.h.toNat, t.w.toNat, fun y x => 10000 * i + 100 * y + x⟩

theorem plain_resizes : Resizes plain := fun _ t _ h1 h2 => ⟨by simp [plain]; omega, by simp [plain]; omega⟩

/-- A helper with the default maximum size. -/
def helper : St Nat := create ⟨2560, 1440⟩ ⟨0, 0, 0, 0, ⟨0, 0⟩, ⟨0, 0⟩, 0, 0⟩

/-- C171, refuted: an image of 2600 by 1950 pixels is shown with 2560 by 1920 pixels, although the maximum height is 1440. -/
theorem display_fits_refuted : ∃ s', display plain helper [[7]] ⟨2600, 1950⟩ = some s' ∧ s'.lastDisp = ⟨2560, 1920⟩ ∧ ¬ Fits helper.max s'.lastDisp := by
  have h : (display plain helper [[7]] ⟨2600, 1950⟩).map (fun s => s.lastDisp) = some ⟨2560, 1920⟩ := by decide +kernel
  cases hd : display plain helper [[7]] ⟨2600, 1950⟩ with
  | none => rw [hd] at h; cases h
  | some s' =>
    rw [hd] at h
    have h : s'.lastDisp = ⟨2560, 1920⟩ := Option.some.inj h
    refine ⟨s', rfl, h, ?_⟩
    rw [h]
    rintro ⟨_, h2⟩
    exact absurd h2 (by decide)

/-- C171, refuted: with a maximum size of 100 by 1000 pixels, an image of 150 by 150 pixels is shown with 1000 by 1000 pixels. -/
theorem display_enlarged_refuted : (display plain (create ⟨100, 1000⟩ helper.latest) [[7]] ⟨150, 150⟩).map (fun s => s.lastDisp) = some ⟨1000, 1000⟩ := by
  decide +kernel

/-- C171, refuted: images much wider than high cannot be shown. -/
theorem display_possible_refuted : (display plain helper [[7, 8]] ⟨1500, 1⟩).isNone = true := by decide +kernel

/-! ### C172: keys -/

/-- C172: an album starts with its first image and shows only images it has; the image shown at the end is the number of steps right
minus those left from the first, around the ends. -/
theorem album_position (n : Nat) (hn : 0 < n) (keys : List Int) (hk : ∀ k ∈ keys, ¬ Escape k) :
    ∃ l, album n keys = some (0 :: l) ∧ (∀ i ∈ l, i < n) ∧ (((0 :: l).getLastD 0 : Nat) : Int) = steps keys % n := by
  obtain ⟨l, l1, l2, l3⟩ := albumLoop_spec n 0 keys hn hk
  exact ⟨l, by rw [album, if_pos hn, l1]; rfl, l2, by simpa using l3⟩

/-- C172: escape closes an album: no key after it has an effect. -/
theorem album_escape (n : Nat) (keys rest : List Int) (key : Int) (hk : ∀ k ∈ keys, ¬ Escape k) (he : Escape key) :
    album n (keys ++ key :: rest) = album n keys := by
  unfold album
  by_cases hn : 0 < n
  · rw [if_pos hn, if_pos hn, albumLoop_escape n 0 keys rest key hk he hn]
  · rw [if_neg hn, if_neg hn]

/-- C172: the space bar switches between waiting for a key and continuing; other keys do not. -/
theorem pause_toggles (s : St α) (keys : List Int) (hk : ∀ k ∈ keys, -1 ≤ k) :
    (keys.foldl (fun s k => (waitKey s k).2) s).continuous = (s.continuous ^^ decide (spaces keys % 2 = 1)) := by
  induction keys generalizing s with
  | nil => simp [spaces]
  | cons k keys ih =>
    have h0 := hk k (by simp)
    rw [List.foldl_cons, ih _ (fun k hk' => hk k (by simp [hk']))]
    have hsp : ((' ').toNat : Int) = 32 := rfl
    by_cases h : 0 ≤ k ∧ k % 256 = 32
    · have e1 : (waitKey s k).2.continuous = !s.continuous := by
        simp only [waitKey]
        rw [if_pos (by omega : k ≠ -1), if_pos (by rw [Int.tmod_eq_emod_of_nonneg h.1]; exact h.2)]
      have e2 : spaces (k :: keys) = spaces keys + 1 := by
        simp only [spaces, hsp, List.filter_cons]
        rw [if_pos (by simpa using h)]
        rfl
      rw [e1, e2]
      rcases Nat.mod_two_eq_zero_or_one (spaces keys) with h | h
      · rw [show (spaces keys + 1) % 2 = 1 by omega, h]; cases s.continuous <;> rfl
      · rw [show (spaces keys + 1) % 2 = 0 by omega, h]; cases s.continuous <;> rfl
    · have e1 : (waitKey s k).2.continuous = s.continuous := by
        simp only [waitKey]
        rw [if_neg]
        by_cases h1 : k = -1
        · rw [if_neg (by simpa using h1), h1]; decide
        · rw [if_pos h1, Int.tmod_eq_emod_of_nonneg (by omega)]
          intro h2; exact h ⟨by omega, h2⟩
      have e2 : spaces (k :: keys) = spaces keys := by
        simp only [spaces, hsp, List.filter_cons]
        rw [if_neg (by simpa using h)]
      rw [e1, e2]

/-- C172: a new helper waits for a key until the space bar is pressed an odd number of times. -/
theorem pause_new (max : Size) (junk : Event) (keys : List Int) (hk : ∀ k ∈ keys, -1 ≤ k) (delay : Int) :
    waitDelay (keys.foldl (fun s k => (waitKey s k).2) (create max junk : St α)) delay = (if spaces keys % 2 = 1 then delay else 0) := by
  have h := pause_toggles (create max junk : St α) keys hk
  have e : (create max junk : St α).continuous = false := rfl
  rw [e] at h
  unfold waitDelay
  by_cases hs : spaces keys % 2 = 1 <;> simp [h, hs]

/-- C172: while paused, the helper waits for a key without limit; otherwise for the given delay. The key returned is -1 for none, or within a byte. -/
theorem wait_spec (s : St α) (delay raw : Int) (hr : -1 ≤ raw) : waitDelay s delay = (if s.continuous then delay else 0) ∧
    (raw = -1 → (waitKey s raw).1 = -1) ∧ (0 ≤ raw → (waitKey s raw).1 = raw % 256) := by
  refine ⟨rfl, ?_, ?_⟩
  · rintro rfl; rfl
  · intro h
    simp only [waitKey]
    rw [if_pos (by omega), Int.tmod_eq_emod_of_nonneg h]

/-! ### C173: values and points -/

/-- C173: 16-bit values are shown by the nearest of 256 brightnesses, from 0 for 0 to 255 for 65535. -/
theorem conv16u_spec (v : Nat) (h : v ≤ 65535) : |(conv16u v : ℚ) - v / 257| ≤ 1 / 2 ∧ (∀ w, v ≤ w → conv16u v ≤ conv16u w) ∧ conv16u 0 = 0 ∧ conv16u 65535 = 255 := by
  have hv : (v : ℚ) ≤ 65535 := by exact_mod_cast h
  have hv0 : (0 : ℚ) ≤ v := by positivity
  refine ⟨?_, ?_, by decide +kernel, by decide +kernel⟩
  · have := sat8_near ((v : ℚ) * (255 / 65535)) (by linarith) (by linarith)
    rw [show (v : ℚ) / 257 = v * (255 / 65535) by ring]
    exact this
  · intro w hw
    refine sat8_mono _ _ ?_
    have : (v : ℚ) ≤ w := by exact_mod_cast hw
    linarith

/-- C173: floating point values from 0 to 1 are shown by the nearest of 256 brightnesses, others by the limits. -/
theorem conv32f_spec (v : ℚ) : (0 ≤ v → v ≤ 1 → |(conv32f v : ℚ) - 255 * v| ≤ 1 / 2) ∧ (∀ w, v ≤ w → conv32f v ≤ conv32f w) ∧
    (1 ≤ v → conv32f v = 255) ∧ (v ≤ 0 → conv32f v = 0) := by
  have up : ∀ q : ℚ, sat8 q ≤ 255 ∧ 0 ≤ sat8 q := fun q => by unfold sat8; omega
  refine ⟨?_, ?_, ?_, ?_⟩
  · intro h0 h1
    have := sat8_near (v * 255) (by linarith) (by linarith)
    rw [show (255 : ℚ) * v = v * 255 by ring]
    exact this
  · intro w hw; exact sat8_mono _ _ (by linarith)
  · intro h
    have h1 : sat8 255 ≤ conv32f v := sat8_mono _ _ (by linarith)
    have h2 : sat8 255 = 255 := by decide +kernel
    have := (up (v * 255)).1
    unfold conv32f at *
    omega
  · intro h
    have h1 : conv32f v ≤ sat8 0 := sat8_mono _ _ (by linarith)
    have h2 : sat8 0 = 0 := by decide +kernel
    have := (up (v * 255)).2
    unfold conv32f at *
    omega

/-- C173, partial: 32-bit integers up to `2^30` are shown by the nearest brightness on a linear scale with 127 for 0. Missing: half of the range, see
`conv32s_refuted`. -/
theorem conv32s_partial (v : Int) : (∀ w, v ≤ w → conv32s v ≤ conv32s w) ∧ conv32s 0 = 127 ∧
    (-2 ^ 30 < v → v ≤ 2 ^ 30 → |(conv32s v : ℚ) - (127 + 255 * (v / 2147483647))| ≤ 1 / 2) := by
  refine ⟨?_, by decide +kernel, ?_⟩
  · intro w hw
    refine sat8_mono _ _ ?_
    have : (v : ℚ) ≤ w := by exact_mod_cast hw
    linarith
  · intro h1 h2
    have h1' : -(2 : ℚ) ^ 30 + 1 ≤ v := by exact_mod_cast (by omega : -2 ^ 30 + 1 ≤ v)
    have h2' : (v : ℚ) ≤ 2 ^ 30 := by exact_mod_cast h2
    norm_num at h1' h2'
    have := sat8_near ((v : ℚ) * (255 / 2147483647) + 127) (by linarith) (by linarith)
    rw [show (127 : ℚ) + 255 * (v / 2147483647) = v * (255 / 2147483647) + 127 by ring]
    exact this

/-- C173, refuted: the expected range of 32-bit integers is the full one, but all values from `2^30` on are shown white and all up to
`-2^30` black. -/
theorem conv32s_refuted (v : Int) : (2 ^ 30 ≤ v → conv32s v = 255) ∧ (v ≤ -2 ^ 30 → conv32s v = 0) := by
  have up : ∀ q : ℚ, sat8 q ≤ 255 ∧ 0 ≤ sat8 q := fun q => by unfold sat8; omega
  constructor
  · intro h
    have h1 := (conv32s_partial (2 ^ 30)).1 v h
    have h2 : conv32s (2 ^ 30) = 255 := by decide +kernel
    have := (up ((v : ℚ) * (255 / 2147483647) + 127)).1
    unfold conv32s at *
    omega
  · intro h
    have h1 := (conv32s_partial v).1 (-2 ^ 30) h
    have h2 : conv32s (-2 ^ 30) = 0 := by decide +kernel
    have := (up ((v : ℚ) * (255 / 2147483647) + 127)).2
    unfold conv32s at *
    omega

/-- C173: the annotation tool never uses a point outside of its image, for a position inside of a tile. -/
theorem annot_inside (i tile size : Int) (h0 : 0 ≤ i) (h1 : i < tile) (h2 : tile ≤ 4096) (h3 : 0 < size) (h4 : size ≤ 4096) :
    0 ≤ annotPt i tile size ∧ annotPt i tile size < size := annot_range i tile size h0 h1 h2 h3 h4

/-- C173, refuted: the pixel the background subtractors print debugging output for is not the one under the mouse: with input, debug image and
output of 320 by 240 pixels next to each other, the mouse on column 330 is on column 10 of the second tile, and column 110 is chosen. -/
theorem debug_point_refuted : ∃ s', display plain helper [[1, 2, 3]] ⟨320, 240⟩ = some s' ∧ s'.lastTile = ⟨320, 240⟩ ∧
    (mouse s' 0 330 5 0).latest.ix = 10 ∧ debugPt (mouse s' 0 330 5 0).latest.x (mouse s' 0 330 5 0).latest.disp.w 320 = 110 := by
  have h : (display plain helper [[1, 2, 3]] ⟨320, 240⟩).map (fun s => (s.lastTile, (mouse s 0 330 5 0).latest.ix,
      debugPt (mouse s 0 330 5 0).latest.x (mouse s 0 330 5 0).latest.disp.w 320)) = some (⟨320, 240⟩, 10, 110) := by decide +kernel
  cases hd : display plain helper [[1, 2, 3]] ⟨320, 240⟩ with
  | none => rw [hd] at h; cases h
  | some s' =>
    rw [hd] at h
    have h := Option.some.inj h
    simp only [Prod.mk.injEq] at h
    exact ⟨s', rfl, h.1, h.2.1, h.2.2⟩

/-! ### The hypotheses are met -/

/-- Two rows of three images. -/
def sampleRows : List (List Nat) := [[1, 2, 3], [4, 5, 6]]

example : ((display plain helper sampleRows ⟨4, 3⟩).map (fun s => (s.lastDisp, s.lastTile, s.shown.map (fun i => (i.px 0 0, i.px 4 9, i.px 2 11))))) =
    some (⟨12, 6⟩, ⟨4, 3⟩, some (10000, 60101, 30203)) := by decide +kernel

example : ((display plain helper sampleRows ⟨4, 3⟩).map (fun s => (mouse s 1 9 4 0).latest)) = some ⟨9, 4, 1, 1, ⟨4, 3⟩, ⟨12, 6⟩, 1, 0⟩ := by decide +kernel

example : Sane helper.max ∧ Sane (total sampleRows ⟨1000, 800⟩) ∧ helper.max.h ≤ helper.max.w ∧
    ¬(helper.max.w < (total sampleRows ⟨1000, 800⟩).w ∧ (total sampleRows ⟨1000, 800⟩).h < (total sampleRows ⟨1000, 800⟩).w ∧
      helper.max.h * (total sampleRows ⟨1000, 800⟩).w < (total sampleRows ⟨1000, 800⟩).h * helper.max.w) ∧
    (display plain helper sampleRows ⟨1000, 800⟩).map (fun s => s.lastDisp) = some ⟨2559, 1364⟩ := by
  refine ⟨?_, ?_, ?_, ?_, ?_⟩ <;> first | (unfold Sane; decide) | decide | decide +kernel

example : album 3 [100, -1, 1113939, 100, 97, 27, 100] = some [0, 1, 2, 0, 2] ∧ steps [100, -1, 1113939, 100, 97] = 2 := by decide +kernel

example : ([32, -1, 1048608, 32].foldl (fun s k => (waitKey s k).2) helper).continuous = true := by decide +kernel

example : annotPt 639 640 320 = 319 ∧ annotPt 0 640 320 = 0 ∧ conv16u 30000 = 117 ∧ conv32f (1 / 2) = 128 ∧ conv32s 1000000000 = 246 := by decide +kernel

end Litiv.Display
