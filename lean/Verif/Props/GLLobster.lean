import Verif.Lemmas.GLLobster

/-!
# Properties of the GPU LOBSTER (C160-C165)
-/

namespace Litiv.GLLobster
open Spec

/-! ### C160: layout of the model buffer and background images -/

/-- C160: the host addresses the same words as the shader for every pixel, sample and channel. -/
theorem layout_agrees (d : Dim) (h : Supported d) (row col s c : Nat) :
    hostColor d row col s c = glColor d (row * d.cols + col) s c ∧ hostDesc d row col s c = glDesc d (row * d.cols + col) s c :=
  ⟨(glColor_host d h row col s c).symm, (glDesc_host d h row col s c).symm⟩

/-- C160: different pixels, samples, channels and kinds of data have different words, all of them in the buffer. -/
theorem layout_disjoint (d : Dim) (h : Supported d) (row col s c row' col' s' c' : Nat) (hr : row < d.rows) (hc : col < d.cols) (hs : s < d.n)
    (hch : c < d.ch) (hc' : col' < d.cols) (hs' : s' < d.n) (hch' : c' < d.ch) :
    hostColor d row col s c < modelSize d ∧ hostDesc d row col s c < modelSize d ∧
    hostColor d row col s c ≠ hostDesc d row' col' s' c' ∧
    (hostColor d row col s c = hostColor d row' col' s' c' ∨ hostDesc d row col s c = hostDesc d row' col' s' c' →
      row = row' ∧ col = col' ∧ s = s' ∧ c = c') := by
  rw [← glColor_host d h, ← glColor_host d h, ← glDesc_host d h, ← glDesc_host d h]
  refine ⟨glColor_lt d h (col, row) hc hr s c hs hch, glDesc_lt d h (col, row) hc hr s c hs hch, glColor_ne_glDesc d h _ _ _ _ _ _ hs hch hs' hch', ?_⟩
  have fin : ∀ {s c s' c' : Nat}, idxOf d (col, row) = idxOf d (col', row') ∧ s = s' ∧ c = c' → row = row' ∧ col = col' ∧ s = s' ∧ c = c' := by
    rintro _ _ _ _ ⟨e1, e2, e3⟩
    have := idx_inj d _ _ hc hc' e1
    rw [Prod.mk.injEq] at this
    exact ⟨this.2, this.1, e2, e3⟩
  rintro (e | e)
  · exact fin (glColor_inj d h _ _ _ _ _ _ hs hch hs' hch' e)
  · exact fin (glDesc_inj d h _ _ _ _ _ _ hs hch hs' hch' e)

example : modelSize ⟨320, 240, 1, 35⟩ = 72 * 320 * 240 ∧ hostDesc ⟨320, 240, 1, 35⟩ 1 2 3 0 = 322 * 72 + 38 := by decide

theorem srcChan_swapped (d : Dim) (h : Supported d) (c : Nat) (hc : c < d.ch) : srcChan d c = swapped d.ch c := by
  unfold srcChan swapped
  rcases h.1 with h | h
  · simp [h]
  · rw [h] at hc ⊢
    interval_cases c <;> rfl

theorem swapped_inj (d : Dim) (h : Supported d) (c c' : Nat) (hc : c < d.ch) (hc' : c' < d.ch) (e : swapped d.ch c = swapped d.ch c') : c = c' := by
  rcases h.1 with h | h
  · rw [h] at hc hc'; omega
  · rw [h] at hc hc' e
    interval_cases c <;> interval_cases c' <;> first | rfl | exact absurd e (by decide)

open IEEE in
theorem mean_floor (bits n S : Nat) (hn : 0 < n) (hb : bits ≤ 24) (hN : n ≤ 2 ^ (24 - bits)) (hS : S ≤ n * (2 ^ bits - 1)) :
    ⌊float32 ((S : ℚ) / n)⌋ = ((S / n : Nat) : Int) ∧ S / n < 2 ^ bits := by
  have hpow : 2 ^ bits * 2 ^ (24 - bits) = 2 ^ 24 := by rw [← pow_add]; congr 1; omega
  have hk : S / n < 2 ^ bits := by
    rw [Nat.div_lt_iff_lt_mul hn, Nat.mul_comm]
    have : 0 < 2 ^ bits := by positivity
    calc S ≤ n * (2 ^ bits - 1) := hS
      _ < n * 2 ^ bits := by apply Nat.mul_lt_mul_of_pos_left _ hn; omega
  refine ⟨?_, hk⟩
  have hn' : (0 : ℚ) < n := by exact_mod_cast hn
  have hpb : (2 : Nat) ^ bits ≤ 2 ^ 24 := Nat.pow_le_pow_right (by omega) hb
  have hf : ∀ m : Nat, m ≤ 2 ^ 24 → float32 m = m := float32_rounds.nat
  rw [Int.floor_eq_iff]
  constructor
  · have h1 : ((S / n : Nat) : ℚ) ≤ (S : ℚ) / n := by
      rw [le_div_iff₀ hn']
      exact_mod_cast Nat.div_mul_le_self S n
    have := float32_rounds.mono _ _ h1
    rw [hf _ (by omega)] at this
    exact_mod_cast this
  · have hlt : S < n * (S / n + 1) := Nat.lt_mul_div_succ S hn
    generalize S / n = k at hk hlt
    have h0 : 0 < 2 ^ (24 - bits) := by positivity
    have h2 : (S : ℚ) / n ≤ (((k + 1) * 2 ^ (24 - bits) - 1 : Nat) : ℚ) / 2 ^ (24 - bits) := by
      have hS' : S + 1 ≤ n * (k + 1) := hlt
      have hp : (0 : ℚ) < 2 ^ (24 - bits) := by positivity
      rw [div_le_div_iff₀ hn' hp]
      have hpn : 1 ≤ (k + 1) * 2 ^ (24 - bits) := Nat.mul_pos (Nat.succ_pos k) h0
      have : (S : Nat) * 2 ^ (24 - bits) ≤ ((k + 1) * 2 ^ (24 - bits) - 1) * n := by
        have h3 : (S + 1) * 2 ^ (24 - bits) ≤ n * (k + 1) * 2 ^ (24 - bits) := Nat.mul_le_mul_right _ hS'
        rw [Nat.sub_mul, Nat.one_mul]
        have h4 : (k + 1) * 2 ^ (24 - bits) * n = n * (k + 1) * 2 ^ (24 - bits) := by ring
        rw [h4]
        rw [Nat.add_mul] at h3
        omega
      exact_mod_cast this
    have h5 := float32_rounds.mono _ _ h2
    have h6 : float32 ((((k + 1) * 2 ^ (24 - bits) - 1 : Nat) : ℚ) / 2 ^ (24 - bits)) = (((k + 1) * 2 ^ (24 - bits) - 1 : Nat) : ℚ) / 2 ^ (24 - bits) := by
      have hle : (k + 1) * 2 ^ (24 - bits) ≤ 2 ^ 24 := by rw [← hpow]; exact Nat.mul_le_mul_right _ hk
      have := fl_exact 24 (by omega) (((k + 1) * 2 ^ (24 - bits) - 1 : Nat) : Int) (-((24 - bits : Nat) : Int)) (by
        rw [abs_of_nonneg (by omega)]
        have : ((2 ^ 24 : Nat) : Int) = 2 ^ 24 := by norm_num
        omega)
      rw [zpow_neg, zpow_natCast] at this
      rw [div_eq_mul_inv]
      exact_mod_cast this
    rw [h6] at h5
    refine lt_of_le_of_lt h5 ?_
    have hp : (0 : ℚ) < 2 ^ (24 - bits) := by positivity
    rw [div_lt_iff₀ hp]
    have hpn : 1 ≤ (k + 1) * 2 ^ (24 - bits) := Nat.mul_pos (Nat.succ_pos k) h0
    have : (k + 1) * 2 ^ (24 - bits) - 1 < (k + 1) * 2 ^ (24 - bits) := by omega
    exact_mod_cast this

open IEEE in
theorem meanOf_floor (bits : Nat) (d : Dim) (b : Buf) (addr : Nat → Nat → Nat) (c : Nat) (hn : 0 < d.n) (hb : bits ≤ 24) (hN : d.n ≤ 2 ^ (24 - bits))
    (hw : ∀ s < d.n, (b (addr s c)).toNat < 2 ^ bits) :
    castTo bits (meanOf float32 d b addr c) = some ((∑ s ∈ Finset.range d.n, (b (addr s c)).toNat) / d.n) := by
  have hpow : 2 ^ (24 - bits) * 2 ^ bits = 2 ^ 24 := by rw [← pow_add]; congr 1; omega
  have hsum : ∀ m ≤ d.n, ∑ s ∈ Finset.range m, (b (addr s c)).toNat ≤ m * (2 ^ bits - 1) := by
    intro m hm
    calc ∑ s ∈ Finset.range m, (b (addr s c)).toNat ≤ ∑ s ∈ Finset.range m, (2 ^ bits - 1) :=
          Finset.sum_le_sum fun s hs => by have := hw s (by have := Finset.mem_range.1 hs; omega); omega
      _ = m * (2 ^ bits - 1) := by simp
  have hsmall : ∀ m ≤ d.n, m * (2 ^ bits - 1) ≤ 2 ^ 24 := by
    intro m hm
    calc m * (2 ^ bits - 1) ≤ 2 ^ (24 - bits) * 2 ^ bits := Nat.mul_le_mul (hm.trans hN) (Nat.sub_le _ _)
      _ = 2 ^ 24 := hpow
  have hacc : ∀ m ≤ d.n, (List.range m).foldl (fun (a : ℚ) (s : Nat) => float32 (a + float32 ((b (addr s c)).toNat : ℚ))) 0 =
      ((∑ s ∈ Finset.range m, (b (addr s c)).toNat : Nat) : ℚ) := by
    intro m
    induction m with
    | zero => intro _; simp
    | succ m ih =>
      intro hm
      rw [List.range_succ, List.foldl_append, ih (by omega), List.foldl_cons, List.foldl_nil, Finset.sum_range_succ]
      have h1 := hw m (by omega)
      have h2 := hsum (m + 1) hm
      have h3 := hsmall (m + 1) hm
      rw [Finset.sum_range_succ] at h2
      rw [float32_rounds.nat (b (addr m c)).toNat (by omega), ← Nat.cast_add, float32_rounds.nat _ (by omega)]
  unfold castTo meanOf
  rw [hacc d.n le_rfl]
  obtain ⟨e, h⟩ := mean_floor bits d.n _ hn hb hN (hsum d.n le_rfl)
  rw [e, Int.toNat_natCast, if_pos h]

theorem bgPixel_mean (bits : Nat) (d : Dim) (h : Supported d) (b : Buf) (addr : Nat → Nat → Nat) (hb : bits ≤ 24) (hN : d.n ≤ 2 ^ (24 - bits))
    (hw : ∀ s < d.n, ∀ c < d.ch, (b (addr s c)).toNat < 2 ^ bits) :
    ∃ o, bgPixel IEEE.float32 bits d b addr = some o ∧
      ∀ c < d.ch, o (swapped d.ch c) = (∑ s ∈ Finset.range d.n, (b (addr s c)).toNat) / d.n := by
  have hv : ∀ c < d.ch, castTo bits (meanOf IEEE.float32 d b addr c) = some ((∑ s ∈ Finset.range d.n, (b (addr s c)).toNat) / d.n) := fun c hc =>
    meanOf_floor bits d b addr c h.2 hb hN fun s hs => hw s hs c hc
  unfold bgPixel
  obtain ⟨o, e⟩ := foldlM_total (fun (o : Nat → Nat) (c : Nat) =>
    (castTo bits (meanOf IEEE.float32 d b addr c)).map fun v => Function.update o (srcChan d c) v) (List.range d.ch) (fun c hc o => by
      rw [hv c (List.mem_range.1 hc)]; exact ⟨_, rfl⟩) fun _ => 0
  refine ⟨o, e, fun c hc => ?_⟩
  refine (foldlM_establish _ (fun (c : Nat) (o : Nat → Nat) => c < d.ch → o (swapped d.ch c) = (∑ s ∈ Finset.range d.n, (b (addr s c)).toNat) / d.n)
    _ ?_ ?_ _ _ e).1 c (List.mem_range.2 hc) hc
  · intro c hc o o' e _
    have hc := List.mem_range.1 hc
    rw [hv c hc, Option.map_some] at e
    cases Option.some.inj e
    rw [srcChan_swapped d h c hc, Function.update_self]
  · intro c hc c' hne o o' e ho hc'
    have hc := List.mem_range.1 hc
    rw [hv c hc, Option.map_some] at e
    cases Option.some.inj e
    rw [srcChan_swapped d h c hc, Function.update_of_ne, ho hc']
    exact fun e => hne (swapped_inj d h c' c hc' hc e).symm

/-- C160: the background image holds, for each pixel and channel, the mean (rounded down) of the colour samples which the
shader sees for that pixel, with blue and red in the order of the image; for up to 65536 samples of byte values. -/
theorem background_mean (d : Dim) (h : Supported d) (hN : d.n ≤ 65536) (b : Buf) (row col : Nat)
    (hw : ∀ s < d.n, ∀ c < d.ch, (b (glColor d (row * d.cols + col) s c)).toNat < 256) :
    ∃ o, bgImage IEEE.float32 d b row col = some o ∧
      ∀ c < d.ch, o (swapped d.ch c) = (∑ s ∈ Finset.range d.n, (b (glColor d (row * d.cols + col) s c)).toNat) / d.n := by
  have e : ∀ s c, glColor d (row * d.cols + col) s c = hostColor d row col s c := fun s c => (layout_agrees d h row col s c).1.symm
  simp only [e] at hw ⊢
  exact bgPixel_mean 8 d h b (hostColor d row col) (by omega) hN hw

/-- C160: the same for the descriptors (as numbers), for up to 256 samples. -/
theorem background_descs_mean (d : Dim) (h : Supported d) (hN : d.n ≤ 256) (b : Buf) (row col : Nat)
    (hw : ∀ s < d.n, ∀ c < d.ch, (b (glDesc d (row * d.cols + col) s c)).toNat < 65536) :
    ∃ o, bgDescs IEEE.float32 d b row col = some o ∧
      ∀ c < d.ch, o (swapped d.ch c) = (∑ s ∈ Finset.range d.n, (b (glDesc d (row * d.cols + col) s c)).toNat) / d.n := by
  have e : ∀ s c, glDesc d (row * d.cols + col) s c = hostDesc d row col s c := fun s c => (layout_agrees d h row col s c).2.symm
  simp only [e] at hw ⊢
  exact bgPixel_mean 16 d h b (hostDesc d row col) (by omega) hN hw

example : (bgImage id ⟨1, 1, 4, 2⟩ (fun a => [10, 20, 30, 0, 13, 21, 31, 0].getD a 0) 0 0).map (fun o => (o 0, o 1, o 2)) = some (30, 20, 11) := by
  decide +kernel

/-! ### C161: the initial model -/

theorem sampled_spec (impl : LBSP.Impl) (lut : BitVec 8 → BitVec 8) (d : Dim) (hd : Supported d) (img : HostImg) (ok : Nat × Nat → Prop)
    (hw : 4 < d.cols) (hh : 4 < d.rows) (q : Nat × Nat) (s : Nat) (b : Buf) (h : Sampled impl lut d img ok q.2 q.1 s b) :
    ∃ x y, Candidate d q x y ∧ ok (x, y) ∧ ColorFrom d img b q s x y ∧ ∀ c < d.ch,
      IsPattern (fun dx dy => img ((y : Int) + dy).toNat ((x : Int) + dx).toNat c) (img y x (swapped d.ch c))
        (lut (img y x (swapped d.ch c))) (b (glDesc d (idxOf d q) s c)) := by
  obtain ⟨r, x, y, e, h1, h2⟩ := h
  obtain ⟨⟨a1, a2, a3, a4⟩, a5⟩ := Sampling.sample7_in_window r (q.1, q.2) 2 d.cols d.rows (by omega) (by omega)
  rw [e] at a1 a2 a3 a4 a5
  dsimp only at a1 a2 a3 a4
  have e1 : ∀ c, glColor d (idxOf d q) s c = hostColor d q.2 q.1 s c := fun c => glColor_host d hd q.2 q.1 s c
  have e2 : ∀ c, glDesc d (idxOf d q) s c = hostDesc d q.2 q.1 s c := fun c => glDesc_host d hd q.2 q.1 s c
  refine ⟨x, y, ⟨by omega, fun hq => ?_⟩, h1, fun c hc => ?_, fun c hc => ?_⟩
  · obtain ⟨b1, b2, b3, b4⟩ := a5 ⟨by dsimp only; omega, by dsimp only; omega, by dsimp only; omega, by dsimp only; omega⟩
    dsimp only at b1 b2 b3 b4
    unfold dist
    omega
  · rw [e1, (h2 c hc).1, srcChan_swapped d hd c hc]
  · rw [e2, (h2 c hc).2, srcChan_swapped d hd c hc]
    exact pattern_host impl img y x c _ _

/-- C161: what a forced full refresh (as at initialization) stores: it never fails, and afterwards every sample of every
pixel has the colour of one position of the frame around the pixel, and for each channel bits which compare that colour with
the neighbours of the position in channel `c` of the frame. -/
theorem init_samples (impl : LBSP.Impl) (lut : BitVec 8 → BitVec 8) (d : Dim) (hd : Supported d) (img : HostImg) (fg : List (BitVec 8))
    (rnd : Nat → Nat) (hw : 4 < d.cols) (hh : 4 < d.rows) (b : Buf) :
    ∃ b', refresh impl lut d img fg true rnd none b = some b' ∧
      ∀ q : Nat × Nat, q.1 < d.cols → q.2 < d.rows → ∀ s < d.n, ∃ x y, Candidate d q x y ∧ ColorFrom d img b' q s x y ∧ ∀ c < d.ch,
        IsPattern (fun dx dy => img ((y : Int) + dy).toNat ((x : Int) + dx).toNat c) (img y x (swapped d.ch c))
          (lut (img y x (swapped d.ch c))) (b' (glDesc d (idxOf d q) s c)) := by
  obtain ⟨b', e⟩ := refresh_total impl lut d img fg true rnd none hw hh (Or.inl rfl) b
  refine ⟨b', e, fun q hx hy s hs => ?_⟩
  obtain ⟨x, y, h1, _, h2, h3⟩ := sampled_spec impl lut d hd img _ hw hh q s b' (refresh_all impl lut d hd img fg rnd hw hh b b' e q.2 q.1 s hy hx hs)
  exact ⟨x, y, h1, h2, h3⟩

/-- C161 as it should be: also the descriptors are those of the frame. This holds for gray images, and for the channels which
are not swapped; not in general (`init_desc_refuted`). -/
theorem init_desc_partial (impl : LBSP.Impl) (lut : BitVec 8 → BitVec 8) (d : Dim) (hd : Supported d) (img : HostImg) (fg : List (BitVec 8))
    (rnd : Nat → Nat) (hw : 4 < d.cols) (hh : 4 < d.rows) (b : Buf) :
    ∃ b', refresh impl lut d img fg true rnd none b = some b' ∧
      ∀ q : Nat × Nat, q.1 < d.cols → q.2 < d.rows → ∀ s < d.n, ∃ x y, Candidate d q x y ∧ ColorFrom d img b' q s x y ∧
        ∀ c < d.ch, d.ch = 1 ∨ c = 1 ∨ c = 3 → DescFrom lut d img b' q s x y c := by
  obtain ⟨b', e, h⟩ := init_samples impl lut d hd img fg rnd hw hh b
  refine ⟨b', e, fun q hx hy s hs => ?_⟩
  obtain ⟨x, y, h1, h2, h3⟩ := h q hx hy s hs
  refine ⟨x, y, h1, h2, fun c hc hcc => ?_⟩
  have : swapped d.ch c = c := by
    unfold swapped
    rcases hcc with h | rfl | rfl
    · rw [if_pos h]
    · split <;> rfl
    · split <;> rfl
  have := h3 c hc
  unfold DescFrom
  rwa [‹swapped d.ch c = c›] at this ⊢

/-- An image of blue 0 and red 255. -/
def redImage : HostImg := fun _ _ c => if c = 2 then 255 else 0

/-- C161 fails for BGRA images: after initialization on a frame of one colour, the first channel of the model has the
descriptor of no position of the frame. -/
theorem init_desc_refuted :
    ¬ ∀ (impl : LBSP.Impl) (lut : BitVec 8 → BitVec 8) (d : Dim), Supported d → ∀ (img : HostImg) (fg : List (BitVec 8)) (rnd : Nat → Nat),
      4 < d.cols → 4 < d.rows → ∀ b b', refresh impl lut d img fg true rnd none b = some b' →
      ∀ q : Nat × Nat, q.1 < d.cols → q.2 < d.rows → ∀ s < d.n, ∀ c < d.ch, ∃ x y, DescFrom lut d img b' q s x y c := by
  intro h
  obtain ⟨b', e, h'⟩ := init_samples .scalar (fun _ => 30) ⟨5, 5, 4, 1⟩ ⟨Or.inr rfl, by decide⟩ redImage [] (fun _ => 0) (by decide) (by decide) fun _ => 0
  obtain ⟨x, y, hd⟩ := h .scalar (fun _ => 30) ⟨5, 5, 4, 1⟩ ⟨Or.inr rfl, by decide⟩ redImage [] (fun _ => 0) (by decide) (by decide) _ b' e
    (2, 2) (by decide) (by decide) 0 (by decide) 0 (by decide)
  obtain ⟨x', y', _, _, hp⟩ := h' (2, 2) (by decide) (by decide) 0 (by decide)
  have h1 := (hd.1 (4, -2, 2) (by decide)).not.2 (by
    show ¬ LBSP.Spec.Differs 255 255 30
    decide)
  have h2 := ((hp 0 (by decide)).1 (4, -2, 2) (by decide)).2 (by
    show LBSP.Spec.Differs 0 255 30
    decide)
  exact h1 h2

/-! ### C162: the mask of a refresh -/

/-- C162 for square frames or forced refreshes: a refresh with the full mask succeeds; each sample keeps its contents, or its
pixel was not foreground and it has the colour of a position around the pixel which was not foreground either. -/
theorem refresh_mask_partial (impl : LBSP.Impl) (lut : BitVec 8 → BitVec 8) (d : Dim) (hd : Supported d) (img : HostImg) (fg : List (BitVec 8))
    (force : Bool) (rnd : Nat → Nat) (frac : Option Nat) (hw : 4 < d.cols) (hh : 4 < d.rows) (hf : fg.length = d.cols * d.rows)
    (hsq : force = true ∨ d.rows = d.cols) (b : Buf) :
    ∃ b', refresh impl lut d img fg force rnd frac b = some b' ∧
      ∀ q : Nat × Nat, q.1 < d.cols → q.2 < d.rows → ∀ s < d.n,
        (∀ c < d.ch, b' (glColor d (idxOf d q) s c) = b (glColor d (idxOf d q) s c) ∧ b' (glDesc d (idxOf d q) s c) = b (glDesc d (idxOf d q) s c)) ∨
        (force = true ∨ fg[idxOf d q]? = some 0) ∧
          ∃ x y, Candidate d q x y ∧ (force = true ∨ fg[idxOf d (x, y)]? = some 0) ∧ ColorFrom d img b' q s x y := by
  obtain ⟨b', e⟩ := refresh_total impl lut d img fg force rnd frac hw hh (hsq.imp_right fun h => ⟨le_of_eq h, hf⟩) b
  refine ⟨b', e, fun q hx hy s hs => ?_⟩
  have e1 : ∀ c, glColor d (idxOf d q) s c = hostColor d q.2 q.1 s c := fun c => glColor_host d hd q.2 q.1 s c
  have e2 : ∀ c, glDesc d (idxOf d q) s c = hostDesc d q.2 q.1 s c := fun c => glDesc_host d hd q.2 q.1 s c
  rcases refresh_some impl lut d hd img fg force rnd frac hw hh hsq b b' e q.2 q.1 s hy hx hs with h | ⟨h1, h2⟩
  · refine Or.inl fun c hc => ?_
    rw [e1, e2]
    exact h c hc
  · obtain ⟨x, y, a1, a2, a3, _⟩ := sampled_spec impl lut d hd img _ hw hh q s b' h2
    exact Or.inr ⟨h1, x, y, a1, a2, a3⟩

/-- C162: a full refresh that is not forced refreshes something. -/
example : (refresh .scalar (fun _ => 30) ⟨5, 5, 1, 1⟩ (fun _ _ _ => 7) (List.replicate 25 0) false (fun _ => 0) none fun _ => 0).map
    (fun b => b (glColor ⟨5, 5, 1, 1⟩ 12 0 0)) = some 7 := by decide +kernel

/-- C162 fails on frames that are not square: the model of a foreground pixel changes. -/
theorem refresh_mask_refuted :
    ¬ ∀ (impl : LBSP.Impl) (lut : BitVec 8 → BitVec 8) (d : Dim), Supported d → ∀ (img : HostImg) (fg : List (BitVec 8)) (rnd : Nat → Nat),
      4 < d.cols → 4 < d.rows → fg.length = d.cols * d.rows → ∀ b b', refresh impl lut d img fg false rnd none b = some b' →
      ∀ q : Nat × Nat, q.1 < d.cols → q.2 < d.rows → fg[idxOf d q]? ≠ some 0 → ∀ s < d.n,
        b' (glColor d (idxOf d q) s 0) = b (glColor d (idxOf d q) s 0) := by
  intro h
  have ev : (refresh .scalar (fun _ => 30) ⟨6, 5, 1, 1⟩ (fun _ _ _ => 7) ((List.replicate 30 0).set 6 255) false (fun _ => 0) none fun _ => 0).map
      (fun b => b (glColor ⟨6, 5, 1, 1⟩ 6 0 0)) = some 7 := by decide +kernel
  obtain ⟨b', e, e'⟩ := Option.map_eq_some_iff.1 ev
  have := h .scalar (fun _ => 30) ⟨6, 5, 1, 1⟩ ⟨Or.inl rfl, by decide⟩ _ _ _ (by decide) (by decide) (by decide) _ b' e (0, 1) (by decide) (by decide)
    (by decide) 0 (by decide)
  rw [show idxOf ⟨6, 5, 1, 1⟩ (0, 1) = 6 by decide, e'] at this
  exact absurd this (by decide)

/-- C162 fails on frames with more rows than columns: the mask is read behind its end. -/
theorem refresh_bounds_refuted :
    ¬ ∀ (impl : LBSP.Impl) (lut : BitVec 8 → BitVec 8) (d : Dim), Supported d → ∀ (img : HostImg) (fg : List (BitVec 8)) (rnd : Nat → Nat),
      4 < d.cols → 4 < d.rows → fg.length = d.cols * d.rows → ∀ b, ∃ b', refresh impl lut d img fg false rnd none b = some b' := by
  intro h
  obtain ⟨b', e⟩ := h .scalar (fun _ => 30) ⟨5, 6, 1, 1⟩ ⟨Or.inl rfl, by decide⟩ (fun _ _ _ => 7) (List.replicate 30 0) (fun _ => 0) (by decide) (by decide)
    (by decide) fun _ => 0
  have ev : (refresh .scalar (fun _ => 30) ⟨5, 6, 1, 1⟩ (fun _ _ _ => 7) (List.replicate 30 0) false (fun _ => 0) none fun _ => 0).isNone = true := by
    decide +kernel
  rw [e] at ev
  simp at ev

/-! ### C163: classification -/

theorem matching_count (g : Cfg) (h : Supported g.d) (inp : GlImg) (p : Nat × Nat) (b : Buf) (idx : Nat)
    (hb : ∀ s < g.d.n, ∀ c < g.d.ch, (b (glColor g.d idx s c)).toNat < 256) :
    matching g inp p b idx = (List.range g.d.n).countP (fun i => hit g inp p idx b (0 + i)) := by
  classical
  have hc : comps g.d ≤ g.d.ch := by unfold comps; rcases h.1 with h | h <;> simp [h]
  have hm : ∀ s < g.d.n, (hit g inp p idx b s = true ↔ Matches g inp p (fun c => b (glColor g.d idx s c)) fun c => b (glDesc g.d idx s c)) := by
    intro s hs
    refine matches_iff g inp p _ _ _ _ (fun c hc => ?_) (fun c hc => ?_) (fun c hc' => hb s hs c (by omega))
    · simp [wordsAt, List.getD, hc, glColor]
    · simp [wordsAt, List.getD, hc, glDesc]
  have key : ∀ m ≤ g.d.n, ((Finset.range m).filter fun s => Matches g inp p (fun c => b (glColor g.d idx s c)) fun c => b (glDesc g.d idx s c)).card =
      (List.range m).countP (fun i => hit g inp p idx b (0 + i)) := by
    intro m
    induction m with
    | zero => intro _; simp
    | succ m ih =>
      intro hm'
      rw [List.range_succ, List.countP_append, ← ih (by omega), Finset.range_add_one, Finset.filter_insert]
      by_cases hh : hit g inp p idx b m = true
      · rw [if_pos ((hm m (by omega)).1 hh), Finset.card_insert_of_notMem (by simp)]
        simp [hh]
      · rw [if_neg ((hm m (by omega)).not.1 hh)]
        simp [hh]
  rw [← key g.d.n le_rfl]
  unfold matching
  congr

/-- C163: a pixel is background (0) outside of the region of interest and foreground (255) exactly if fewer than the required
number of its samples match the input. -/
theorem classify (g : Cfg) (h : Supported g.d) (hs : g.d.cols * g.d.rows < 2 ^ 32) (inp : GlImg) (roi : Int → Int → BitVec 8)
    (hr : RoiInner 1 g.d roi) (rnd : Nat → W) (p : Nat × Nat) (b : Buf)
    (hb : ∀ s < g.d.n, ∀ c < g.d.ch, (b (glColor g.d (idxOf g.d p) s c)).toNat < 256) :
    (exec (invocation g inp roi rnd p) b).1 =
      if roi p.1 p.2 ≠ 0 ∧ matching g inp p b (idxOf g.d p) < g.req then 255 else 0 := by
  unfold invocation
  by_cases h0 : roi p.1 p.2 = 0
  · rw [if_pos h0, if_neg (fun h => h.1 h0)]; rfl
  · rw [if_neg h0]
    obtain ⟨gf, e, he⟩ := exec_scan g inp p (p.2 * g.d.cols + p.1) (after g inp rnd p) b g.d.n 0 0
    have e' : (exec (scan g inp p (p.2 * g.d.cols + p.1) g.d.n 0 0 fun good =>
      if good < g.req then .out 255
      else if (rnd 0).toNat % g.rate = 0 then
        resample g inp p (p.2 * g.d.cols + p.1) (rnd 1) (rnd 2) (spread g inp rnd p 3)
      else spread g inp rnd p 1) b) = exec (after g inp rnd p gf) b := e
    rw [e', matching_count g h inp p b _ hb]
    rw [Nat.zero_add] at he
    have he' : gf < g.req ↔ List.countP (fun i => hit g inp p (idxOf g.d p) b (0 + i)) (List.range g.d.n) < g.req := he
    by_cases hg : gf < g.req
    · rw [if_pos ⟨h0, he'.1 hg⟩]
      unfold after
      rw [if_pos hg]; rfl
    · rw [if_neg fun hh => hg (he'.2 hh.2)]
      obtain ⟨hx, hy⟩ := roi_inner 1 le_rfl hr p h0
      exact exec_zero (Rd := fun _ => True) (Wr := fun _ _ => True) _ b
        (sat_after g h inp rnd p hx hy hs (fun _ _ _ _ => fun _ _ _ _ => ⟨trivial, trivial⟩) gf (by omega) rfl)

/-- A configuration for examples: gray, 35 samples, thresholds 30 and 4, two matches required, learning rate 16. -/
def grayCfg (w : Nat) : Cfg := ⟨⟨w, w, 1, 35⟩, 30, 4, 2, 16, fun _ => 30⟩

/-- A region of interest: all but a margin of two pixels. -/
def innerRoi (w : Nat) : Int → Int → BitVec 8 := fun x y => if 2 ≤ x ∧ x < (w : Int) - 2 ∧ 2 ≤ y ∧ y < (w : Int) - 2 then 255 else 0

example : RoiInner 2 (grayCfg 20).d (innerRoi 20) := by
  intro x y h
  unfold innerRoi at h
  by_cases hc : 2 ≤ x ∧ x < ((20 : Nat) : Int) - 2 ∧ 2 ≤ y ∧ y < ((20 : Nat) : Int) - 2
  · simp only [grayCfg]; omega
  · rw [if_neg hc] at h; exact absurd rfl h

example : (exec (invocation (grayCfg 5) (fun _ _ _ => 100) (innerRoi 5) (fun _ => 1) (2, 2)) fun _ => 0).1 = 255 := by decide +kernel
example : (exec (invocation (grayCfg 5) (fun _ _ _ => 10) (innerRoi 5) (fun _ => 1) (2, 2)) fun _ => 0).1 = 0 := by decide +kernel

/-! ### C164: updates of the model -/

/-- C164: every invocation ends after a fixed number of its own actions, whatever the others do. -/
theorem invocation_ends (g : Cfg) (h : Supported g.d) (inp : GlImg) (roi : Int → Int → BitVec 8) (rnd : Nat × Nat → Nat → W) (b : Buf)
    (sched : List (Nat × Nat)) (p : Nat × Nat) (hp : 6 * g.d.n + 16 ≤ sched.count p) :
    ∃ r, (dispatch g inp roi rnd b sched).pc p = .out r := by
  have hw := run_within p sched ⟨b, fun p => invocation g inp roi (rnd p) p⟩ _ (within_invocation g h inp roi (rnd p) p)
  have hc : comps g.d + comps g.d ≤ 6 ∧ g.d.ch ≤ 4 := by
    unfold comps; rcases h.1 with h | h <;> simp [h]
  have h6 : g.d.n * (comps g.d + comps g.d) ≤ 6 * g.d.n := by rw [Nat.mul_comm]; exact Nat.mul_le_mul_right _ hc.1
  rw [show g.d.n * (comps g.d + comps g.d) + (g.d.ch + (g.d.ch + (g.d.ch + (g.d.ch + 0)))) - List.count p sched = 0 by omega] at hw
  unfold dispatch
  generalize (List.foldl step ⟨b, fun p => invocation g inp roi (rnd p) p⟩ sched).pc p = q at hw
  cases q with
  | out r => exact ⟨r, rfl⟩
  | read a k => exact hw.elim
  | write a v k => exact hw.elim

/-- What an invocation may store. -/
def Stores (g : Cfg) (inp : GlImg) (roi : Int → Int → BitVec 8) (p : Nat × Nat) (a : Nat) (w : W) : Prop :=
  roi p.1 p.2 ≠ 0 ∧ ∃ q : Nat × Nat, q.1 < g.d.cols ∧ q.2 < g.d.rows ∧ Adjacent p q ∧ ∃ s < g.d.n, ∃ c < g.d.ch,
    a = glColor g.d (idxOf g.d q) s c ∧ w = colorAt inp p c ∨ a = glDesc g.d (idxOf g.d q) s c ∧ DescAt g.lut inp p c w

theorem stores_allows (g : Cfg) (inp : GlImg) (roi : Int → Int → BitVec 8) (p : Nat × Nat) (h0 : roi p.1 p.2 ≠ 0) (q : Nat × Nat)
    (hx : q.1 < g.d.cols) (hy : q.2 < g.d.rows) (ha : Adjacent p q) : Allows g inp p (Stores g inp roi p) (idxOf g.d q) := fun s hs c hc =>
  ⟨⟨h0, q, hx, hy, ha, s, hs, c, hc, Or.inl ⟨rfl, rfl⟩⟩, h0, q, hx, hy, ha, s, hs, c, hc, Or.inr ⟨rfl, descWord_at g inp p c⟩⟩

theorem invocation_after (g : Cfg) (inp : GlImg) (roi : Int → Int → BitVec 8) (rnd : Nat → W) (p : Nat × Nat) :
    invocation g inp roi rnd p = if roi p.1 p.2 = 0 then .out 0 else scan g inp p (idxOf g.d p) g.d.n 0 0 (after g inp rnd p) := rfl

/-- C164: for every schedule in which all invocations have ended: each word of the buffer is unchanged, or it was stored for
a pixel of the region of interest classified as background, in a sample of that pixel or of one of its neighbours, and is
the colour or the descriptor of the input there. -/
theorem updates_from_background (g : Cfg) (h : Supported g.d) (hs : g.d.cols * g.d.rows < 2 ^ 32) (inp : GlImg) (roi : Int → Int → BitVec 8)
    (hr : RoiInner 1 g.d roi) (rnd : Nat × Nat → Nat → W) (b : Buf) (sched : List (Nat × Nat)) (res : Nat × Nat → Nat)
    (hres : ∀ p, (dispatch g inp roi rnd b sched).pc p = .out (res p)) (a : Nat) :
    (dispatch g inp roi rnd b sched).mem a = b a ∨
    ∃ p q : Nat × Nat, roi p.1 p.2 ≠ 0 ∧ res p = 0 ∧ q.1 < g.d.cols ∧ q.2 < g.d.rows ∧ Adjacent p q ∧ ∃ s < g.d.n, ∃ c < g.d.ch,
      a = glColor g.d (idxOf g.d q) s c ∧ (dispatch g inp roi rnd b sched).mem a = colorAt inp p c ∨
      a = glDesc g.d (idxOf g.d q) s c ∧ DescAt g.lut inp p c ((dispatch g inp roi rnd b sched).mem a) := by
  have ht : ∀ p, Traced (Stores g inp roi p) (invocation g inp roi (rnd p) p) := by
    intro p
    rw [invocation_after]
    by_cases h0 : roi p.1 p.2 = 0
    · rw [if_pos h0]; trivial
    · rw [if_neg h0]
      obtain ⟨hx, hy⟩ := roi_inner 1 le_rfl hr p h0
      refine traced_scan g inp p _ _ (fun good => ?_) _ _ _
      by_cases hg : good < g.req
      · unfold after; rw [if_pos hg]; trivial
      · exact traced_of_sat _ _ (sat_after g h inp (rnd p) p hx hy hs (fun q hqx hqy ha => stores_allows g inp roi p h0 q hqx hqy ha) good (by omega) rfl)
  rcases run_trace (Stores g inp roi) b sched ⟨b, fun p => invocation g inp roi (rnd p) p⟩ ht (fun a => Or.inl rfl) a with e | ⟨p, h1, h0, q, hx, hy, ha, s, hs, c, hc, hh⟩
  · exact Or.inl e
  · refine Or.inr ⟨p, q, h0, ?_, hx, hy, ha, s, hs, c, hc, hh⟩
    have := hres p
    unfold dispatch at this
    rw [this] at h1
    exact h1

/-- C164: no invocation reads or writes outside of the buffer, at any point of any schedule. -/
theorem accesses_in_bounds (g : Cfg) (h : Supported g.d) (hs : g.d.cols * g.d.rows < 2 ^ 32) (inp : GlImg) (roi : Int → Int → BitVec 8)
    (hr : RoiInner 1 g.d roi) (rnd : Nat × Nat → Nat → W) (b : Buf) (sched : List (Nat × Nat)) (p : Nat × Nat) (a : Nat) :
    (∀ k, (dispatch g inp roi rnd b sched).pc p = .read a k → a < modelSize g.d) ∧
    ∀ v k, (dispatch g inp roi rnd b sched).pc p = .write a v k → a < modelSize g.d := by
  have hc : comps g.d ≤ g.d.ch := by unfold comps; rcases h.1 with h | h <;> simp [h]
  have := (run_inv (fun a => a < modelSize g.d) (fun _ _ => True) (fun _ a _ => a < modelSize g.d) (fun _ _ => True) (fun _ _ _ _ => trivial) sched
    ⟨b, fun p => invocation g inp roi (rnd p) p⟩ (fun _ => trivial) (fun p => by
      dsimp only
      rw [invocation_after]
      by_cases h0 : roi p.1 p.2 = 0
      · rw [if_pos h0]; trivial
      · rw [if_neg h0]
        obtain ⟨hx, hy⟩ := roi_inner 1 le_rfl hr p h0
        refine sat_scan g inp p _ _ (fun _ _ => True) _ _ _ (fun s hs c hc' => ?_) trivial (fun _ _ _ _ _ _ _ _ _ _ => trivial) fun m good _ _ => ?_
        · exact ⟨glColor_lt g.d h p (by omega) (by omega) s c (by omega) (by omega), glDesc_lt g.d h p (by omega) (by omega) s c (by omega) (by omega)⟩
        · by_cases hg : good < g.req
          · unfold after; rw [if_pos hg]; trivial
          · exact sat_after g h inp (rnd p) p hx hy hs (fun q hqx hqy _ => fun s hs c hc =>
              ⟨glColor_lt g.d h q hqx hqy s c hs hc, glDesc_lt g.d h q hqx hqy s c hs hc⟩) good (by omega) trivial)).2 p
  constructor
  · intro k e
    unfold dispatch at e
    rw [e] at this
    exact this.1
  · intro v k e
    unfold dispatch at e
    rw [e] at this
    exact this.1

/-- C164: colour words stay bytes. -/
theorem stored_bytes (g : Cfg) (h : Supported g.d) (hs : g.d.cols * g.d.rows < 2 ^ 32) (inp : GlImg) (roi : Int → Int → BitVec 8)
    (hr : RoiInner 1 g.d roi) (rnd : Nat × Nat → Nat → W) (b : Buf) (sched : List (Nat × Nat))
    (hb : ∀ i, ∀ s < g.d.n, ∀ c < g.d.ch, (b (glColor g.d i s c)).toNat < 256) (i s c : Nat) (hsn : s < g.d.n) (hc : c < g.d.ch) :
    ((dispatch g inp roi rnd b sched).mem (glColor g.d i s c)).toNat < 256 := by
  refine (run_inv (fun _ => True) (fun a w => ∀ i, ∀ s < g.d.n, ∀ c < g.d.ch, a = glColor g.d i s c → w.toNat < 256)
    (Stores g inp roi) (fun _ _ => True) ?_ sched
    ⟨b, fun p => invocation g inp roi (rnd p) p⟩ ?_ (fun p => ?_)).1 _ i s hsn c hc rfl
  · rintro p a w ⟨_, q, _, _, _, s, hs, c, hc, ⟨rfl, rfl⟩ | ⟨rfl, _⟩⟩ i s' hs' c' hc' e
    · unfold colorAt
      split
      · decide
      · rw [BitVec.toNat_setWidth]
        have := (inp p.1 p.2 c).isLt
        omega
    · exact absurd e.symm (glColor_ne_glDesc g.d h _ _ _ _ _ _ hs' hc' hs hc)
  · rintro a i s hs c hc rfl
    exact hb i s hs c hc
  · dsimp only
    rw [invocation_after]
    by_cases h0 : roi p.1 p.2 = 0
    · rw [if_pos h0]; trivial
    · rw [if_neg h0]
      obtain ⟨hx, hy⟩ := roi_inner 1 le_rfl hr p h0
      refine sat_scan g inp p _ _ (fun _ _ => True) _ _ _ (fun _ _ _ _ => ⟨trivial, trivial⟩) trivial (fun _ _ _ _ _ _ _ _ _ _ => trivial) fun m good _ _ => ?_
      by_cases hg : good < g.req
      · unfold after; rw [if_pos hg]; trivial
      · exact sat_after g h inp (rnd p) p hx hy hs (fun q hqx hqy ha => stores_allows g inp roi p h0 q hqx hqy ha) good (by omega) trivial

example : (exec (invocation (grayCfg 5) (fun _ _ _ => 10) (innerRoi 5) (fun _ => 16) (2, 2)) fun _ => 0).2 (glColor (grayCfg 5).d 12 16 0) = 10 := by
  decide +kernel

/-- One bright pixel. -/
def dotImage : GlImg := fun x y _ => if x = 2 ∧ y = 2 then 10 else 0

/-- C164 does not hold for whole samples: after the update of a pixel, a sample can be neither one from before nor the
colour and descriptor of an input, as the two are stored at different random places. -/
theorem pairs_refuted :
    ¬ ∀ (g : Cfg) (inp : GlImg) (roi : Int → Int → BitVec 8) (rnd : Nat → W) (p : Nat × Nat) (b : Buf), Supported g.d → RoiInner 2 g.d roi →
      ∀ q : Nat × Nat, q.1 < g.d.cols → q.2 < g.d.rows → ∀ s < g.d.n,
        ((exec (invocation g inp roi rnd p) b).2 (glColor g.d (idxOf g.d q) s 0) = colorAt inp p 0 ∧
          DescAt g.lut inp p 0 ((exec (invocation g inp roi rnd p) b).2 (glDesc g.d (idxOf g.d q) s 0))) ∨
        ((exec (invocation g inp roi rnd p) b).2 (glColor g.d (idxOf g.d q) s 0) = b (glColor g.d (idxOf g.d q) s 0) ∧
          (exec (invocation g inp roi rnd p) b).2 (glDesc g.d (idxOf g.d q) s 0) = b (glDesc g.d (idxOf g.d q) s 0)) := by
  intro h
  have := h ⟨⟨5, 5, 1, 2⟩, 30, 4, 2, 16, fun _ => 5⟩ dotImage (innerRoi 5) (fun i => [16, 0, 1].getD i 1) (2, 2) (fun _ => 0) ⟨Or.inl rfl, by decide⟩ (by
      intro x y h
      unfold innerRoi at h
      by_cases hc : 2 ≤ x ∧ x < ((5 : Nat) : Int) - 2 ∧ 2 ≤ y ∧ y < ((5 : Nat) : Int) - 2
      · dsimp only; omega
      · rw [if_neg hc] at h; exact absurd rfl h) (2, 2) (by decide) (by decide) 0 (by decide)
  have e1 : (exec (invocation ⟨⟨5, 5, 1, 2⟩, 30, 4, 2, 16, fun _ => 5⟩ dotImage (innerRoi 5) (fun i => [16, 0, 1].getD i 1) (2, 2)) fun _ => 0).2
      (glColor ⟨5, 5, 1, 2⟩ (idxOf ⟨5, 5, 1, 2⟩ (2, 2)) 0 0) = 10 := by decide +kernel
  have e2 : (exec (invocation ⟨⟨5, 5, 1, 2⟩, 30, 4, 2, 16, fun _ => 5⟩ dotImage (innerRoi 5) (fun i => [16, 0, 1].getD i 1) (2, 2)) fun _ => 0).2
      (glDesc ⟨5, 5, 1, 2⟩ (idxOf ⟨5, 5, 1, 2⟩ (2, 2)) 0 0) = 0 := by decide +kernel
  dsimp only at this
  rw [e1, e2] at this
  rcases this with ⟨_, h2⟩ | ⟨h1, _⟩
  · unfold DescAt at h2
    rw [if_neg (by decide)] at h2
    have := (h2.1 (4, -2, 2) (by decide)).2 (by decide)
    exact absurd this (by decide)
  · exact absurd h1 (by decide)

/-! ### C165: a scene that does not change -/

theorem drawing_offsets : ∀ e ∈ LBSP.Spec.drawing, (-2 ≤ e.2.1 ∧ e.2.1 ≤ 2) ∧ -2 ≤ e.2.2 ∧ e.2.2 ≤ 2 := by decide

theorem drawing_bits : ∀ i < 16, ∃ e ∈ LBSP.Spec.drawing, e.1 = i := by decide

theorem uniform_pattern (patch : Int → Int → BitVec 8) (v t : BitVec 8) (w : W) (h : IsPattern patch v t w)
    (hp : ∀ dx dy : Int, -2 ≤ dx → dx ≤ 2 → -2 ≤ dy → dy ≤ 2 → patch dx dy = v) : w = 0 := by
  apply BitVec.eq_of_getLsbD_eq
  intro i _
  rw [show (0 : W).getLsbD i = false from BitVec.getLsbD_zero]
  by_cases hi : i < 16
  · obtain ⟨e, he, rfl⟩ := drawing_bits i hi
    obtain ⟨⟨a1, a2⟩, a3, a4⟩ := drawing_offsets e he
    have := h.1 e he
    rw [hp _ _ a1 a2 a3 a4] at this
    rw [Bool.eq_false_iff]
    intro hc
    have hd := this.1 hc
    unfold LBSP.Spec.Differs at hd
    simp at hd
    omega
  · exact h.2 i (by omega)

theorem full_pattern (patch : Int → Int → BitVec 8) (v u t : BitVec 8) (w : W) (h : IsPattern patch v t w) (hd : LBSP.Spec.Differs u v t)
    (hp : ∀ dx dy : Int, -2 ≤ dx → dx ≤ 2 → -2 ≤ dy → dy ≤ 2 → patch dx dy = u) : w = 0xFFFF := by
  apply BitVec.eq_of_getLsbD_eq
  intro i hi32
  by_cases hi : i < 16
  · obtain ⟨e, he, rfl⟩ := drawing_bits i hi
    obtain ⟨⟨a1, a2⟩, a3, a4⟩ := drawing_offsets e he
    have := h.1 e he
    rw [hp _ _ a1 a2 a3 a4] at this
    rw [this.2 hd]
    have : ∀ j < 16, (0xFFFF : W).getLsbD j = true := by decide
    exact (this _ hi).symm
  · rw [h.2 i (by omega)]
    have : ∀ j < 32, ¬ j < 16 → (0xFFFF : W).getLsbD j = false := by decide
    exact (this i hi32 hi).symm

theorem uniform_descWord (g : Cfg) (inp : GlImg) (v : BitVec 8) (hu : Uniform g.d inp v) (p : Nat × Nat) (hx : 2 ≤ p.1 ∧ p.1 + 2 < g.d.cols)
    (hy : 2 ≤ p.2 ∧ p.2 + 2 < g.d.rows) : lbsp g inp p 0 v = 0 := by
  refine uniform_pattern _ v _ _ (pattern_glsl _ v (g.lut v)) fun dx dy h1 h2 h3 h4 => ?_
  exact hu _ _ (by omega) (by omega) (by omega) (by omega)

/-- What the words of the pixels in `A` are. -/
def Kept (d : Dim) (A : Nat × Nat → Prop) (v : BitVec 8) (a : Nat) (w : W) : Prop :=
  ∀ q : Nat × Nat, A q → q.1 < d.cols → ∀ s < d.n,
    (a = glColor d (idxOf d q) s 0 → w = v.setWidth 32) ∧ (a = glDesc d (idxOf d q) s 0 → w = 0)

theorem uniform_dispatch (g : Cfg) (h : Supported g.d) (hch : g.d.ch = 1) (hreq : g.req ≤ g.d.n) (hs : g.d.cols * g.d.rows < 2 ^ 32)
    (roi : Int → Int → BitVec 8) (hr : RoiInner 2 g.d roi) (v : BitVec 8) (inp : GlImg) (hu : Uniform g.d inp v) (A : Nat × Nat → Prop)
    (rnd : Nat × Nat → Nat → W) (b : Buf) (sched : List (Nat × Nat)) (hb : ∀ a, Kept g.d A v a (b a)) :
    (∀ a, Kept g.d A v a ((dispatch g inp roi rnd b sched).mem a)) ∧
    ∀ p, A p → ∀ r, (dispatch g inp roi rnd b sched).pc p = .out r → r = 0 := by
  have hr1 : RoiInner 1 g.d roi := fun x y h0 => by have := hr x y h0; omega
  have inner2 : ∀ p : Nat × Nat, roi p.1 p.2 ≠ 0 → (2 ≤ p.1 ∧ p.1 + 2 < g.d.cols) ∧ (2 ≤ p.2 ∧ p.2 + 2 < g.d.rows) := fun p h0 => by
    have := hr p.1 p.2 h0; omega
  have hcomp : comps g.d = 1 := by unfold comps; rw [hch]; rfl
  have key := run_inv (fun _ => True) (Kept g.d A v) (Stores g inp roi) (fun p r => A p → r = 0) ?_ sched
    ⟨b, fun p => invocation g inp roi (rnd p) p⟩ hb (fun p => ?_)
  · refine ⟨key.1, fun p hA r e => ?_⟩
    have := key.2 p
    unfold dispatch at e
    rw [e] at this
    exact this hA
  · rintro p a w ⟨h0, q, hqx, hqy, _, s, hs, c, hc, ⟨rfl, rfl⟩ | ⟨rfl, hw⟩⟩ q' hA hq' s' hs'
    · obtain rfl : c = 0 := by omega
      obtain ⟨hx, hy⟩ := inner2 p h0
      refine ⟨fun _ => ?_, fun e => absurd e (glColor_ne_glDesc g.d h _ _ _ _ _ _ hs hc hs' (by omega))⟩
      unfold colorAt
      rw [if_neg (by decide), hu _ _ (by omega) (by omega) (by omega) (by omega)]
    · obtain rfl : c = 0 := by omega
      obtain ⟨hx, hy⟩ := inner2 p h0
      refine ⟨fun e => absurd e.symm (glColor_ne_glDesc g.d h _ _ _ _ _ _ hs' (by omega) hs hc), fun _ => ?_⟩
      unfold DescAt at hw
      rw [if_neg (by decide), hu p.1 p.2 (by omega) (by omega) (by omega) (by omega)] at hw
      refine uniform_pattern _ v _ _ hw fun dx dy h1 h2 h3 h4 => ?_
      exact hu _ _ (by omega) (by omega) (by omega) (by omega)
  · dsimp only
    rw [invocation_after]
    by_cases h0 : roi p.1 p.2 = 0
    · rw [if_pos h0]; exact fun _ => rfl
    · rw [if_neg h0]
      obtain ⟨hx, hy⟩ := roi_inner 1 le_rfl hr1 p h0
      obtain ⟨hx2, hy2⟩ := inner2 p h0
      refine sat_scan g inp p _ _ (fun m good => A p → g.req ≤ good + m) _ _ _ (fun _ _ _ _ => ⟨trivial, trivial⟩) (fun _ => by omega) ?_ ?_
      · intro m s good col desc hsn hq _ _ hR hA
        rw [hcomp] at hR
        obtain ⟨r1, r2⟩ := hR 0 (by omega)
        have e1 := (r1 p hA (by omega) s (by omega)).1 rfl
        have e2 := (r2 p hA (by omega) s (by omega)).2 rfl
        have hm : matchesSample g inp p col desc = true := by
          unfold matchesSample
          rw [if_neg (by omega)]
          have hin : inp p.1 p.2 0 = v := hu _ _ (by omega) (by omega) (by omega) (by omega)
          have e3 : (BitVec.setWidth 8 (col.getD 0 0)) = v := by
            rw [e1]; apply BitVec.eq_of_toNat_eq; have := v.isLt; simp
          have c1 : colDist inp p col 0 = 0 := by unfold colDist absdiff; rw [e1, hin]; simp
          have c2 : descDist g inp p col desc 0 = 0 := by
            unfold descDist; rw [e3, e2, uniform_descWord g inp v hu p hx2 hy2]; decide
          rw [c1, c2]; simp
        rw [if_pos hm]
        have := hq hA
        omega
      · intro m good hq hstop
        by_cases hg : good < g.req
        · unfold after
          rw [if_pos hg]
          intro hA
          have := hq hA
          omega
        · exact sat_after g h inp (rnd p) p hx hy hs (fun q hqx hqy ha => stores_allows g inp roi p h0 q hqx hqy ha) good (by omega) fun _ => rfl

theorem uniform_session (g : Cfg) (h : Supported g.d) (hch : g.d.ch = 1) (hreq : g.req ≤ g.d.n) (hs : g.d.cols * g.d.rows < 2 ^ 32)
    (roi : Int → Int → BitVec 8) (hr : RoiInner 2 g.d roi) (v : BitVec 8) (A : Nat × Nat → Prop) :
    ∀ (frames : List (GlImg × (Nat × Nat → Nat → W) × List (Nat × Nat))) (b : Buf), (∀ f ∈ frames, Uniform g.d f.1 v) →
      (∀ a, Kept g.d A v a (b a)) → ∀ a, Kept g.d A v a (session g roi b frames a)
  | [], b, _, hb => hb
  | f :: frames, b, hf, hb => by
    unfold session
    rw [List.foldl_cons]
    exact uniform_session g h hch hreq hs roi hr v A frames _ (fun f' hf' => hf f' (List.mem_cons_of_mem _ hf'))
      (uniform_dispatch g h hch hreq hs roi hr v f.1 (hf f List.mem_cons_self) A f.2.1 b f.2.2 hb).1

theorem allSamples_kept (d : Dim) (q : Nat × Nat) (v : BitVec 8) (b : Buf) (ha : AllSamples d b q v)
    (a : Nat) : Kept d (fun q' => q' = q) v a (b a) := by
  rintro q' rfl _ s hs
  refine ⟨?_, ?_⟩
  · rintro rfl; exact (ha s hs).1
  · rintro rfl; exact (ha s hs).2

theorem init_allSamples (impl : LBSP.Impl) (lut : BitVec 8 → BitVec 8) (d : Dim) (h : Supported d) (hch : d.ch = 1) (img : HostImg) (fg : List (BitVec 8))
    (rnd : Nat → Nat) (hw : 4 < d.cols) (hh : 4 < d.rows) (b0 b : Buf) (e : refresh impl lut d img fg true rnd none b0 = some b) (q : Nat × Nat)
    (hx : 2 ≤ q.1 ∧ q.1 + 2 < d.cols) (hy : 2 ≤ q.2 ∧ q.2 + 2 < d.rows) (v : BitVec 8)
    (hv : ∀ x y : Nat, x < d.cols → y < d.rows → dist x q.1 ≤ 5 → dist y q.2 ≤ 5 → img y x 0 = v) : AllSamples d b q v := by
  obtain ⟨b', e', hb'⟩ := init_samples impl lut d h img fg rnd hw hh b0
  rw [e] at e'
  cases Option.some.inj e'
  intro s hs
  obtain ⟨x, y, ⟨h1, h2⟩, h3, h4⟩ := hb' q (by omega) (by omega) s hs
  obtain ⟨h5, h6⟩ := h2 (by omega)
  have hsw : swapped d.ch 0 = 0 := by unfold swapped; rw [if_pos hch]
  unfold dist at h5 h6
  have hxy : img y x 0 = v := hv x y (by omega) (by omega) (by unfold dist; omega) (by unfold dist; omega)
  refine ⟨?_, ?_⟩
  · rw [h3 0 (by omega), hsw, hxy]
  · have := h4 0 (by omega)
    rw [hsw, hxy] at this
    refine uniform_pattern _ v _ _ this fun dx dy a1 a2 a3 a4 => ?_
    exact hv _ _ (by omega) (by omega) (by unfold dist; omega) (by unfold dist; omega)

/-- C165 for gray images: the model is initialized on a frame which has value `v` around pixel `q` (distance 5). Then, however
many frames of value `v` follow and in whatever order the invocations run, `q` is never classified as foreground. -/
theorem uniform_background_partial (g : Cfg) (h : Supported g.d) (hch : g.d.ch = 1) (hreq : g.req ≤ g.d.n) (hs : g.d.cols * g.d.rows < 2 ^ 32)
    (roi : Int → Int → BitVec 8) (hr : RoiInner 2 g.d roi) (v : BitVec 8)
    (impl : LBSP.Impl) (img : HostImg) (fg : List (BitVec 8)) (rnd0 : Nat → Nat) (hw : 4 < g.d.cols) (hh : 4 < g.d.rows) (b0 b : Buf)
    (e : refresh impl g.lut g.d img fg true rnd0 none b0 = some b) (q : Nat × Nat) (hx : 2 ≤ q.1 ∧ q.1 + 2 < g.d.cols)
    (hy : 2 ≤ q.2 ∧ q.2 + 2 < g.d.rows)
    (hv : ∀ x y : Nat, x < g.d.cols → y < g.d.rows → dist x q.1 ≤ 5 → dist y q.2 ≤ 5 → img y x 0 = v)
    (frames : List (GlImg × (Nat × Nat → Nat → W) × List (Nat × Nat))) (hf : ∀ f ∈ frames, Uniform g.d f.1 v)
    (inp : GlImg) (hu : Uniform g.d inp v) (rnd : Nat × Nat → Nat → W) (sched : List (Nat × Nat)) (r : Nat)
    (hres : (dispatch g inp roi rnd (session g roi b frames) sched).pc q = .out r) : r = 0 := by
  have ha := init_allSamples impl g.lut g.d h hch img fg rnd0 hw hh b0 b e q hx hy v hv
  have hk := uniform_session g h hch hreq hs roi hr v _ frames b hf (allSamples_kept g.d q v b ha)
  exact (uniform_dispatch g h hch hreq hs roi hr v inp hu _ rnd _ sched hk).2 q rfl r hres

/-- The hypotheses are met by the default parameters. -/
example : Supported (grayCfg 20).d ∧ (grayCfg 20).req ≤ (grayCfg 20).d.n ∧ (grayCfg 20).d.cols * (grayCfg 20).d.rows < 2 ^ 32 ∧
    Uniform (grayCfg 20).d (fun _ _ _ => 77) 77 := ⟨⟨Or.inl rfl, by decide⟩, by decide, by decide, fun _ _ _ _ _ _ => rfl⟩

/-- C165 for BGRA images is false for every colour whose blue and red values differ by more than the threshold of the red one:
right after initialization on frames of that colour, such a pixel is foreground in a frame of the same colour. -/
theorem uniform_color_foreground (g : Cfg) (h : Supported g.d) (hch : g.d.ch = 4) (hreq : 0 < g.req) (hthr : 3 * g.descThr / 2 < 16)
    (hs : g.d.cols * g.d.rows < 2 ^ 32) (roi : Int → Int → BitVec 8) (hr : RoiInner 2 g.d roi)
    (impl : LBSP.Impl) (img : HostImg) (fg : List (BitVec 8)) (rnd0 : Nat → Nat) (hw : 4 < g.d.cols) (hh : 4 < g.d.rows) (b0 b : Buf)
    (e : refresh impl g.lut g.d img fg true rnd0 none b0 = some b) (q : Nat × Nat) (hq : roi q.1 q.2 ≠ 0) (blue green red alpha : BitVec 8)
    (hv : ∀ x y : Nat, x < g.d.cols → y < g.d.rows → img y x 0 = blue ∧ img y x 1 = green ∧ img y x 2 = red ∧ img y x 3 = alpha)
    (hdiff : LBSP.Spec.Differs blue red (g.lut red)) (inp : GlImg)
    (hi : ∀ x y : Nat, x < g.d.cols → y < g.d.rows → inp x y 0 = red ∧ inp x y 1 = green ∧ inp x y 2 = blue) (rnd : Nat → W) :
    (exec (invocation g inp roi rnd q) b).1 = 255 := by
  have hr1 : RoiInner 1 g.d roi := fun x y h0 => by have := hr x y h0; omega
  have hin := hr q.1 q.2 hq
  obtain ⟨b', e', hb'⟩ := init_samples impl g.lut g.d h img fg rnd0 hw hh b0
  rw [e] at e'
  cases Option.some.inj e'
  have hall := hb' q (by omega) (by omega)
  have hsw : swapped g.d.ch 0 = 2 := by unfold swapped; rw [hch]; rfl
  have hbytes : ∀ s < g.d.n, ∀ c < g.d.ch, (b (glColor g.d (idxOf g.d q) s c)).toNat < 256 := by
    intro s hs c hc
    obtain ⟨x, y, _, h3, _⟩ := hall s hs
    rw [h3 c hc, BitVec.toNat_setWidth]
    have := (img y x (swapped g.d.ch c)).isLt
    omega
  rw [classify g h hs inp roi hr1 rnd q b hbytes, if_pos]
  refine ⟨hq, ?_⟩
  have hz : matching g inp q b (idxOf g.d q) = 0 := by
    unfold matching
    classical
    rw [Finset.card_eq_zero, Finset.filter_eq_empty_iff]
    rintro s hsr ⟨w, hw, hm⟩
    obtain ⟨x, y, ⟨h1, _⟩, h3, h4⟩ := hall s (Finset.mem_range.1 hsr)
    have c1 := h3 0 (by omega)
    rw [hsw, (hv x y (by omega) (by omega)).2.2.1] at c1
    have d1 := h4 0 (by omega)
    rw [hsw, (hv x y (by omega) (by omega)).2.2.1] at d1
    have d2 := full_pattern _ red blue _ _ d1 hdiff fun dx dy a1 a2 a3 a4 => (hv _ _ (by omega) (by omega)).1
    have w0 := hw 0
    dsimp only at w0
    rw [c1, show BitVec.setWidth 8 (BitVec.setWidth 32 red) = red by apply BitVec.eq_of_toNat_eq; simp] at w0
    have w1 := uniform_pattern _ red _ _ w0 fun dx dy a1 a2 a3 a4 => by
      have := (hi ((q.1 : Int) + dx).toNat ((q.2 : Int) + dy).toNat (by omega) (by omega)).1
      rwa [Int.toNat_of_nonneg (by omega), Int.toNat_of_nonneg (by omega)] at this
    rw [if_pos hch] at hm
    have := (hm.1 0 (by decide)).2
    dsimp only at this
    rw [w1, d2, show differing 0 0xFFFF = 16 by decide] at this
    omega
  omega

/-- C165 fails for BGRA images, e.g. for a red scene with the default parameters. -/
theorem uniform_color_refuted :
    ¬ ∀ (g : Cfg), Supported g.d → g.req ≤ g.d.n → g.d.cols * g.d.rows < 2 ^ 32 → ∀ (roi : Int → Int → BitVec 8), RoiInner 2 g.d roi →
      ∀ (impl : LBSP.Impl) (img : HostImg) (fg : List (BitVec 8)) (rnd0 : Nat → Nat), 4 < g.d.cols → 4 < g.d.rows → ∀ b0 b,
      refresh impl g.lut g.d img fg true rnd0 none b0 = some b →
      ∀ inp : GlImg, (∀ x y : Nat, x < g.d.cols → y < g.d.rows → ∀ c < 4, inp x y c = img y x (swapped 4 c)) →
      (∀ x y x' y' : Nat, ∀ c < 4, img y x c = img y' x' c) → ∀ q rnd, (exec (invocation g inp roi rnd q) b).1 = 0 := by
  intro h
  have hr : RoiInner 2 (⟨20, 20, 4, 35⟩ : Dim) (innerRoi 20) := by
    intro x y h
    unfold innerRoi at h
    by_cases hc : 2 ≤ x ∧ x < ((20 : Nat) : Int) - 2 ∧ 2 ≤ y ∧ y < ((20 : Nat) : Int) - 2
    · dsimp only; omega
    · rw [if_neg hc] at h; exact absurd rfl h
  obtain ⟨b, e, _⟩ := init_samples .scalar (fun _ => 30) ⟨20, 20, 4, 35⟩ ⟨Or.inr rfl, by decide⟩ redImage [] (fun _ => 0) (by decide) (by decide) fun _ => 0
  have e1 := h ⟨⟨20, 20, 4, 35⟩, 30, 4, 2, 16, fun _ => 30⟩ ⟨Or.inr rfl, by decide⟩ (by decide) (by decide) (innerRoi 20) hr .scalar redImage [] (fun _ => 0)
    (by decide) (by decide) _ b e (fun _ _ c => redImage 0 0 (swapped 4 c)) (fun _ _ _ _ _ _ => rfl) (fun _ _ _ _ _ _ => rfl) (10, 10) fun _ => 0
  have e2 := uniform_color_foreground ⟨⟨20, 20, 4, 35⟩, 30, 4, 2, 16, fun _ => 30⟩ ⟨Or.inr rfl, by decide⟩ rfl (by decide) (by decide) (by decide)
    (innerRoi 20) hr .scalar redImage [] (fun _ => 0) (by decide) (by decide) _ b e (10, 10) (by decide) 0 0 255 0 (fun _ _ _ _ => ⟨rfl, rfl, rfl, rfl⟩)
    (by decide) (fun _ _ c => redImage 0 0 (swapped 4 c)) (fun _ _ _ _ => ⟨rfl, rfl, rfl⟩) fun _ => 0
  rw [e1] at e2
  exact absurd e2 (by decide)

end Litiv.GLLobster
