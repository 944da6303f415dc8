import Verif.Lemmas.TextIO
import Verif.Lemmas.Display

/-!
# C169: plain text archives
-/

namespace Litiv.TextIO
open Spec

theorem mapM_some {α β : Type} (f : α → Option β) (g : α → β) (l : List α) (h : ∀ x ∈ l, f x = some (g x)) : l.mapM f = some (l.map g) := by
  induction l with
  | nil => rfl
  | cons x l ih => rw [List.mapM_cons, h x (by simp), ih (fun y hy => h y (by simp [hy]))]; rfl

theorem mapM_none {α β : Type} (f : α → Option β) (l : List α) (x : α) (hx : x ∈ l) (h : f x = none) : l.mapM f = none := by
  induction l with
  | nil => simp at hx
  | cons y l ih =>
    rw [List.mapM_cons]
    rcases List.mem_cons.1 hx with rfl | hx
    · rw [h]; rfl
    · rw [ih hx]; cases f y <;> rfl

/-- A number that a matrix holds is not changed by conversions. -/
theorem holds_saturate (d : Depth) (q : ℚ) (h : Holds d q) : saturate d (.num (IEEE.fl 53 q)) = some (.num q) := by
  have int : ∀ n lo hi : Int, d.range = some (lo, hi) → q = n → lo ≤ n → n ≤ hi → |n| ≤ 2 ^ 53 → saturate d (.num (IEEE.fl 53 q)) = some (.num q) := by
    intro n lo hi hd hq h1 h2 h3
    subst hq
    rw [saturate, hd, IEEE.fl_int 53 (by norm_num) n h3]
    dsimp only
    rw [IEEE.roundEven_int, min_eq_right h2, max_eq_right h1]
  cases d with
  | u8 => obtain ⟨n, hq, h1, h2⟩ := h; exact int n _ _ rfl hq h1 h2 (by rw [abs_le]; constructor <;> norm_num <;> omega)
  | s8 => obtain ⟨n, hq, h1, h2⟩ := h; exact int n _ _ rfl hq h1 h2 (by rw [abs_le]; constructor <;> norm_num <;> omega)
  | u16 => obtain ⟨n, hq, h1, h2⟩ := h; exact int n _ _ rfl hq h1 h2 (by rw [abs_le]; constructor <;> norm_num <;> omega)
  | s16 => obtain ⟨n, hq, h1, h2⟩ := h; exact int n _ _ rfl hq h1 h2 (by rw [abs_le]; constructor <;> norm_num <;> omega)
  | s32 => obtain ⟨n, hq, h1, h2⟩ := h; exact int n _ _ rfl hq h1 h2 (by rw [abs_le]; constructor <;> norm_num <;> omega)
  | f32 =>
    obtain ⟨m, k, h1, rfl⟩ := h
    have e1 := IEEE.fl_exact 53 (by norm_num) m k (le_trans h1.le (by norm_num))
    have e2 := IEEE.fl_exact 24 (by norm_num) m k h1.le
    rw [saturate, e1]
    show some (Val.num (if Depth.f32 = Depth.f32 then IEEE.fl 24 ((m : ℚ) * (2 : ℚ) ^ k) else _)) = _
    rw [if_pos rfl, e2]
  | f64 =>
    obtain ⟨m, k, h1, rfl⟩ := h
    have e1 := IEEE.fl_exact 53 (by norm_num) m k h1.le
    rw [saturate, e1]
    rfl

/-- C169, partial: a matrix of any depth, number of channels and sizes is read back from a text archive exactly as it was
written — if every value has at most six significant digits. Missing: other values, see `text_exact_refuted` and
`text_nonfinite_refuted`. -/
theorem text_roundtrip_partial (version date : List Char) (m : Mat) (hv : '\n' ∉ version) (hd : '\n' ∉ date) (hm : WellFormed m)
    (hh : AllNumbers (Holds m.depth) m) (hs : AllNumbers Short m) : read (write version date m) = some m := by
  rw [read_write version date m hv hd hm]
  have hb : ∀ e ∈ m.elems, ∀ v ∈ e, ∃ w, back v = some w ∧ saturate m.depth w = some v := by
    intro e he v hv
    obtain ⟨q, rfl, h1⟩ := hh e he v hv
    obtain ⟨q', hq', h2⟩ := hs e he _ hv
    cases hq'
    obtain ⟨dec, d1, _, d3⟩ := readVal_show q
    rw [d3 h2] at d1
    exact ⟨_, d1, holds_saturate m.depth q h1⟩
  have e1 : m.elems.mapM (fun (e : List Val) => e.mapM back) = some (m.elems.map (fun e => e.map (fun v => (back v).getD .nan))) := by
    refine mapM_some _ _ _ (fun e he => mapM_some _ _ _ (fun v hv => ?_))
    obtain ⟨w, h1, _⟩ := hb e he v hv
    rw [h1]; rfl
  rw [e1, Option.bind_some]
  have e2 : (m.elems.map (fun (e : List Val) => e.map (fun v => (back v).getD .nan))).mapM (fun (e : List Val) => e.mapM (saturate m.depth)) = some m.elems := by
    rw [List.mapM_map]
    have : m.elems = m.elems.map id := by simp
    conv_rhs => rw [this]
    refine mapM_some _ _ _ (fun e he => ?_)
    show (e.map _).mapM _ = some e
    rw [List.mapM_map]
    have : e = e.map id := by simp
    conv_rhs => rw [this]
    refine mapM_some _ _ _ (fun v hv => ?_)
    obtain ⟨w, h1, h2⟩ := hb e he v hv
    show saturate m.depth ((back v).getD .nan) = some v
    rw [h1]
    exact h2
  rw [e2]
  rfl

/-- C169: matrices of 8-bit or 16-bit whole numbers are read back exactly as they were written. -/
theorem text_roundtrip_small (version date : List Char) (m : Mat) (hv : '\n' ∉ version) (hd : '\n' ∉ date) (hm : WellFormed m)
    (hdep : m.depth = .u8 ∨ m.depth = .s8 ∨ m.depth = .u16 ∨ m.depth = .s16) (hh : AllNumbers (Holds m.depth) m) :
    read (write version date m) = some m := by
  refine text_roundtrip_partial version date m hv hd hm hh (fun e he v hve => ?_)
  obtain ⟨q, hq, h⟩ := hh e he v hve
  refine ⟨q, hq, ?_⟩
  rcases hdep with hdep | hdep | hdep | hdep <;> rw [hdep] at h <;> obtain ⟨n, rfl, h1, h2⟩ := h <;>
    exact ⟨n, 0, by rw [abs_lt]; constructor <;> norm_num <;> omega, by simp⟩

theorem saturate_converted (d : Depth) (x : ℚ) (v : Val) (h : saturate d (.num x) = some v) : Converted d x v := by
  have whole : ∀ lo hi : Int, lo ≤ hi → d.range = some (lo, hi) → Whole lo hi x v := by
    intro lo hi hlh hr
    rw [saturate, hr] at h
    dsimp only at h
    obtain rfl := (Option.some.inj h).symm
    have hn := Display.roundEven_near x
    rw [abs_le] at hn
    refine ⟨_, rfl, le_max_left _ _, max_le hlh (min_le_left _ _), ?_⟩
    rcases lt_or_ge (Lut.roundEven x) lo with h1 | h1
    · right; left
      refine ⟨by omega, ?_⟩
      have : ((Lut.roundEven x : Int) : ℚ) + 1 ≤ lo := by exact_mod_cast h1
      linarith
    · rcases lt_or_ge hi (Lut.roundEven x) with h2 | h2
      · right; right
        refine ⟨by omega, ?_⟩
        have : (hi : ℚ) + 1 ≤ ((Lut.roundEven x : Int) : ℚ) := by exact_mod_cast h2
        linarith
      · left
        have e : max lo (min hi (Lut.roundEven x)) = Lut.roundEven x := by omega
        rw [e, abs_le]
        exact hn
  cases d with
  | u8 => exact whole 0 255 (by norm_num) rfl
  | s8 => exact whole (-128) 127 (by norm_num) rfl
  | u16 => exact whole 0 65535 (by norm_num) rfl
  | s16 => exact whole (-32768) 32767 (by norm_num) rfl
  | s32 => exact whole (-2147483648) 2147483647 (by norm_num) rfl
  | f32 => exact (Option.some.inj h).symm
  | f64 => exact (Option.some.inj h).symm

/-- C169: every matrix of numbers is read back with its depth, channels and sizes, and every value is the converted nearest
six-digit number. -/
theorem text_close (version date : List Char) (m : Mat) (hv : '\n' ∉ version) (hd : '\n' ∉ date) (hm : WellFormed m)
    (hh : AllNumbers (fun _ => True) m) : ∃ es, read (write version date m) = some ⟨m.depth, m.channels, m.sizes, es⟩ ∧
      List.Forall₂ (List.Forall₂ (Close m.depth)) m.elems es := by
  rw [read_write version date m hv hd hm]
  have hb : ∀ e ∈ m.elems, ∀ v ∈ e, ∃ w w', back v = some w ∧ saturate m.depth w = some w' ∧ Close m.depth v w' := by
    intro e he v hv
    obtain ⟨q, rfl, _⟩ := hh e he v hv
    obtain ⟨dec, d1, d2, _⟩ := readVal_show q
    obtain ⟨w', hw'⟩ : ∃ w', saturate m.depth (.num (IEEE.fl 53 dec)) = some w' := by
      unfold saturate
      dsimp only
      cases m.depth.range <;> exact ⟨_, rfl⟩
    exact ⟨_, w', d1, hw', q, dec, rfl, d2, saturate_converted _ _ _ hw'⟩
  have e1 : m.elems.mapM (fun (e : List Val) => e.mapM back) = some (m.elems.map (fun e => e.map (fun v => (back v).getD .nan))) := by
    refine mapM_some _ _ _ (fun e he => mapM_some _ _ _ (fun v hv => ?_))
    obtain ⟨w, _, h1, _⟩ := hb e he v hv
    rw [h1]; rfl
  have e2 : (m.elems.map (fun (e : List Val) => e.map (fun v => (back v).getD .nan))).mapM (fun (e : List Val) => e.mapM (saturate m.depth)) =
      some (m.elems.map (fun e => e.map (fun v => (saturate m.depth ((back v).getD .nan)).getD .nan))) := by
    rw [List.mapM_map]
    refine mapM_some _ _ _ (fun e he => ?_)
    show (e.map _).mapM _ = _
    rw [List.mapM_map]
    refine mapM_some _ _ _ (fun v hv => ?_)
    obtain ⟨w, w', h1, h2, _⟩ := hb e he v hv
    show saturate m.depth ((back v).getD .nan) = _
    rw [h1, Option.getD_some, h2]; rfl
  refine ⟨_, by rw [e1, Option.bind_some, e2]; rfl, ?_⟩
  rw [List.forall₂_map_right_iff, List.forall₂_same]
  intro e he
  rw [List.forall₂_map_right_iff, List.forall₂_same]
  intro v hv
  obtain ⟨w, w', h1, h2, h3⟩ := hb e he v hv
  rw [h1, Option.getD_some, h2]
  exact h3

/-- C169, refuted for larger whole numbers: a matrix of integers holding 1234567 is read back with 1234570. -/
theorem text_exact_refuted : ∃ m : Mat, WellFormed m ∧ AllNumbers (Holds m.depth) m ∧
    read (write "v".toList "d".toList m) = some { m with elems := [[.num 1234570]] } ∧ m.elems = [[.num 1234567]] := by
  refine ⟨⟨.s32, 1, [1, 1], [[.num 1234567]]⟩, ⟨by decide, by decide, by decide⟩, ?_, by decide +kernel, rfl⟩
  intro e he v hv
  simp at he; subst he
  simp at hv; subst hv
  exact ⟨_, rfl, 1234567, by norm_num, by norm_num, by norm_num⟩

/-- C169, refuted for infinities and NaN: no matrix containing one can be read back. -/
theorem text_nonfinite_refuted (version date : List Char) (m : Mat) (hv : '\n' ∉ version) (hd : '\n' ∉ date) (hm : WellFormed m)
    (e : List Val) (he : e ∈ m.elems) (v : Val) (hve : v ∈ e) (hn : ∀ q, v ≠ .num q) : read (write version date m) = none := by
  rw [read_write version date m hv hd hm]
  have : back v = none := by
    cases v with
    | num q => exact absurd rfl (hn q)
    | inf neg => exact readVal_inf neg
    | nan => exact readVal_nan
  rw [mapM_none _ _ e he (mapM_none _ _ v hve this)]
  rfl

/-- A matrix of two rows of two pixels with two channels. -/
def sampleMat : Mat := ⟨.f32, 2, [2, 2], [[.num (1 / 2), .num (-3)], [.num 100000, .num 0], [.num (1 / 1024), .num 7000000], [.num 1, .num 2]]⟩

example : WellFormed sampleMat := ⟨by decide, by decide, by decide⟩

example : AllNumbers (Holds sampleMat.depth) ⟨.f32, 2, [1, 1], [[.num (1 / 2), .num (-3)]]⟩ ∧ AllNumbers Short ⟨.f32, 2, [1, 1], [[.num (1 / 2), .num (-3)]]⟩ := by
  constructor
  · intro e he v hv
    simp at he; subst he
    simp at hv
    rcases hv with rfl | rfl
    · exact ⟨_, rfl, 1, -1, by norm_num, by norm_num⟩
    · exact ⟨_, rfl, -3, 0, by norm_num, by norm_num⟩
  · intro e he v hv
    simp at he; subst he
    simp at hv
    rcases hv with rfl | rfl
    · exact ⟨_, rfl, 5, -1, by norm_num, by norm_num⟩
    · exact ⟨_, rfl, -3, 0, by norm_num, by norm_num⟩

example : write "v 1".toList "d".toList ⟨.s16, 2, [1, 2], [[.num (-5), .num 12], [.num 0, .num 999]]⟩ =
    "htag v 1\ndate d\nnDataType 11\nnDataDepth 3\nnChannels 2\nnElemSize 4\nnElemCount 2\nnDims 2\nanSizes 1 2\n\n-5 12 0 999\n".toList := by
  decide +kernel

example : read (write "v 1".toList "d".toList sampleMat) =
    some { sampleMat with elems := [[.num (1 / 2), .num (-3)], [.num 100000, .num 0], [.num (16777207 / 17179869184), .num 7000000], [.num 1, .num 2]] } := by
  decide +kernel

example : showVal (.num 1234567) = "1.23457e+06".toList ∧ showVal (.num (1 / 1024)) = "0.000976562".toList ∧
    showVal (.num (-1 / 30000)) = "-3.33333e-05".toList ∧ showVal (.num (9999995 / 10)) = "1e+06".toList := by decide +kernel

end Litiv.TextIO
