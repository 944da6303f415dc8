import Verif.Lemmas.Lut

/-!
# Lookup tables: properties
-/

namespace Litiv.Lut

variable {Ty : Type}

/-- distance between sampled abscissas: the domain split in `bins - 1` equal parts -/
def spacing (bins : Nat) (lo hi : ℚ) : ℚ := (max lo hi - min lo hi) / (bins - 1)

theorem width_pos {lo hi : ℚ} (h : lo ≠ hi) : 0 < max lo hi - min lo hi := by
  rcases lt_or_gt_of_ne h with h | h
  · rw [max_eq_right h.le, min_eq_left h.le]; linarith
  · rw [max_eq_left h.le, min_eq_right h.le]; linarith

theorem spacing_pos {bins : Nat} (hb : 2 ≤ bins) {lo hi : ℚ} (h : lo ≠ hi) :
    0 < spacing bins lo hi := by
  have : (2 : ℚ) ≤ bins := by exact_mod_cast hb
  exact div_pos (width_pos h) (by linarith)

theorem spacing_mul {bins : Nat} (hb : 2 ≤ bins) (lo hi : ℚ) :
    ((bins : ℚ) - 1) * spacing bins lo hi = max lo hi - min lo hi := by
  have : (2 : ℚ) ≤ bins := by exact_mod_cast hb
  exact mul_div_cancel₀ _ (by linarith)

/-- what an initialised table holds, in exact arithmetic -/
theorem init_exact (bins safety : Nat) (hb : 2 ≤ bins) (lo hi : ℚ) (f : ℚ → Ty) (t : Table Ty)
    (ht : init Arith.exact bins safety lo hi f = some t) :
    lo ≠ hi ∧ t.bins = bins ∧ t.safety = safety ∧ t.lowOffset = min lo hi ∧
    t.midOffset = (lo + hi) / 2 ∧ t.scale * spacing bins lo hi = 1 ∧
    ∃ g : Nat → Ty, t.data = (List.range (t.bins + t.safety * 2)).map g ∧
      (∀ i : Nat, i < bins → g (safety + i) = f (min lo hi + i * spacing bins lo hi)) ∧
      (∀ n, n ≤ safety → g n = f (min lo hi)) ∧
      (∀ n, bins + safety - 1 ≤ n → g n = f (max lo hi)) := by
  unfold init at ht
  split at ht
  · cases ht
  · rename_i hne
    injection ht with ht
    subst ht
    have hw := width_pos hne
    have hb1 : (((bins - 1 : Nat)) : ℚ) = (bins : ℚ) - 1 := by
      rw [Nat.cast_sub (by omega)]; norm_num
    have hb2 : (0 : ℚ) < (bins : ℚ) - 1 := by
      have : (2 : ℚ) ≤ bins := by exact_mod_cast hb
      linarith
    refine ⟨hne, rfl, rfl, rfl, ?_, ?_, _, rfl, ?_, ?_, ?_⟩
    · simp only [Arith.exact, id]
      rw [max_add_min]
    · simp only [Arith.exact, id, hb1, spacing]
      field_simp
    · intro i hi
      split
      · have : i = 0 := by omega
        subst this; simp
      · split
        · simp only [abscissa, Arith.exact, id, hb1]
          rw [Nat.add_sub_cancel_left]
          rfl
        · have hi' : i = bins - 1 := by omega
          rw [hi', hb1, spacing]
          congr 1
          field_simp
          ring
    · intro n hn
      rw [if_pos hn]
    · intro n hn
      rw [if_neg (by omega), if_neg (by omega)]

/-- a lookup index in the sampled range returns the sample -/
theorem low_sample (bins safety : Nat) (hb : 2 ≤ bins) (lo hi : ℚ) (f : ℚ → Ty) (t : Table Ty)
    (ht : init Arith.exact bins safety lo hi f = some t) (i : Int) (h0 : 0 ≤ i) (h1 : i < bins) :
    lowAt t i = some (f (min lo hi + i * spacing bins lo hi)) := by
  obtain ⟨-, hb', hs', -, -, -, g, hd, hg, -, -⟩ := init_exact bins safety hb lo hi f t ht
  rw [lowAt_entry t g hd i (by omega) (by omega), hs']
  rw [show ((safety : Int) + i).toNat = safety + i.toNat by omega, hg _ (by omega)]
  congr 3
  have : ((i.toNat : Int) : ℚ) = (i : ℚ) := by rw [Int.toNat_of_nonneg h0]
  exact_mod_cast congrArg (· * spacing bins lo hi) this

/-- C53: inside its domain, `eval` returns the function at the nearest sampled abscissa below. -/
theorem eval_floor (bins safety : Nat) (hb : 2 ≤ bins) (lo hi : ℚ) (f : ℚ → Ty) (t : Table Ty)
    (ht : init Arith.exact bins safety lo hi f = some t) (x : ℚ) (h0 : min lo hi ≤ x)
    (h1 : x ≤ max lo hi) :
    ∃ i : Nat, i < bins ∧ eval Arith.exact t x = some (f (min lo hi + i * spacing bins lo hi)) ∧
      min lo hi + i * spacing bins lo hi ≤ x ∧ x < min lo hi + (i + 1) * spacing bins lo hi := by
  obtain ⟨hne, -, -, hlo, -, hsc, -⟩ := init_exact bins safety hb lo hi f t ht
  have hsp := spacing_pos hb hne
  set d := spacing bins lo hi with hd
  have hv : (x - min lo hi) * t.scale * d = x - min lo hi := by rw [mul_assoc, hsc, mul_one]
  have hv0 : 0 ≤ (x - min lo hi) * t.scale := by
    by_contra hc
    have := mul_neg_of_neg_of_pos (not_le.mp hc) hsp
    linarith
  have hvmax : (x - min lo hi) * t.scale ≤ bins - 1 := by
    by_contra hc
    have h2 := mul_lt_mul_of_pos_right (not_le.mp hc) hsp
    have := spacing_mul hb lo hi
    rw [← hd] at this
    linarith
  obtain ⟨a, b, c⟩ := trunc_nonneg _ hv0
  have hib : trunc ((x - min lo hi) * t.scale) < bins := by
    have : (trunc ((x - min lo hi) * t.scale) : ℚ) < bins := by linarith
    exact_mod_cast this
  have he : eval Arith.exact t x = lowAt t (trunc ((x - min lo hi) * t.scale)) := by
    simp only [eval, scaled, Arith.exact, id, hlo]
  rw [he, low_sample bins safety hb lo hi f t ht _ c hib]
  generalize trunc ((x - min lo hi) * t.scale) = k at *
  obtain ⟨i, rfl⟩ := Int.eq_ofNat_of_zero_le c
  simp only [Int.cast_natCast] at a b ⊢
  refine ⟨i, by exact_mod_cast hib, rfl, ?_, ?_⟩
  · have := mul_le_mul_of_nonneg_right a hsp.le; linarith
  · have := mul_lt_mul_of_pos_right b hsp; linarith

/-- C53: inside its domain, `eval_round` returns the function at a nearest sampled abscissa. -/
theorem eval_nearest (bins safety : Nat) (hb : 2 ≤ bins) (lo hi : ℚ) (f : ℚ → Ty) (t : Table Ty)
    (ht : init Arith.exact bins safety lo hi f = some t) (x : ℚ) (h0 : min lo hi ≤ x)
    (h1 : x ≤ max lo hi) :
    ∃ i : Nat, i < bins ∧
      evalRound Arith.exact t x = some (f (min lo hi + i * spacing bins lo hi)) ∧
      |x - (min lo hi + i * spacing bins lo hi)| ≤ spacing bins lo hi / 2 := by
  obtain ⟨hne, -, -, hlo, -, hsc, -⟩ := init_exact bins safety hb lo hi f t ht
  have hsp := spacing_pos hb hne
  set d := spacing bins lo hi with hd
  have hv : (x - min lo hi) * t.scale * d = x - min lo hi := by rw [mul_assoc, hsc, mul_one]
  have hv0 : 0 ≤ (x - min lo hi) * t.scale := by
    by_contra hc
    have := mul_neg_of_neg_of_pos (not_le.mp hc) hsp
    linarith
  have hvmax : (x - min lo hi) * t.scale ≤ bins - 1 := by
    by_contra hc
    have h2 := mul_lt_mul_of_pos_right (not_le.mp hc) hsp
    have := spacing_mul hb lo hi
    rw [← hd] at this
    linarith
  have hr := abs_le.mp (llround_bound ((x - min lo hi) * t.scale))
  have hib : llround ((x - min lo hi) * t.scale) < bins := by
    have : (llround ((x - min lo hi) * t.scale) : ℚ) < bins := by linarith
    exact_mod_cast this
  have c : 0 ≤ llround ((x - min lo hi) * t.scale) := by
    have : (-1 : ℚ) < llround ((x - min lo hi) * t.scale) := by linarith
    have : (-1 : Int) < llround ((x - min lo hi) * t.scale) := by exact_mod_cast this
    omega
  have he : evalRound Arith.exact t x = lowAt t (llround ((x - min lo hi) * t.scale)) := by
    simp only [evalRound, scaled, Arith.exact, id, hlo]
  rw [he, low_sample bins safety hb lo hi f t ht _ c hib]
  generalize llround ((x - min lo hi) * t.scale) = k at *
  obtain ⟨i, rfl⟩ := Int.eq_ofNat_of_zero_le c
  simp only [Int.cast_natCast] at hr ⊢
  refine ⟨i, by exact_mod_cast hib, rfl, ?_⟩
  rw [abs_le]
  have a := mul_le_mul_of_nonneg_right hr.1 hsp.le
  have b := mul_le_mul_of_nonneg_right hr.2 hsp.le
  constructor <;> linarith

/-- C53: outside its domain, up to (not including) one more step than the safety margin, `eval`
returns the function at the nearest end. -/
theorem eval_margin (bins safety : Nat) (hb : 2 ≤ bins) (lo hi : ℚ) (f : ℚ → Ty) (t : Table Ty)
    (ht : init Arith.exact bins safety lo hi f = some t) (x : ℚ) :
    (min lo hi - (safety + 1) * spacing bins lo hi < x → x ≤ min lo hi →
      eval Arith.exact t x = some (f (min lo hi))) ∧
    (max lo hi ≤ x → x < max lo hi + (safety + 1) * spacing bins lo hi →
      eval Arith.exact t x = some (f (max lo hi))) := by
  obtain ⟨hne, hb', hs', hlo, -, hsc, g, hd, -, hgl, hgh⟩ := init_exact bins safety hb lo hi f t ht
  have hsp := spacing_pos hb hne
  have hwd := spacing_mul hb lo hi
  generalize spacing bins lo hi = d at *
  have hv : (x - min lo hi) * t.scale * d = x - min lo hi := by rw [mul_assoc, hsc, mul_one]
  have he : eval Arith.exact t x = lowAt t (trunc ((x - min lo hi) * t.scale)) := by
    simp only [eval, scaled, Arith.exact, id, hlo]
  rw [he]
  generalize (x - min lo hi) * t.scale = v at *
  constructor
  · intro h1 h2
    have hv0 : v ≤ 0 := by
      by_contra hc
      have := mul_pos (not_le.mp hc) hsp
      linarith
    have hv1 : -((safety : ℚ) + 1) < v := by
      by_contra hc
      have := mul_le_mul_of_nonneg_right (not_lt.mp hc) hsp.le
      linarith
    obtain ⟨a, b, c⟩ := trunc_nonpos v hv0
    have hlow : -(safety : Int) ≤ trunc v := by
      have : -((safety : ℚ) + 1) < trunc v := by linarith
      have : -((safety : Int) + 1) < trunc v := by exact_mod_cast this
      omega
    rw [lowAt_entry t g hd _ (by omega) (by omega), hgl _ (by omega)]
  · intro h1 h2
    have hv0 : (bins : ℚ) - 1 ≤ v := by
      by_contra hc
      have := mul_lt_mul_of_pos_right (not_le.mp hc) hsp
      linarith
    have hv1 : v < (bins : ℚ) - 1 + (safety + 1) := by
      by_contra hc
      have := mul_le_mul_of_nonneg_right (not_lt.mp hc) hsp.le
      rw [add_mul] at this
      linarith
    have hbq : (2 : ℚ) ≤ bins := by exact_mod_cast hb
    obtain ⟨a, b, c⟩ := trunc_nonneg v (by linarith)
    have h3 : trunc v < (bins : Int) + safety := by
      have : (trunc v : ℚ) < bins + safety := by linarith
      exact_mod_cast this
    have h4 : (bins : Int) - 1 ≤ trunc v := by
      have : (bins : ℚ) - 2 < trunc v := by linarith
      have : (bins : Int) - 2 < trunc v := by exact_mod_cast this
      omega
    rw [lowAt_entry t g hd _ (by omega) (by omega), hgh _ (by omega)]

/-- C53: beyond the safety margin a lookup leaves the buffer. -/
theorem eval_outside (bins safety : Nat) (hb : 2 ≤ bins) (lo hi : ℚ) (f : ℚ → Ty) (t : Table Ty)
    (ht : init Arith.exact bins safety lo hi f = some t) (x : ℚ) :
    (x ≤ min lo hi - (safety + 1) * spacing bins lo hi → eval Arith.exact t x = none) ∧
    (max lo hi + (safety + 1) * spacing bins lo hi ≤ x → eval Arith.exact t x = none) := by
  obtain ⟨hne, hb', hs', hlo, -, hsc, g, hd, -, hgl, hgh⟩ := init_exact bins safety hb lo hi f t ht
  have hsp := spacing_pos hb hne
  have hwd := spacing_mul hb lo hi
  generalize spacing bins lo hi = d at *
  have hv : (x - min lo hi) * t.scale * d = x - min lo hi := by rw [mul_assoc, hsc, mul_one]
  have he : eval Arith.exact t x = lowAt t (trunc ((x - min lo hi) * t.scale)) := by
    simp only [eval, scaled, Arith.exact, id, hlo]
  rw [he]
  generalize (x - min lo hi) * t.scale = v at *
  have hbq : (2 : ℚ) ≤ bins := by exact_mod_cast hb
  have hsq : (0 : ℚ) ≤ safety := Nat.cast_nonneg _
  constructor
  · intro h1
    have hv1 : v ≤ -((safety : ℚ) + 1) := by
      by_contra hc
      have := mul_lt_mul_of_pos_right (not_le.mp hc) hsp
      linarith
    obtain ⟨a, b, c⟩ := trunc_nonpos v (by linarith)
    have : trunc v < -(safety : Int) := by
      have : (trunc v : ℚ) < -(safety : ℚ) := by linarith
      exact_mod_cast this
    unfold lowAt
    dsimp only
    rw [if_neg (by omega)]
  · intro h1
    have hv1 : (bins : ℚ) - 1 + (safety + 1) ≤ v := by
      by_contra hc
      have := mul_lt_mul_of_pos_right (not_le.mp hc) hsp
      rw [add_mul] at this
      linarith
    obtain ⟨a, b, c⟩ := trunc_nonneg v (by linarith)
    have : (bins : Int) + safety - 1 < trunc v := by
      have : (bins : ℚ) + safety - 1 < trunc v := by linarith
      exact_mod_cast this
    unfold lowAt
    dsimp only
    rw [if_pos (by omega), hd, List.getElem?_eq_none]
    rw [List.length_map, List.length_range]
    omega

/-- five bins over [0,8] with one safety bin on each side, holding the squares -/
def squares : Option (Table ℚ) := init Arith.exact 5 1 8 0 (fun x => x * x)

example : (squares.map (fun t => t.data)) = some [0, 0, 4, 16, 36, 64, 64] ∧
    squares.bind (fun t => eval Arith.exact t (39 / 10)) = some 4 ∧
    squares.bind (fun t => evalRound Arith.exact t (39 / 10)) = some 16 ∧
    squares.bind (fun t => eval Arith.exact t (-39 / 10)) = some 0 ∧
    squares.bind (fun t => eval Arith.exact t (119 / 10)) = some 64 ∧
    squares.bind (fun t => eval Arith.exact t 12) = none := by decide +kernel

/-! ## mid lookups -/

/-- a mid index with an odd bin count -/
theorem mid_sample_odd (k safety : Nat) (hk : 1 ≤ k) (lo hi : ℚ) (f : ℚ → Ty) (t : Table Ty)
    (ht : init Arith.exact (2 * k + 1) safety lo hi f = some t) (i : Int) (h0 : -(k : Int) ≤ i)
    (h1 : i ≤ k) :
    midAt t i = some (f ((lo + hi) / 2 + i * spacing (2 * k + 1) lo hi)) := by
  obtain ⟨hne, hb', hs', -, -, -, g, hd, hg, -, -⟩ :=
    init_exact (2 * k + 1) safety (by omega) lo hi f t ht
  rw [midAt_entry t g hd i (by omega) (by omega), hs', hb',
    show (((2 * k + 1) / 2 + safety : Nat) + i).toNat = safety + (k + i).toNat by omega,
    hg _ (by omega)]
  congr 2
  have : (((k + i).toNat : Int) : ℚ) = k + i := by
    rw [Int.toNat_of_nonneg (by omega)]; push_cast; rfl
  have hc : (((k + i).toNat : Nat) : ℚ) = k + i := by exact_mod_cast this
  rw [hc]
  have hk' : (0 : ℚ) < k := by exact_mod_cast hk
  have hmm : max lo hi + min lo hi = lo + hi := max_add_min lo hi
  simp only [spacing]
  push_cast
  rw [← hmm]
  field_simp
  ring

/-- C53: with an odd bin count, `eval_mid` returns the function at the nearest sampled abscissa
between the argument and the centre of the domain. -/
theorem eval_mid_odd (k safety : Nat) (hk : 1 ≤ k) (lo hi : ℚ) (f : ℚ → Ty) (t : Table Ty)
    (ht : init Arith.exact (2 * k + 1) safety lo hi f = some t) (x : ℚ) (h0 : min lo hi ≤ x)
    (h1 : x ≤ max lo hi) :
    ∃ i : Int, |i| ≤ k ∧
      evalMid Arith.exact t x = some (f ((lo + hi) / 2 + i * spacing (2 * k + 1) lo hi)) ∧
      ((lo + hi) / 2 ≤ x → 0 ≤ i ∧ (lo + hi) / 2 + i * spacing (2 * k + 1) lo hi ≤ x ∧
        x < (lo + hi) / 2 + (i + 1) * spacing (2 * k + 1) lo hi) ∧
      (x ≤ (lo + hi) / 2 → i ≤ 0 ∧ x ≤ (lo + hi) / 2 + i * spacing (2 * k + 1) lo hi ∧
        (lo + hi) / 2 + (i - 1) * spacing (2 * k + 1) lo hi < x) := by
  obtain ⟨hne, -, -, -, hmid, hsc, -⟩ := init_exact (2 * k + 1) safety (by omega) lo hi f t ht
  have hsp := spacing_pos (bins := 2 * k + 1) (by omega) hne
  have hwd : (2 * (k : ℚ)) * spacing (2 * k + 1) lo hi = max lo hi - min lo hi := by
    have : (0 : ℚ) < k := by exact_mod_cast hk
    rw [spacing]; push_cast; field_simp; ring
  have hmm : max lo hi + min lo hi = lo + hi := max_add_min lo hi
  have hms := mid_sample_odd k safety hk lo hi f t ht
  generalize spacing (2 * k + 1) lo hi = d at *
  have hv : (x - (lo + hi) / 2) * t.scale * d = x - (lo + hi) / 2 := by rw [mul_assoc, hsc, mul_one]
  have he : evalMid Arith.exact t x = midAt t (trunc ((x - (lo + hi) / 2) * t.scale)) := by
    simp only [evalMid, scaled, Arith.exact, id, hmid]
  rw [he]
  generalize (x - (lo + hi) / 2) * t.scale = v at *
  have hvk : v ≤ k := by
    by_contra hc
    have := mul_lt_mul_of_pos_right (not_le.mp hc) hsp
    linarith
  have hvk' : -(k : ℚ) ≤ v := by
    by_contra hc
    have := mul_lt_mul_of_pos_right (not_le.mp hc) hsp
    linarith
  have hpos : 0 ≤ v → (trunc v : ℚ) ≤ v ∧ v < trunc v + 1 ∧ 0 ≤ trunc v := trunc_nonneg v
  have hneg : v ≤ 0 → v ≤ trunc v ∧ (trunc v : ℚ) < v + 1 ∧ trunc v ≤ 0 := trunc_nonpos v
  have hik : |trunc v| ≤ (k : Int) := by
    rw [abs_le]
    rcases le_total 0 v with h | h
    · obtain ⟨a, b, c⟩ := hpos h
      have : (trunc v : ℚ) ≤ k := by linarith
      have : trunc v ≤ (k : Int) := by exact_mod_cast this
      omega
    · obtain ⟨a, b, c⟩ := hneg h
      have : -(k : ℚ) ≤ trunc v := by linarith
      have : -(k : Int) ≤ trunc v := by exact_mod_cast this
      omega
  rw [hms _ (abs_le.mp hik).1 (abs_le.mp hik).2]
  refine ⟨trunc v, hik, rfl, ?_, ?_⟩
  · intro hx
    have h : 0 ≤ v := by
      by_contra hc
      have := mul_neg_of_neg_of_pos (not_le.mp hc) hsp
      linarith
    obtain ⟨a, b, c⟩ := hpos h
    have a' := mul_le_mul_of_nonneg_right a hsp.le
    have b' := mul_lt_mul_of_pos_right b hsp
    exact ⟨c, by linarith, by linarith⟩
  · intro hx
    have h : v ≤ 0 := by
      by_contra hc
      have := mul_pos (not_le.mp hc) hsp
      linarith
    obtain ⟨a, b, c⟩ := hneg h
    have a' := mul_le_mul_of_nonneg_right a hsp.le
    have b' := mul_lt_mul_of_pos_right b hsp
    rw [add_mul] at b'
    rw [sub_mul]
    exact ⟨c, by linarith, by linarith⟩

/-- C53: with an odd bin count, `eval_mid_round` returns the function at a nearest sampled
abscissa. -/
theorem eval_mid_round_odd (k safety : Nat) (hk : 1 ≤ k) (lo hi : ℚ) (f : ℚ → Ty) (t : Table Ty)
    (ht : init Arith.exact (2 * k + 1) safety lo hi f = some t) (x : ℚ) (h0 : min lo hi ≤ x)
    (h1 : x ≤ max lo hi) :
    ∃ i : Int, |i| ≤ k ∧
      evalMidRound Arith.exact t x = some (f ((lo + hi) / 2 + i * spacing (2 * k + 1) lo hi)) ∧
      |x - ((lo + hi) / 2 + i * spacing (2 * k + 1) lo hi)| ≤ spacing (2 * k + 1) lo hi / 2 := by
  obtain ⟨hne, -, -, -, hmid, hsc, -⟩ := init_exact (2 * k + 1) safety (by omega) lo hi f t ht
  have hsp := spacing_pos (bins := 2 * k + 1) (by omega) hne
  have hwd : (2 * (k : ℚ)) * spacing (2 * k + 1) lo hi = max lo hi - min lo hi := by
    have : (0 : ℚ) < k := by exact_mod_cast hk
    rw [spacing]; push_cast; field_simp; ring
  have hmm : max lo hi + min lo hi = lo + hi := max_add_min lo hi
  have hms := mid_sample_odd k safety hk lo hi f t ht
  generalize spacing (2 * k + 1) lo hi = d at *
  have hv : (x - (lo + hi) / 2) * t.scale * d = x - (lo + hi) / 2 := by rw [mul_assoc, hsc, mul_one]
  have he : evalMidRound Arith.exact t x = midAt t (llround ((x - (lo + hi) / 2) * t.scale)) := by
    simp only [evalMidRound, scaled, Arith.exact, id, hmid]
  rw [he]
  generalize (x - (lo + hi) / 2) * t.scale = v at *
  have hvk : v ≤ k := by
    by_contra hc
    have := mul_lt_mul_of_pos_right (not_le.mp hc) hsp
    linarith
  have hvk' : -(k : ℚ) ≤ v := by
    by_contra hc
    have := mul_lt_mul_of_pos_right (not_le.mp hc) hsp
    linarith
  have hr := abs_le.mp (llround_bound v)
  have hik : |llround v| ≤ (k : Int) := by
    rw [abs_le]
    have h1 : (llround v : ℚ) < k + 1 := by linarith
    have h2 : -((k : ℚ) + 1) < llround v := by linarith
    have h1 : llround v < (k : Int) + 1 := by exact_mod_cast h1
    have h2 : -((k : Int) + 1) < llround v := by exact_mod_cast h2
    omega
  rw [hms _ (abs_le.mp hik).1 (abs_le.mp hik).2]
  refine ⟨llround v, hik, rfl, ?_⟩
  rw [abs_le]
  have a := mul_le_mul_of_nonneg_right hr.1 hsp.le
  have b := mul_le_mul_of_nonneg_right hr.2 hsp.le
  constructor <;> linarith

/-- C53 (finding): with an even bin count and no safety bins, `eval_mid_round` at the upper end
of the domain reads past the table. -/
theorem eval_mid_round_refuted :
    ¬ ∀ (bins safety : Nat) (lo hi : ℚ) (f : ℚ → ℚ) (t : Table ℚ), 2 ≤ bins →
      init Arith.exact bins safety lo hi f = some t → ∀ x, min lo hi ≤ x → x ≤ max lo hi →
      (evalMidRound Arith.exact t x).isSome = true := by
  intro h
  cases hi : init Arith.exact 4 0 0 3 (fun x => x) with
  | none => revert hi; decide +kernel
  | some t =>
    have h1 := h 4 0 0 3 (fun x => x) t (by decide) hi 3 (by decide +kernel) (by decide +kernel)
    have h2 : ((init Arith.exact 4 0 0 3 (fun x => x)).map
        (fun t => (evalMidRound Arith.exact t 3).isSome)) = some false := by decide +kernel
    rw [hi] at h2
    simp only [Option.map_some, Option.some.injEq] at h2
    rw [h2] at h1
    cases h1

/-- C53 (finding): with an even bin count the mid pointer is half a step above the centre, so
`eval_mid` is not the nearest sample on either side: here a sample 1.5 steps away is used. -/
theorem eval_mid_even_refuted :
    ¬ ∀ (bins safety : Nat) (lo hi : ℚ) (t : Table ℚ), 2 ≤ bins →
      init Arith.exact bins safety lo hi (fun x => x) = some t →
      ∀ x, min lo hi ≤ x → x ≤ max lo hi → ∀ y, evalMid Arith.exact t x = some y →
      |x - y| < spacing bins lo hi := by
  intro h
  have h2 : ((init Arith.exact 4 0 0 3 (fun x => x)).map
      (fun t => evalMid Arith.exact t (6 / 10))) = some (some 2) := by decide +kernel
  cases hi : init Arith.exact 4 0 0 3 (fun x => x) with
  | none => rw [hi] at h2; cases h2
  | some t =>
    rw [hi] at h2
    simp only [Option.map_some, Option.some.injEq] at h2
    have h1 := h 4 0 0 3 t (by decide) hi (6 / 10) (by decide +kernel) (by decide +kernel) 2 h2
    revert h1
    decide +kernel

/-- C53: the debug assertions of the lookups hold exactly when the access is inside the buffer. -/
theorem assert_exact (A : Arith) (bins safety : Nat) (hb : 2 ≤ bins) (lo hi : ℚ) (f : ℚ → Ty)
    (t : Table Ty) (ht : init A bins safety lo hi f = some t) (i : Int) :
    (midAssert t i = true ↔ (midAt t i).isSome = true) ∧
    (lowAssert t i = true ↔ (lowAt t i).isSome = true) := by
  unfold init at ht
  split at ht
  · cases ht
  · injection ht with ht
    subst ht
    constructor
    · simp only [midAssert, midAt, Bool.and_eq_true, decide_eq_true_eq]
      constructor
      · intro h
        rw [if_pos (by omega), List.getElem?_map, List.getElem?_range (by omega)]
        rfl
      · intro h
        split at h
        · rw [Option.isSome_iff_exists] at h
          obtain ⟨a, h⟩ := h
          obtain ⟨h, -⟩ := List.getElem?_eq_some_iff.mp h
          rw [List.length_map, List.length_range] at h
          omega
        · cases h
    · simp only [lowAssert, lowAt, Bool.and_eq_true, decide_eq_true_eq]
      constructor
      · intro h
        rw [if_pos (by omega), List.getElem?_map, List.getElem?_range (by omega)]
        rfl
      · intro h
        split at h
        · rw [Option.isSome_iff_exists] at h
          obtain ⟨a, h⟩ := h
          obtain ⟨h, -⟩ := List.getElem?_eq_some_iff.mp h
          rw [List.length_map, List.length_range] at h
          omega
        · cases h

/-- C53: the variants without offset agree with the others on domains that need none. -/
theorem noffset_agree (A : Arith) (t : Table Ty) (x : ℚ) (hx : A.rx x = x) :
    (t.lowOffset = 0 → evalNoffset A t x = eval A t x ∧ evalNoffsetRound A t x = evalRound A t x) ∧
    (t.midOffset = 0 → evalMidNoffset A t x = evalMid A t x ∧
      evalMidNoffsetRound A t x = evalMidRound A t x) := by
  refine ⟨fun h => ⟨?_, ?_⟩, fun h => ⟨?_, ?_⟩⟩
  · simp only [evalNoffset, eval, scaled, h, sub_zero, hx]
  · simp only [evalNoffsetRound, evalRound, scaled, h, sub_zero, hx]
  · simp only [evalMidNoffset, evalMid, scaled, h, sub_zero, hx]
  · simp only [evalMidNoffsetRound, evalMidRound, scaled, h, sub_zero, hx]

/-! ## rounding -/

/-- rounding with relative error at most `u` -/
def RelErr (u : ℚ) (r : ℚ → ℚ) : Prop := ∀ x, |r x - x| ≤ u * |x|

theorem RelErr.factor {u : ℚ} {r : ℚ → ℚ} (h : RelErr u r) (x : ℚ) (hu : 0 ≤ u := by assumption) :
    ∃ a, |a| ≤ u ∧ r x = x * (1 + a) := by
  have h1 := h x
  by_cases hx : x = 0
  · subst hx
    refine ⟨0, by simpa using hu, ?_⟩
    have : r 0 = 0 := by simpa using h1
    rw [this]; ring
  · refine ⟨(r x - x) / x, ?_, by field_simp; ring⟩
    rw [abs_div, div_le_iff₀ (abs_pos.mpr hx)]
    exact h1

/-- C53: with rounded arithmetic (relative error `u` per operation) and a bin count small
against `1/u`, `eval` and `eval_round` stay inside the table for every argument of the domain,
and use a sample whose index is within one step (half a step for `eval_round`), plus the
accumulated rounding error, of the exact position. -/
theorem eval_rounded (A : Arith) (u : ℚ) (hu : 0 ≤ u) (hrx : RelErr u A.rx) (hrd : RelErr u A.rd)
    (bins safety : Nat) (hb : 2 ≤ bins) (hsmall : 16 * u * bins ≤ 1) (lo hi : ℚ) (f : ℚ → Ty)
    (t : Table Ty) (ht : init A bins safety lo hi f = some t) (x : ℚ) (h0 : min lo hi ≤ x)
    (h1 : x ≤ max lo hi) :
    ∃ i j : Nat, i < bins ∧ j < bins ∧
      eval A t x = t.data[safety + i]? ∧ (eval A t x).isSome = true ∧
      evalRound A t x = t.data[safety + j]? ∧ (evalRound A t x).isSome = true ∧
      |(x - min lo hi) / spacing bins lo hi - i| ≤ 1 + 8 * u * bins ∧
      |(x - min lo hi) / spacing bins lo hi - j| ≤ 1 / 2 + 8 * u * bins := by
  unfold init at ht
  split at ht
  · cases ht
  rename_i hne
  injection ht with ht
  have hdata : t.data.length = bins + safety * 2 := by subst ht; simp
  have hts : t.safety = safety := by subst ht; rfl
  have hv : scaled A t t.lowOffset x = A.rd (A.rx (x - min lo hi) *
      A.rd (((bins - 1 : Nat) : ℚ) / A.rx (max lo hi - min lo hi))) := by subst ht; rfl
  have hw := width_pos hne
  have hbq : (2 : ℚ) ≤ bins := by exact_mod_cast hb
  have hb1 : (((bins - 1 : Nat)) : ℚ) = (bins : ℚ) - 1 := by
    rw [Nat.cast_sub (by omega)]; norm_num
  have hu32 : 32 * u ≤ 1 := by
    have := mul_le_mul_of_nonneg_left hbq hu
    linarith
  obtain ⟨a, ha, hA⟩ := hrx.factor (max lo hi - min lo hi)
  obtain ⟨b, hb', hB⟩ := hrx.factor (x - min lo hi)
  obtain ⟨c, hc, hC⟩ := hrd.factor (((bins - 1 : Nat) : ℚ) / A.rx (max lo hi - min lo hi))
  obtain ⟨d, hd, hD⟩ := hrd.factor (A.rx (x - min lo hi) *
      A.rd (((bins - 1 : Nat) : ℚ) / A.rx (max lo hi - min lo hi)))
  rw [abs_le] at ha hb' hc hd
  have h1a : 0 < 1 + a := by linarith
  -- exact position
  have hpos : (x - min lo hi) / spacing bins lo hi =
      (x - min lo hi) * ((bins : ℚ) - 1) / (max lo hi - min lo hi) := by
    have : (bins : ℚ) - 1 ≠ 0 := by linarith
    rw [spacing]; field_simp
  set e := (x - min lo hi) * ((bins : ℚ) - 1) / (max lo hi - min lo hi) with he
  have he0 : 0 ≤ e := div_nonneg (mul_nonneg (by linarith) (by linarith)) hw.le
  have he1 : e ≤ bins - 1 := by
    rw [he, div_le_iff₀ hw]
    have : x - min lo hi ≤ max lo hi - min lo hi := by linarith
    nlinarith
  have hvv : scaled A t t.lowOffset x = e * ((1 + b) * (1 + c) * (1 + d) / (1 + a)) := by
    rw [hv, hD, hC, hB, hA, hb1, he]
    field_simp
  obtain ⟨hF1, hF2⟩ := rel_factor u a b c d hu hu32 ha hb' hc hd
  have hv0 : 0 ≤ scaled A t t.lowOffset x := by
    rw [hvv]; exact mul_nonneg he0 (by linarith)
  have hvu : scaled A t t.lowOffset x ≤ e + 8 * u * ((bins : ℚ) - 1) := by
    rw [hvv]
    have p1 := mul_le_mul_of_nonneg_left hF1 he0
    have p2 : e * u ≤ ((bins : ℚ) - 1) * u := mul_le_mul_of_nonneg_right he1 hu
    linarith
  have hvl : e - 8 * u * ((bins : ℚ) - 1) ≤ scaled A t t.lowOffset x := by
    rw [hvv]
    have p1 := mul_le_mul_of_nonneg_left hF2 he0
    have p2 : e * u ≤ ((bins : ℚ) - 1) * u := mul_le_mul_of_nonneg_right he1 hu
    linarith
  have hvmax : scaled A t t.lowOffset x < bins - 1 / 2 := by
    rcases eq_or_lt_of_le hu with h | h
    · rw [← h] at hvu; linarith
    · linarith
  have hq : 8 * u * ((bins : ℚ) - 1) ≤ 8 * u * bins := by linarith
  have hE : eval A t x = lowAt t (trunc (scaled A t t.lowOffset x)) := rfl
  have hER : evalRound A t x = lowAt t (llround (scaled A t t.lowOffset x)) := rfl
  rw [hE, hER, hpos]
  generalize scaled A t t.lowOffset x = v at *
  obtain ⟨t1, t2, t3⟩ := trunc_nonneg v hv0
  have tb : trunc v < bins := by
    have : (trunc v : ℚ) < bins := by linarith
    exact_mod_cast this
  have hr := abs_le.mp (llround_bound v)
  have lb : llround v < bins := by
    have : (llround v : ℚ) < bins := by linarith
    exact_mod_cast this
  have l0 : 0 ≤ llround v := by
    have : (-1 : ℚ) < llround v := by linarith
    have : (-1 : Int) < llround v := by exact_mod_cast this
    omega
  generalize trunc v = i at *
  generalize llround v = j at *
  obtain ⟨i, rfl⟩ := Int.eq_ofNat_of_zero_le t3
  obtain ⟨j, rfl⟩ := Int.eq_ofNat_of_zero_le l0
  have low : ∀ k : Nat, k < bins → lowAt t (k : Int) = t.data[safety + k]? ∧
      (lowAt t (k : Int)).isSome = true := by
    intro k hk
    have e1 : lowAt t (k : Int) = t.data[safety + k]? := by
      unfold lowAt
      dsimp only
      rw [if_pos (by omega), hts, show ((safety : Int) + k).toNat = safety + k by omega]
    refine ⟨e1, ?_⟩
    rw [e1, List.getElem?_eq_getElem (by omega)]
    rfl
  have hi' : i < bins := by exact_mod_cast tb
  have hj' : j < bins := by exact_mod_cast lb
  simp only [Int.cast_natCast] at t1 t2 hr
  refine ⟨i, j, hi', hj', (low i hi').1, (low i hi').2, (low j hj').1, (low j hj').2, ?_, ?_⟩
  · rw [abs_le]; constructor <;> linarith
  · rw [abs_le]; constructor <;> linarith

/-- rounding to `double` has relative error at most 2^-53 -/
theorem double_relErr : RelErr (1 / 2 ^ 53) double := by
  intro x
  unfold double
  split
  · rename_i h; rw [h]; simp
  · rename_i hx
    dsimp only
    have hpos : 0 < |x| := abs_pos.mpr hx
    have hle := ilog_le |x| hpos
    generalize ilog |x| = e at *
    have h2 : (0 : ℚ) < 2 ^ (e - 52) := zpow_pos (by norm_num) _
    have hxe : x = x * (2 : ℚ) ^ (52 - e) * (2 : ℚ) ^ (e - 52) := by
      rw [mul_assoc, ← zpow_add₀ (by norm_num)]
      simp
    have hr := roundEven_bound (x * (2 : ℚ) ^ (52 - e))
    have : (roundEven (x * (2 : ℚ) ^ (52 - e)) : ℚ) * (2 : ℚ) ^ (e - 52) - x =
        ((roundEven (x * (2 : ℚ) ^ (52 - e)) : ℚ) - x * (2 : ℚ) ^ (52 - e)) * (2 : ℚ) ^ (e - 52) := by
      rw [sub_mul, ← hxe]
    rw [this, abs_mul, abs_of_pos h2]
    have h3 : (2 : ℚ) ^ (e - 52) = 2 ^ e / 2 ^ 52 := by
      rw [zpow_sub₀ (by norm_num)]; rfl
    calc _ ≤ 1 / 2 * (2 : ℚ) ^ (e - 52) := mul_le_mul_of_nonneg_right hr h2.le
      _ = 1 / 2 ^ 53 * 2 ^ e := by rw [h3]; ring
      _ ≤ 1 / 2 ^ 53 * |x| := mul_le_mul_of_nonneg_left hle (by norm_num)

/-- C53: in IEEE double arithmetic, tables of up to 2^49 bins are never left by lookups from
the domain. -/
theorem eval_ieee (bins safety : Nat) (hb : 2 ≤ bins) (hmax : bins ≤ 2 ^ 49) (lo hi : ℚ)
    (f : ℚ → Ty) (t : Table Ty) (ht : init Arith.ieee bins safety lo hi f = some t) (x : ℚ)
    (h0 : min lo hi ≤ x) (h1 : x ≤ max lo hi) :
    ∃ i j : Nat, i < bins ∧ j < bins ∧
      eval Arith.ieee t x = t.data[safety + i]? ∧ (eval Arith.ieee t x).isSome = true ∧
      evalRound Arith.ieee t x = t.data[safety + j]? ∧ (evalRound Arith.ieee t x).isSome = true ∧
      |(x - min lo hi) / spacing bins lo hi - i| ≤ 3 / 2 ∧
      |(x - min lo hi) / spacing bins lo hi - j| ≤ 1 := by
  have hm : (bins : ℚ) ≤ 2 ^ 49 := by exact_mod_cast hmax
  obtain ⟨i, j, a, b, c, d, e, g, h, k⟩ := eval_rounded Arith.ieee (1 / 2 ^ 53) (by norm_num)
    double_relErr double_relErr bins safety hb (by linarith) lo hi f t ht x h0 h1
  refine ⟨i, j, a, b, c, d, e, g, ?_, ?_⟩ <;> linarith

example : (init Arith.ieee 5 1 0 1 (fun x => x)).map (fun t => (t.data.length,
    (eval Arith.ieee t (9 / 10)), evalRound Arith.ieee t (9 / 10))) =
    some (7, some (3 / 4), some 1) := by decide +kernel

/-- C53 (finding): in IEEE arithmetic the scaled upper end of the domain can round below the
last index; `eval` then uses the sample before. -/
theorem eval_ieee_refuted :
    ¬ ∀ (bins safety : Nat) (lo hi : ℚ) (t : Table ℚ), 2 ≤ bins →
      init Arith.ieee bins safety lo hi (fun x => x) = some t → eval Arith.ieee t (max lo hi) =
        some (max lo hi) := by
  intro h
  have h2 : ((init Arith.ieee 2 0 0 49 (fun x => x)).map
      (fun t => eval Arith.ieee t (max 0 49))) = some (some 0) := by decide +kernel
  cases hi : init Arith.ieee 2 0 0 49 (fun x => x) with
  | none => rw [hi] at h2; cases h2
  | some t =>
    rw [hi] at h2
    simp only [Option.map_some, Option.some.injEq] at h2
    have h1 := h 2 0 0 49 t (by decide) hi
    rw [h2] at h1
    revert h1
    decide +kernel

/-- a table can be built for every domain whose ends differ, in either order -/
theorem init_accepts (A : Arith) (bins safety : Nat) (lo hi : ℚ) (f : ℚ → Ty) :
    (∃ t, init A bins safety lo hi f = some t) ↔ lo ≠ hi := by
  unfold init
  by_cases h : lo = hi <;> simp [h]

end Litiv.Lut
