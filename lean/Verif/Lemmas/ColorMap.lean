import Verif.Lemmas.Color
import Mathlib.Data.List.Nodup
import Mathlib.Data.List.Perm.Subperm

namespace Litiv.Color

/-! ## Distinct colours for distinct angles and divisions -/

theorem round_close (x y : ℚ) (hx : 0 ≤ x ∧ x ≤ 255) (hy : 0 ≤ y ∧ y ≤ 255)
    (h : sat8 (round x) = sat8 (round y)) : |x - y| ≤ 1 := by
  have key : ∀ z : ℚ, 0 ≤ z ∧ z ≤ 255 → sat8 (round z) = ⌊z + 1 / 2⌋ := by
    intro z hz
    have h1 : round z = ⌊z + 1 / 2⌋ := by unfold round; rw [if_pos hz.1]
    have h2 : 0 ≤ ⌊z + 1 / 2⌋ := Int.floor_nonneg.mpr (by linarith)
    have h3 : ⌊z + 1 / 2⌋ < 256 := by
      rw [Int.floor_lt]
      push_cast
      linarith
    rw [h1]
    unfold sat8
    omega
  rw [key x hx, key y hy] at h
  have a1 := Int.floor_le (x + 1 / 2)
  have a2 := Int.lt_floor_add_one (x + 1 / 2)
  have b1 := Int.floor_le (y + 1 / 2)
  have b2 := Int.lt_floor_add_one (y + 1 / 2)
  rw [h] at a1 a2
  rw [abs_le]
  constructor <;> linarith

/-- sixty times the hue profile, at whole degrees shifted by 120 -/
def N (x : Nat) : Nat :=
  if x < 120 then 0 else if x < 180 then x - 120 else if x < 300 then 60
  else if x < 360 then 360 - x else if x < 480 then 0 else if x < 540 then x - 480 else 60

theorem T_N (x : Nat) (hx : x ≤ 600) : T ((x : ℚ) / 360 + -(1 / 3)) = (N x : ℚ) / 60 := by
  have hx' : (x : ℚ) ≤ 600 := by exact_mod_cast hx
  have h0 : (0 : ℚ) ≤ x := Nat.cast_nonneg x
  have c : ∀ k : Nat, x < k → (x : ℚ) < k := fun k h => by exact_mod_cast h
  have c' : ∀ k : Nat, ¬ x < k → (k : ℚ) ≤ x := fun k h => by exact_mod_cast (not_lt.mp h)
  unfold N
  split_ifs with h1 h2 h3 h4 h5 h6
  · have := c _ h1
    push_cast at this ⊢
    rcases T_pieces (x / 360 + -(1 / 3)) (by linarith) (by linarith) with h | h | h | h | h | h | h <;>
    (obtain ⟨_, h⟩ := h; try obtain ⟨_, h⟩ := h) <;> rw [h] <;> linarith
  · have e1 := c _ h2
    have e2 := c' _ h1
    rw [Nat.cast_sub (by omega)]
    push_cast at e1 e2 ⊢
    rcases T_pieces (x / 360 + -(1 / 3)) (by linarith) (by linarith) with h | h | h | h | h | h | h <;>
    (obtain ⟨_, h⟩ := h; try obtain ⟨_, h⟩ := h) <;> rw [h] <;> linarith
  · have e1 := c _ h3
    have e2 := c' _ h2
    push_cast at e1 e2 ⊢
    rcases T_pieces (x / 360 + -(1 / 3)) (by linarith) (by linarith) with h | h | h | h | h | h | h <;>
    (obtain ⟨_, h⟩ := h; try obtain ⟨_, h⟩ := h) <;> rw [h] <;> linarith
  · have e1 := c _ h4
    have e2 := c' _ h3
    rw [Nat.cast_sub (by omega)]
    push_cast at e1 e2 ⊢
    rcases T_pieces (x / 360 + -(1 / 3)) (by linarith) (by linarith) with h | h | h | h | h | h | h <;>
    (obtain ⟨_, h⟩ := h; try obtain ⟨_, h⟩ := h) <;> rw [h] <;> linarith
  · have e1 := c _ h5
    have e2 := c' _ h4
    push_cast at e1 e2 ⊢
    rcases T_pieces (x / 360 + -(1 / 3)) (by linarith) (by linarith) with h | h | h | h | h | h | h <;>
    (obtain ⟨_, h⟩ := h; try obtain ⟨_, h⟩ := h) <;> rw [h] <;> linarith
  · have e1 := c _ h6
    have e2 := c' _ h5
    rw [Nat.cast_sub (by omega)]
    push_cast at e1 e2 ⊢
    rcases T_pieces (x / 360 + -(1 / 3)) (by linarith) (by linarith) with h | h | h | h | h | h | h <;>
    (obtain ⟨_, h⟩ := h; try obtain ⟨_, h⟩ := h) <;> rw [h] <;> linarith
  · have e2 := c' _ h6
    push_cast at e2 ⊢
    rcases T_pieces (x / 360 + -(1 / 3)) (by linarith) (by linarith) with h | h | h | h | h | h | h <;>
    (obtain ⟨_, h⟩ := h; try obtain ⟨_, h⟩ := h) <;> rw [h] <;> linarith

/-- the angle from its three profile values -/
def decode (b g r : Nat) : Nat :=
  if r = 60 ∧ b = 0 then g else if g = 60 ∧ b = 0 then 120 - r
  else if g = 60 ∧ r = 0 then 120 + b else if b = 60 ∧ r = 0 then 240 - g
  else if b = 60 ∧ g = 0 then 240 + r else 360 - b

theorem decode_N : ∀ a < 360, decode (N a) (N (a + 120)) (N (a + 240)) = a := by decide +kernel

theorem N_max : ∀ a < 360, N a = 60 ∨ N (a + 120) = 60 ∨ N (a + 240) = 60 := by decide +kernel

theorem N_min : ∀ a < 360, N a = 0 ∨ N (a + 120) = 0 ∨ N (a + 240) = 0 := by decide +kernel

theorem N_le (x : Nat) : N x ≤ 60 := by
  unfold N
  split_ifs <;> omega

theorem light_range : ∀ d < 10, 1 / 4 ≤ light d ∧ light d ≤ 3 / 4 := by decide +kernel

theorem light_apart : ∀ d < 10, ∀ d' < 10, d ≠ d' → 1 / 255 < |light d - light d'| := by
  decide +kernel

theorem comp_N (a k : Nat) (ha : a < 360) (hk : k ≤ 2) (l : ℚ) :
    comp a 1 l (-(1 / 3) + (k : ℚ) / 3) = l + min l (1 - l) * (2 * ((N (a + 120 * k) : ℚ) / 60) - 1) := by
  unfold comp
  rw [one_mul, ← T_N _ (by omega)]
  congr 4
  push_cast
  ring

/-- colours of whole angles in different divisions or at different angles differ -/
theorem color_inj (d d' a a' : Nat) (hd : d < 10) (hd' : d' < 10) (ha : a < 360) (ha' : a' < 360)
    (h : toBGR a 1 (light d) = toBGR a' 1 (light d')) : d = d' ∧ a = a' := by
  have mrange : ∀ d < 10, 1 / 4 ≤ min (light d) (1 - light d) ∧
      0 ≤ light d - min (light d) (1 - light d) ∧ light d + min (light d) (1 - light d) ≤ 1 := by
    intro d hd
    have := light_range d hd
    refine ⟨le_min this.1 (by linarith), ?_, ?_⟩
    · have := min_le_left (light d) (1 - light d)
      linarith
    · have := min_le_right (light d) (1 - light d)
      linarith
  have crange : ∀ d < 10, ∀ a : Nat, a < 360 → ∀ k : Nat, k ≤ 2 → 0 ≤ comp a 1 (light d) (-(1 / 3) + (k : ℚ) / 3) * 255 ∧
      comp a 1 (light d) (-(1 / 3) + (k : ℚ) / 3) * 255 ≤ 255 := by
    intro d hd a ha k hk
    rw [comp_N a k ha hk]
    obtain ⟨m1, m2, m3⟩ := mrange d hd
    have hN : ((N (a + 120 * k) : Nat) : ℚ) ≤ 60 := by exact_mod_cast N_le _
    have hN0 : (0 : ℚ) ≤ (N (a + 120 * k) : ℚ) := Nat.cast_nonneg _
    generalize ((N (a + 120 * k) : Nat) : ℚ) = x at *
    generalize min (light d) (1 - light d) = m at *
    have t1 : m * (2 * (x / 60) - 1) ≤ m * 1 := mul_le_mul_of_nonneg_left (by linarith) (by linarith)
    have t2 : m * (-1) ≤ m * (2 * (x / 60) - 1) := mul_le_mul_of_nonneg_left (by linarith) (by linarith)
    constructor <;> linarith
  have close : ∀ k : Nat, k ≤ 2 → |comp a 1 (light d) (-(1 / 3) + (k : ℚ) / 3) -
      comp a' 1 (light d') (-(1 / 3) + (k : ℚ) / 3)| ≤ 1 / 255 := by
    have h' := h
    rw [toBGR_comp, toBGR_comp] at h'
    simp only [Prod.mk.injEq] at h'
    intro k hk
    have hh : sat8 (round (comp a 1 (light d) (-(1 / 3) + (k : ℚ) / 3) * 255)) =
        sat8 (round (comp a' 1 (light d') (-(1 / 3) + (k : ℚ) / 3) * 255)) := by
      rcases (show k = 0 ∨ k = 1 ∨ k = 2 by omega) with rfl | rfl | rfl
      · have : (-(1 / 3) + ((0 : Nat) : ℚ) / 3) = -(1 / 3) := by norm_num
        rw [this]; exact h'.1
      · have : (-(1 / 3) + ((1 : Nat) : ℚ) / 3) = 0 := by norm_num
        rw [this]; exact h'.2.1
      · have : (-(1 / 3) + ((2 : Nat) : ℚ) / 3) = 1 / 3 := by norm_num
        rw [this]; exact h'.2.2
    have := round_close _ _ (crange d hd a ha k hk) (crange d' hd' a' ha' k hk) hh
    rw [abs_le] at this ⊢
    constructor <;> linarith [this.1, this.2]
  have bnd : ∀ d < 10, ∀ x, light d - min (light d) (1 - light d) ≤
        light d + min (light d) (1 - light d) * (2 * ((N x : ℚ) / 60) - 1) ∧
      light d + min (light d) (1 - light d) * (2 * ((N x : ℚ) / 60) - 1) ≤
        light d + min (light d) (1 - light d) := by
    intro d hd x
    obtain ⟨m1, -, -⟩ := mrange d hd
    have hN : ((N x : Nat) : ℚ) ≤ 60 := by exact_mod_cast N_le _
    have hN0 : (0 : ℚ) ≤ (N x : ℚ) := Nat.cast_nonneg _
    generalize ((N x : Nat) : ℚ) = y at *
    generalize min (light d) (1 - light d) = m at *
    have t1 : m * (2 * (y / 60) - 1) ≤ m * 1 := mul_le_mul_of_nonneg_left (by linarith) (by linarith)
    have t2 : m * (-1) ≤ m * (2 * (y / 60) - 1) := mul_le_mul_of_nonneg_left (by linarith) (by linarith)
    constructor <;> linarith
  -- extreme channels
  have ext : ∀ d < 10, ∀ a : Nat, a < 360 → (∃ k : Nat, k ≤ 2 ∧ comp a 1 (light d) (-(1 / 3) + (k : ℚ) / 3) =
        light d + min (light d) (1 - light d)) ∧
      (∃ k : Nat, k ≤ 2 ∧ comp a 1 (light d) (-(1 / 3) + (k : ℚ) / 3) =
        light d - min (light d) (1 - light d)) := by
    intro d hd a ha
    constructor
    · rcases N_max a ha with h | h | h
      · exact ⟨0, by omega, by rw [comp_N a 0 ha (by omega), mul_zero, add_zero, h]; push_cast; ring⟩
      · exact ⟨1, by omega, by rw [comp_N a 1 ha (by omega), mul_one, h]; push_cast; ring⟩
      · exact ⟨2, by omega, by rw [comp_N a 2 ha (by omega), h]; push_cast; ring⟩
    · rcases N_min a ha with h | h | h
      · exact ⟨0, by omega, by rw [comp_N a 0 ha (by omega), mul_zero, add_zero, h]; push_cast; ring⟩
      · exact ⟨1, by omega, by rw [comp_N a 1 ha (by omega), mul_one, h]; push_cast; ring⟩
      · exact ⟨2, by omega, by rw [comp_N a 2 ha (by omega), h]; push_cast; ring⟩
  have hl : |light d - light d'| ≤ 1 / 255 := by
    obtain ⟨⟨k1, hk1, e1⟩, ⟨k2, hk2, e2⟩⟩ := ext d hd a ha
    obtain ⟨⟨k3, hk3, e3⟩, ⟨k4, hk4, e4⟩⟩ := ext d' hd' a' ha'
    have c1 := close k1 hk1
    have c2 := close k2 hk2
    have c3 := close k3 hk3
    have c4 := close k4 hk4
    rw [abs_le] at c1 c2 c3 c4 ⊢
    rw [e1, comp_N a' k1 ha' hk1] at c1
    rw [e2, comp_N a' k2 ha' hk2] at c2
    rw [e3, comp_N a k3 ha hk3] at c3
    rw [e4, comp_N a k4 ha hk4] at c4
    have b1 := (bnd d' hd' (a' + 120 * k1)).2
    have b2 := (bnd d' hd' (a' + 120 * k2)).1
    have b3 := (bnd d hd (a + 120 * k3)).2
    have b4 := (bnd d hd (a + 120 * k4)).1
    constructor <;> linarith [c1.1, c1.2, c2.1, c2.2, c3.1, c3.2, c4.1, c4.2]
  have hdd : d = d' := by
    by_contra hne
    have := light_apart d hd d' hd' hne
    linarith
  refine ⟨hdd, ?_⟩
  subst hdd
  have hN : ∀ k : Nat, k ≤ 2 → N (a + 120 * k) = N (a' + 120 * k) := by
    intro k hk
    have c := close k hk
    rw [comp_N a k ha hk, comp_N a' k ha' hk] at c
    obtain ⟨m1, -, -⟩ := mrange d hd
    generalize min (light d) (1 - light d) = m at *
    by_contra hne
    have hge : (1 : ℚ) ≤ |((N (a + 120 * k) : Nat) : ℚ) - ((N (a' + 120 * k) : Nat) : ℚ)| := by
      have : (1 : Int) ≤ |((N (a + 120 * k) : Nat) : Int) - ((N (a' + 120 * k) : Nat) : Int)| := by
        rcases Nat.lt_or_ge (N (a + 120 * k)) (N (a' + 120 * k)) with q | q
        · rw [abs_of_nonpos (by omega)]; omega
        · rw [abs_of_nonneg (by omega)]; omega
      exact_mod_cast this
    generalize ((N (a + 120 * k) : Nat) : ℚ) = x at *
    generalize ((N (a' + 120 * k) : Nat) : ℚ) = y at *
    rw [show light d + m * (2 * (x / 60) - 1) - (light d + m * (2 * (y / 60) - 1)) =
      m / 30 * (x - y) by ring, abs_mul, abs_of_nonneg (by linarith)] at c
    have : m / 30 * 1 ≤ m / 30 * |x - y| := mul_le_mul_of_nonneg_left hge (by linarith)
    linarith
  rw [← decode_N a ha, ← decode_N a' ha']
  have h0 := hN 0 (by omega)
  have h1 := hN 1 (by omega)
  have h2 := hN 2 (by omega)
  simp only [mul_zero, add_zero, mul_one] at h0 h1
  rw [h0, h1, h2]

/-! ## The palette -/

theorem freeAngle_spec (used : List Nat) (hu : ∀ x ∈ used, x < 360) (hlen : used.length < 360)
    (hnd : used.Nodup) (a : Nat) (ha : a < 360) :
    freeAngle used 361 a ∉ used ∧ freeAngle used 361 a < 360 := by
  -- if all candidates up to `n` are used then `n` does not exceed the number of used angles
  have step : ∀ n fuel a, a < 360 → (∀ i < n, (a + i) % 360 ∈ used) → n ≤ fuel →
      freeAngle used fuel a = freeAngle used (fuel - n) ((a + n) % 360) := by
    intro n
    induction n with
    | zero => intro fuel a ha _ _; simp [Nat.mod_eq_of_lt ha]
    | succ n ih =>
      intro fuel a ha h hf
      obtain ⟨f, rfl⟩ : ∃ f, fuel = f + 1 := ⟨fuel - 1, by omega⟩
      have h0 := h 0 (by omega)
      rw [Nat.add_zero, Nat.mod_eq_of_lt ha] at h0
      rw [freeAngle, if_pos h0, ih f _ (Nat.mod_lt _ (by omega)) (fun i hi => by
        have := h (i + 1) (by omega)
        rw [Nat.mod_add_mod, show a + 1 + i = a + (i + 1) by omega]
        exact this) (by omega)]
      congr 1
      · omega
      · omega
  have hex : ∃ n, n < 360 ∧ (a + n) % 360 ∉ used := by
    by_contra hc
    push Not at hc
    have hsub : (List.range 360).map (fun i => (a + i) % 360) ⊆ used := by
      intro x hx
      obtain ⟨i, hi, rfl⟩ := List.mem_map.mp hx
      exact hc i (List.mem_range.mp hi)
    have hnd2 : ((List.range 360).map (fun i => (a + i) % 360)).Nodup := by
      rw [List.nodup_map_iff_inj_on List.nodup_range]
      intro x hx y hy h
      rw [List.mem_range] at hx hy
      omega
    have := (List.subperm_of_subset hnd2 hsub).length_le
    simp at this
    omega
  obtain ⟨n, hn, hmem⟩ := hex
  -- the first such candidate
  have hfirst : ∃ n, n < 360 ∧ (a + n) % 360 ∉ used ∧ ∀ i < n, (a + i) % 360 ∈ used := by
    have hP : ∃ n, (a + n) % 360 ∉ used := ⟨n, hmem⟩
    classical
    refine ⟨Nat.find hP, lt_of_le_of_lt (Nat.find_min' hP hmem) hn, Nat.find_spec hP, ?_⟩
    intro i hi
    by_contra hc
    exact Nat.find_min hP hi hc
  obtain ⟨n, hn, hmem, hall⟩ := hfirst
  rw [step n 361 a ha hall (by omega)]
  obtain ⟨f, hf⟩ : ∃ f, 361 - n = f + 1 := ⟨360 - n, by omega⟩
  rw [hf, freeAngle, if_neg hmem]
  exact ⟨hmem, Nat.mod_lt _ (by omega)⟩

theorem angles_spec (total : Nat) : ∀ count a used, (∀ x ∈ used, x < 360) → used.Nodup → a < 360 →
    used.length + count ≤ 360 →
    (∀ x ∈ angles total count a used, x < 360) ∧ (angles total count a used).Nodup ∧
    (angles total count a used).length = used.length + count := by
  intro count
  induction count with
  | zero => intro a used h1 h2 _ _; exact ⟨h1, h2, rfl⟩
  | succ count ih =>
    intro a used h1 h2 ha hlen
    obtain ⟨f1, f2⟩ := freeAngle_spec used h1 (by omega) h2 a ha
    have hnd : (used ++ [freeAngle used 361 a]).Nodup := by
      rw [List.nodup_append]
      refine ⟨h2, List.nodup_singleton _, ?_⟩
      intro x hx y hy
      rw [List.mem_singleton] at hy
      rintro rfl
      exact f1 (hy ▸ hx)
    have hlt : ∀ x ∈ used ++ [freeAngle used 361 a], x < 360 := by
      intro x hx
      rcases List.mem_append.mp hx with hx | hx
      · exact h1 x hx
      · rw [List.mem_singleton] at hx; omega
    have := ih ((freeAngle used 361 a + 360 / total) % 360) (used ++ [freeAngle used 361 a]) hlt hnd
      (Nat.mod_lt _ (by omega)) (by simp; omega)
    rw [angles]
    refine ⟨this.1, this.2.1, ?_⟩
    rw [this.2.2]
    simp
    omega

/-- the colours of all divisions from `div` on are distinct, and come from those divisions -/
theorem palette_spec (n : Nat) (hn : n < 720) (start : Nat → Nat) :
    ∀ left div idx, div + left ≤ 10 →
    (palette n start left div idx).Nodup ∧
    ∀ c ∈ palette n start left div idx, ∃ d a, div ≤ d ∧ d < div + left ∧ a < 360 ∧
      c = toBGR (a : Nat) 1 (light d) := by
  intro left
  induction left with
  | zero => intro div idx _; exact ⟨List.nodup_nil, by intro c hc; cases hc⟩
  | succ left ih =>
    intro div idx hl
    rw [palette]
    split
    · have hk : sampleCount n div idx ≤ 360 := by
        unfold sampleCount
        have h1 : n / 2 ^ (div + 1) ≤ n / 2 := Nat.div_le_div_left (by
          calc 2 = 2 ^ 1 := rfl
            _ ≤ 2 ^ (div + 1) := Nat.pow_le_pow_right (by omega) (by omega)) (by omega)
        omega
      obtain ⟨a1, a2, -⟩ := angles_spec (sampleCount n div idx) (sampleCount n div idx) (start div % 45) []
        (by intro x hx; cases hx) List.nodup_nil (by omega) (by simpa using hk)
      obtain ⟨i1, i2⟩ := ih (div + 1) (idx + sampleCount n div idx) (by omega)
      dsimp only
      constructor
      · rw [List.nodup_append]
        refine ⟨?_, i1, ?_⟩
        · rw [List.nodup_map_iff_inj_on a2]
          intro x hx y hy h
          exact (color_inj div div x y (by omega) (by omega) (a1 x hx) (a1 y hy) h).2
        · intro x hx y hy
          rintro rfl
          obtain ⟨a, ha, rfl⟩ := List.mem_map.mp hx
          obtain ⟨d, a', hd1, hd2, ha', he⟩ := i2 _ hy
          have := (color_inj div d a a' (by omega) (by omega) (a1 a ha) ha' he).1
          omega
      · intro c hc
        rcases List.mem_append.mp hc with hc | hc
        · obtain ⟨a, ha, rfl⟩ := List.mem_map.mp hc
          exact ⟨div, a, le_refl _, by omega, a1 a ha, rfl⟩
        · obtain ⟨d, a, h1, h2, h3, h4⟩ := i2 c hc
          exact ⟨d, a, by omega, by omega, h3, h4⟩
    · exact ⟨List.nodup_nil, by intro c hc; cases hc⟩

/-- number of colours written -/
def filled (n : Nat) : Nat → Nat → Nat → Nat
  | 0, _, idx => idx
  | left + 1, div, idx => if idx < n then filled n left (div + 1) (idx + sampleCount n div idx) else idx

theorem palette_length (n : Nat) (hn : n < 720) (start : Nat → Nat) :
    ∀ left div idx, idx + (palette n start left div idx).length = filled n left div idx := by
  intro left
  induction left with
  | zero => intro div idx; rfl
  | succ left ih =>
    intro div idx
    rw [palette, filled]
    split
    · have hk : sampleCount n div idx ≤ 360 := by
        unfold sampleCount
        have h1 : n / 2 ^ (div + 1) ≤ n / 2 := Nat.div_le_div_left (by
          calc 2 = 2 ^ 1 := rfl
            _ ≤ 2 ^ (div + 1) := Nat.pow_le_pow_right (by omega) (by omega)) (by omega)
        omega
      obtain ⟨-, -, a3⟩ := angles_spec (sampleCount n div idx) (sampleCount n div idx) (start div % 45) []
        (by intro x hx; cases hx) List.nodup_nil (by omega) (by simpa using hk)
      dsimp only
      rw [← ih, List.length_append, List.length_map, a3]
      simp
      omega
    · rfl

theorem filled_all : ∀ n < 720, 2 ≤ n → filled n (Nat.clog 2 n) 0 0 = n := by decide +kernel

end Litiv.Color
