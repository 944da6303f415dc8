import Verif.Props.SC

/-!
# Shape contexts: descriptors with the lookup mask (C106), dense maps and the history of an extractor (C109)
-/

namespace Litiv.SC

open Classical

/-! ## C106: the lookup mask -/

/-- Used cells of Lienhart's mask. -/
theorem mask_cell_iff (n R A : Nat) (off : ℝ) (m : LSS.Mask) (h : LSS.getLogPolarMask n R A true off = some m) (r c : Nat) (hr : r < n) (hc : c < n) :
    m.cell (r * n + c) ≠ -1 ↔ ¬ (r = n / 2 ∧ c = n / 2) ∧
      ∃ b < R, LSS.Spec.hyp (((n / 2 : Nat) : Int) - r) (((n / 2 : Nat) : Int) - c) ≤ LSS.Spec.ring (n / 2 : Nat) R off b := by
  unfold LSS.getLogPolarMask at h
  split at h
  swap
  · cases h
  rename_i hcond
  obtain ⟨_, hn, hR, hA, _, _⟩ := hcond
  simp only [if_true] at h
  injection h with h
  subst h
  have hpos : 0 < n := by omega
  have hk : r * n + c < n * n := by
    have : (r + 1) * n ≤ n * n := Nat.mul_le_mul_right n hr
    have e : (r + 1) * n = r * n + n := by ring
    omega
  have e1 : (r * n + c) / n = r := by rw [mul_comm, Nat.mul_add_div hpos, Nat.div_eq_of_lt hc, add_zero]
  have e2 : (r * n + c) % n = c := by rw [mul_comm, Nat.mul_add_mod, Nat.mod_eq_of_lt hc]
  have hctr : (n - 1) / 2 = n / 2 := by omega
  rw [(LSS.scan_spec _ _).1, if_pos hk, e1, e2]
  have hrings : (LSS.ringDists n R off).length = R := by simp [LSS.ringDists]
  have hring : ∀ (k : Nat) (hk : k < (LSS.ringDists n R off).length), (LSS.ringDists n R off)[k] = LSS.Spec.ring (n / 2 : Nat) R off k := by
    intro k hk
    have hget : (LSS.ringDists n R off)[k] = (((R : ℝ) ^ (1 / (R : ℝ))) ^ (k + 1) - 1) / ((R : ℝ) - 1) * (((n - 1) / 2 : Nat) : ℝ) +
        if k = R - 1 then 0 else off := by simp [LSS.ringDists]
    rw [hget, hctr]
    unfold LSS.Spec.ring
    have hR' : (0 : ℝ) ≤ R := by positivity
    rw [← Real.rpow_natCast, ← Real.rpow_mul hR', one_div_mul_eq_div]
    have : k = R - 1 ↔ k + 1 = R := by omega
    simp only [this]
  unfold LSS.lienhartCell
  dsimp only
  rw [hctr]
  by_cases hcen : r = n / 2 ∧ c = n / 2
  · rw [if_pos hcen]
    simp [hcen]
  · rw [if_neg hcen, LSS.dist_hyp]
    generalize LSS.Spec.hyp (((n / 2 : Nat) : Int) - r) (((n / 2 : Nat) : Int) - c) = d
    have hidx : (LSS.ringDists n R off).findIdx (fun (x : ℝ) => decide (d ≤ x)) < R ↔ ∃ b < R, d ≤ LSS.Spec.ring (n / 2 : Nat) R off b := by
      constructor
      · intro hlt
        have := List.findIdx_getElem (xs := LSS.ringDists n R off) (p := fun (x : ℝ) => decide (d ≤ x)) (w := by rw [hrings]; exact hlt)
        rw [decide_eq_true_eq, hring] at this
        exact ⟨_, hlt, this⟩
      · rintro ⟨b, hb, hle⟩
        have := List.findIdx_lt_length (xs := LSS.ringDists n R off) (p := fun (x : ℝ) => decide (d ≤ x))
        rw [hrings] at this
        rw [this]
        have hb' : b < (LSS.ringDists n R off).length := by rw [hrings]; exact hb
        exact ⟨(LSS.ringDists n R off)[b], List.getElem_mem hb', by rw [hring]; simpa using hle⟩
    by_cases hb : (LSS.ringDists n R off).findIdx (fun (x : ℝ) => decide (d ≤ x)) < R
    · rw [if_pos hb]
      simp only [Option.getD_some]
      constructor
      · intro _; exact ⟨hcen, hidx.1 hb⟩
      · intro _; omega
    · rw [if_neg hb]
      simp only [Option.getD_none, ne_eq, not_true_eq_false, false_iff]
      rintro ⟨_, h⟩
      exact hb (hidx.2 h)

/-- The bin of a contour point seen from a key point, both at pixels. -/
theorem binOf_direct (c : Cfg) (hv : c.Valid) (habs : c.relative = false ∧ c.rot = false) (outer : Nat) (keys contour : List ℂ) (ky kx py px : Int) :
    ∃ m, LSS.getLogPolarMask (outer * 2 + 1) c.R c.A true c.inner = some m ∧
      binOf c outer keys contour ⟨kx, ky⟩ ⟨px, py⟩ =
        if |py - ky| ≤ outer ∧ |px - kx| ≤ outer then
          (if m.cell ((py - ky + outer).toNat * (outer * 2 + 1) + (px - kx + outer).toNat) = -1 then none
            else some (m.cell ((py - ky + outer).toNat * (outer * 2 + 1) + (px - kx + outer).toNat)).toNat)
        else none := by
  obtain ⟨m, hm⟩ := LSS.mask_defined (outer * 2 + 1) c.R c.A true c.inner (by omega) hv.rad hv.ang hv.inner.le (Or.inl rfl)
  refine ⟨m, hm, ?_⟩
  unfold binOf
  rw [if_pos (by simp [habs.1, habs.2]), hm]
  unfold lookBin
  have e1 : cround ((py : ℝ) - (ky : ℝ)) = py - ky := by rw [← Int.cast_sub]; exact cround_int _
  have e2 : cround ((px : ℝ) - (kx : ℝ)) = px - kx := by rw [← Int.cast_sub]; exact cround_int _
  dsimp only [Option.bind_some]
  rw [e1, e2]
  by_cases h : |py - ky| ≤ outer ∧ |px - kx| ≤ outer
  · rw [if_pos h]
    obtain ⟨h1, h2⟩ := h
    rw [abs_le] at h1 h2
    have ei : ((py - ky + outer) * (2 * (outer : Int) + 1) + (px - kx + outer)).toNat = (py - ky + outer).toNat * (outer * 2 + 1) + (px - kx + outer).toNat := by
      have h3 : 0 ≤ py - ky + outer := by omega
      have h4 : 0 ≤ px - kx + outer := by omega
      have : ((py - ky + outer) * (2 * (outer : Int) + 1) + (px - kx + outer)) =
          (((py - ky + outer).toNat * (outer * 2 + 1) + (px - kx + outer).toNat : Nat) : Int) := by
        push_cast
        rw [Int.toNat_of_nonneg h3, Int.toNat_of_nonneg h4]
        ring
      rw [this, Int.toNat_natCast]
    rw [ei]
    by_cases hcell : m.cell ((py - ky + outer).toNat * (outer * 2 + 1) + (px - kx + outer).toNat) = -1
    · rw [if_pos hcell, if_pos (by simp [hcell])]
    · rw [if_neg hcell, if_neg]
      rintro (h5 | h5 | h5 | h5 | h5)
      · omega
      · omega
      · omega
      · omega
      · exact hcell h5
  · rw [if_neg h, if_pos]
    rw [not_and_or, abs_le, abs_le] at h
    omega

/-- **C106 (lookup mask, bins).** With absolute distances and angles and points at pixels: a counted contour point is in the sector and in the ring (counted from
the outside) that its bin numbers. -/
theorem direct_bin (c : Cfg) (hv : c.Valid) (habs : c.relative = false ∧ c.rot = false) (outer : Nat) (keys contour : List ℂ) (ky kx py px : Int) (v : Nat)
    (h : binOf c outer keys contour ⟨kx, ky⟩ ⟨px, py⟩ = some v) :
    let angle := Complex.arg ⟨((ky - py : Int) : ℝ), ((kx - px : Int) : ℝ)⟩ + Real.pi
    (v / c.R < c.A ∧ (((v / c.R : Nat) : ℝ) * (2 * Real.pi) / c.A ≤ angle ∧ angle < ((v / c.R : Nat) + 1 : ℝ) * (2 * Real.pi) / c.A ∨
      angle = 2 * Real.pi ∧ v / c.R = 0)) ∧
    LSS.Spec.hyp (ky - py) (kx - px) ≤ LSS.Spec.ring outer c.R c.inner (c.R - 1 - v % c.R) ∧
    ∀ b, b < c.R - 1 - v % c.R → LSS.Spec.ring outer c.R c.inner b < LSS.Spec.hyp (ky - py) (kx - px) := by
  obtain ⟨m, hm, he⟩ := binOf_direct c hv habs outer keys contour ky kx py px
  rw [he] at h
  split at h
  swap
  · cases h
  rename_i hin
  split at h
  · cases h
  rename_i hcell
  injection h with h
  rw [abs_le, abs_le] at hin
  have hr : (py - ky + outer).toNat < outer * 2 + 1 := by omega
  have hc : (px - kx + outer).toNat < outer * 2 + 1 := by omega
  have hlt : (py - ky + outer).toNat * (outer * 2 + 1) + (px - kx + outer).toNat < (outer * 2 + 1) * (outer * 2 + 1) := by
    have : ((py - ky + outer).toNat + 1) * (outer * 2 + 1) ≤ (outer * 2 + 1) * (outer * 2 + 1) := Nat.mul_le_mul_right _ hr
    rw [Nat.add_mul, Nat.one_mul] at this
    omega
  have hp := (LSS.mask_proper _ _ _ _ _ m hm (Or.inl rfl)).bins _ hlt
  have hv' : m.cell ((py - ky + outer).toNat * (outer * 2 + 1) + (px - kx + outer).toNat) = (v : Int) := by
    rcases hp with hp | hp
    · exact absurd hp hcell
    · omega
  have hg := LSS.lienhart_geometry _ _ _ _ m hm _ _ hr hc v hv'
  have eo : (outer * 2 + 1) / 2 = outer := by omega
  have e1 : ((outer : Nat) : Int) - ((py - ky + outer).toNat : Int) = ky - py := by omega
  have e2 : ((outer : Nat) : Int) - ((px - kx + outer).toNat : Int) = kx - px := by omega
  simp only [eo, e1, e2] at hg
  exact hg

theorem ring_last (c : Cfg) (hR : 2 ≤ c.R) (outer : Nat) (off : ℝ) : LSS.Spec.ring outer c.R off (c.R - 1) = outer := by
  unfold LSS.Spec.ring
  have h1 : c.R - 1 + 1 = c.R := by omega
  have h2 : (2 : ℝ) ≤ c.R := by exact_mod_cast hR
  rw [h1, if_pos rfl, div_self (by linarith), Real.rpow_one, div_self (by linarith), one_mul, add_zero]

theorem ring_mono (c : Cfg) (hR : 2 ≤ c.R) (outer : Nat) (off : ℝ) (b : Nat) (hb : b + 1 < c.R) :
    LSS.Spec.ring outer c.R off b ≤ LSS.Spec.ring outer c.R off (c.R - 2) := by
  unfold LSS.Spec.ring
  have h2 : (2 : ℝ) ≤ c.R := by exact_mod_cast hR
  rw [if_neg (by omega), if_neg (by omega)]
  have : ((c.R : ℝ) ^ (((b + 1 : Nat) : ℝ) / (c.R : ℝ))) ≤ (c.R : ℝ) ^ (((c.R - 2 + 1 : Nat) : ℝ) / (c.R : ℝ)) := by
    apply Real.rpow_le_rpow_of_exponent_le (by linarith)
    apply div_le_div_of_nonneg_right _ (by linarith)
    exact_mod_cast (by omega : b + 1 ≤ c.R - 2 + 1)
  have h3 : ((c.R : ℝ) ^ (((b + 1 : Nat) : ℝ) / (c.R : ℝ)) - 1) / ((c.R : ℝ) - 1) ≤ ((c.R : ℝ) ^ (((c.R - 2 + 1 : Nat) : ℝ) / (c.R : ℝ)) - 1) / ((c.R : ℝ) - 1) :=
    div_le_div_of_nonneg_right (by linarith) (by linarith)
  have h4 := mul_le_mul_of_nonneg_right h3 (Nat.cast_nonneg (α := ℝ) outer)
  linarith

theorem hyp_abs (y x : Int) : |(y : ℝ)| ≤ LSS.Spec.hyp y x ∧ |(x : ℝ)| ≤ LSS.Spec.hyp y x := by
  unfold LSS.Spec.hyp
  constructor <;> apply Real.abs_le_sqrt <;> nlinarith [sq_nonneg (y : ℝ), sq_nonneg (x : ℝ)]

/-- **C106 (lookup mask, which points).** With at least two rings, and if the inner radius does not push a ring beyond the outer radius, the contour points that
are counted are those within the outer radius, the key point itself excepted. -/
theorem direct_counted (c : Cfg) (hv : c.Valid) (habs : c.relative = false ∧ c.rot = false) (hR : 2 ≤ c.R) (outer : Nat)
    (hring : LSS.Spec.ring outer c.R c.inner (c.R - 2) ≤ outer) (keys contour : List ℂ) (ky kx py px : Int) :
    (∃ v, binOf c outer keys contour ⟨kx, ky⟩ ⟨px, py⟩ = some v) ↔ (py, px) ≠ (ky, kx) ∧ LSS.Spec.hyp (ky - py) (kx - px) ≤ outer := by
  have hall : ∀ b < c.R, LSS.Spec.ring outer c.R c.inner b ≤ outer := by
    intro b hb
    by_cases hb' : b + 1 < c.R
    · exact le_trans (ring_mono c hR outer c.inner b hb') hring
    · have : b = c.R - 1 := by omega
      rw [this, ring_last c hR]
  obtain ⟨m, hm, he⟩ := binOf_direct c hv habs outer keys contour ky kx py px
  rw [he]
  by_cases hin : |py - ky| ≤ outer ∧ |px - kx| ≤ outer
  · rw [if_pos hin]
    rw [abs_le, abs_le] at hin
    have hr : (py - ky + outer).toNat < outer * 2 + 1 := by omega
    have hc : (px - kx + outer).toNat < outer * 2 + 1 := by omega
    have hi := mask_cell_iff _ _ _ _ m hm _ _ hr hc
    have eo : (outer * 2 + 1) / 2 = outer := by omega
    have e1 : ((outer : Nat) : Int) - ((py - ky + outer).toNat : Int) = ky - py := by clear hi; omega
    have e2 : ((outer : Nat) : Int) - ((px - kx + outer).toNat : Int) = kx - px := by clear hi; omega
    rw [eo, e1, e2] at hi
    have e3 : ((py - ky + outer).toNat = outer ∧ (px - kx + outer).toNat = outer) ↔ (py, px) = (ky, kx) := by
      rw [Prod.mk.injEq]; omega
    rw [e3] at hi
    have e4 : (∃ b < c.R, LSS.Spec.hyp (ky - py) (kx - px) ≤ LSS.Spec.ring outer c.R c.inner b) ↔ LSS.Spec.hyp (ky - py) (kx - px) ≤ outer := by
      constructor
      · rintro ⟨b, hb, h⟩; exact le_trans h (hall b hb)
      · intro h; exact ⟨c.R - 1, by omega, by rw [ring_last c hR]; exact h⟩
    rw [e4] at hi
    rw [← hi]
    by_cases hcell : m.cell ((py - ky + outer).toNat * (outer * 2 + 1) + (px - kx + outer).toNat) = -1
    · simp [hcell]
    · simp [hcell]
  · rw [if_neg hin]
    constructor
    · rintro ⟨v, h⟩; cases h
    · rintro ⟨_, h⟩
      exfalso
      apply hin
      obtain ⟨h1, h2⟩ := hyp_abs (ky - py) (kx - px)
      have h3 := le_trans h1 h
      have h4 := le_trans h2 h
      rw [← Int.cast_abs] at h3 h4
      have h3' : |ky - py| ≤ (outer : Int) := by exact_mod_cast h3
      have h4' : |kx - px| ≤ (outer : Int) := by exact_mod_cast h4
      rw [abs_sub_comm] at h3' h4'
      exact ⟨h3', h4'⟩

/-- **C106 (one ring, refuted).** With absolute distances and angles and a single radial bin, which the constructor accepts, no point is ever counted. -/
theorem direct_one_ring_refuted (c : Cfg) (hv : c.Valid) (habs : c.relative = false ∧ c.rot = false) (hR : c.R = 1) (outer : Nat)
    (keys contour : List ℂ) (ky kx py px : Int) : binOf c outer keys contour ⟨kx, ky⟩ ⟨px, py⟩ = none := by
  obtain ⟨m, hm, he⟩ := binOf_direct c hv habs outer keys contour ky kx py px
  rw [he]
  by_cases hin : |py - ky| ≤ outer ∧ |px - kx| ≤ outer
  · rw [if_pos hin]
    rw [abs_le, abs_le] at hin
    have hr : (py - ky + outer).toNat < outer * 2 + 1 := by omega
    have hc : (px - kx + outer).toNat < outer * 2 + 1 := by omega
    have hi := mask_cell_iff _ _ _ _ m hm _ _ hr hc
    rw [if_pos]
    by_contra hcell
    obtain ⟨h1, b, hb, hle⟩ := hi.1 hcell
    rw [hR] at hb hle
    have hb0 : b = 0 := by omega
    subst hb0
    have h0 : LSS.Spec.ring ((outer * 2 + 1) / 2 : Nat) 1 c.inner 0 = 0 := by
      unfold LSS.Spec.ring; simp
    rw [h0] at hle
    have eo : (outer * 2 + 1) / 2 = outer := by omega
    rw [eo] at hle h1
    obtain ⟨h2, h3⟩ := hyp_abs ((outer : Nat) - ((py - ky + outer).toNat : Int)) ((outer : Nat) - ((px - kx + outer).toNat : Int))
    have h2' := abs_nonpos_iff.1 (le_trans h2 hle)
    have h3' := abs_nonpos_iff.1 (le_trans h3 hle)
    have h2'' : ((outer : Nat) - ((py - ky + outer).toNat : Int)) = 0 := by exact_mod_cast h2'
    have h3'' : ((outer : Nat) - ((px - kx + outer).toNat : Int)) = 0 := by exact_mod_cast h3'
    exact h1 ⟨by omega, by omega⟩
  · rw [if_neg hin]

/-- **C106 (outer radius, refuted).** With two rings, inner radius 9 and outer radius 10, a contour point 8 rows and 8 columns away is counted,
although its distance is larger than 11. -/
theorem direct_outside_refuted (c : Cfg) (habs : c.relative = false ∧ c.rot = false) (hA : 0 < c.A) (hR : c.R = 2) (hi : c.inner = 9) (ho : c.outer = 10)
    (keys contour : List ℂ) : (∃ v, binOf c 10 keys contour ⟨(0 : Int), (0 : Int)⟩ ⟨(8 : Int), (8 : Int)⟩ = some v) ∧ 11 < LSS.Spec.hyp (0 - 8) (0 - 8) := by
  have hv : c.Valid := ⟨hA, by omega, by rw [hi]; norm_num, by rw [hi, ho]; norm_num⟩
  constructor
  · obtain ⟨m, hm, he⟩ := binOf_direct c hv habs 10 keys contour 0 0 8 8
    rw [he, if_pos (by decide)]
    have hcell := (mask_cell_iff _ _ _ _ m hm 18 18 (by decide) (by decide)).2 ⟨by decide, 0, by omega, ?_⟩
    · rw [if_neg (by exact hcell)]
      exact ⟨_, rfl⟩
    · rw [hR, hi]
      unfold LSS.Spec.hyp LSS.Spec.ring
      norm_num
      rw [← Real.sqrt_eq_rpow]
      have h1 : Real.sqrt 128 ≤ 12 := by rw [Real.sqrt_le_left (by norm_num)]; norm_num
      have h2 : (1.4 : ℝ) ≤ Real.sqrt 2 := Real.le_sqrt_of_sq_le (by norm_num)
      linarith
  · unfold LSS.Spec.hyp
    apply Real.lt_sqrt_of_sq_lt
    norm_num

/-- A key point that is skipped has no contour point within the outer radius. -/
theorem skipped_none (c : Cfg) (hv : c.Valid) (habs : c.relative = false ∧ c.rot = false) (hR : 2 ≤ c.R) (outer : Nat)
    (hring : LSS.Spec.ring outer c.R c.inner (c.R - 2) ≤ outer) (kernel : Int → Int → Bool) (hker : ∀ y x, LSS.Spec.hyp y x ≤ outer → kernel y x = true)
    (rows cols : Nat) (img : Int → Int → Bool) (keys contour : List ℂ)
    (hcont : ∀ p ∈ contour, ∃ y x : Int, p = ⟨x, y⟩ ∧ 0 ≤ y ∧ y < rows ∧ 0 ≤ x ∧ x < cols ∧ img y x = true) (y x : Int)
    (hs : skipped c kernel rows cols img y x = true) (p : ℂ) (hp : p ∈ contour) (b : Nat) : binOf c outer keys contour ⟨x, y⟩ p ≠ some b := by
  intro hb
  obtain ⟨py, px, rfl, g1, g2, g3, g4, g5⟩ := hcont p hp
  have hd := ((direct_counted c hv habs hR outer hring keys contour y x py px).1 ⟨b, hb⟩).2
  have hk : kernel (py - y) (px - x) = true := by
    apply hker
    have e : LSS.Spec.hyp (py - y) (px - x) = LSS.Spec.hyp (y - py) (x - px) := by
      unfold LSS.Spec.hyp; congr 1; push_cast; ring
    rw [e]; exact hd
  unfold skipped farFrom at hs
  simp only [habs.1, habs.2, Bool.not_false, Bool.true_and, Bool.not_eq_true', List.any_eq_false, List.mem_range, Bool.not_eq_true,
    Bool.and_eq_false_imp] at hs
  have h5 := hs py.toNat (by omega) px.toNat (by omega)
  rw [Int.toNat_of_nonneg g1, Int.toNat_of_nonneg g3] at h5
  rw [h5 g5] at hk
  cases hk

/-- **C106 (lookup mask, counts).** With absolute distances and angles, no normalization, at least two rings none of which is pushed beyond the outer radius, key
points at pixels of the image, contour points at set pixels of the image, and a structuring element that covers the disc of the outer radius: skipping the
key points far from the shape changes nothing. Each bin holds its initial value plus the number of contour points with this bin (see `direct_bin`), and
the bins add up to the number of contour points within the outer radius, the key point itself excepted. -/
theorem direct_counts (c : Cfg) (hv : c.Valid) (habs : c.relative = false ∧ c.rot = false) (hn : c.normalize = false) (hR : 2 ≤ c.R) (outer : Nat)
    (hring : LSS.Spec.ring outer c.R c.inner (c.R - 2) ≤ outer) (kernel : Int → Int → Bool) (hker : ∀ y x, LSS.Spec.hyp y x ≤ outer → kernel y x = true)
    (rows cols : Nat) (img : Int → Int → Bool) (keys contour : List ℂ)
    (hkeys : ∀ k ∈ keys, ∃ y x : Int, k = ⟨x, y⟩ ∧ 0 ≤ y ∧ y < rows ∧ 0 ≤ x ∧ x < cols)
    (hcont : ∀ p ∈ contour, ∃ y x : Int, p = ⟨x, y⟩ ∧ 0 ≤ y ∧ y < rows ∧ 0 ≤ x ∧ x < cols ∧ img y x = true) :
    ∃ ds, fillList c outer kernel rows cols img keys contour = some ds ∧ ds.length = keys.length ∧
      ∀ (i : Nat) (k : ℂ), keys[i]? = some k → ∃ d, ds[i]? = some d ∧
        (∀ b, d b = Spec.start (c.R * c.A) c.nonzero + Spec.number (fun p => binOf c outer keys contour k p = some b) contour) ∧
        ∑ b ∈ Finset.range (c.R * c.A), d b = (c.R * c.A : Nat) * Spec.start (c.R * c.A) c.nonzero +
          Spec.number (fun p => p ≠ k ∧ ‖p - k‖ ≤ outer) contour := by
  have hstep : ∀ k ∈ keys, listStep c outer kernel rows cols img keys contour k = some (accum (binOf c outer keys contour k) contour fun _ => initVal c) := by
    intro k hk
    obtain ⟨y, x, rfl, h1, h2, h3, h4⟩ := hkeys k hk
    unfold listStep
    dsimp only
    rw [cround_int, cround_int, if_neg (by simp [h1, h2, h3, h4])]
    congr 1
    by_cases hs : skipped c kernel rows cols img y x = true
    · rw [if_pos hs]
      funext b
      rw [accum_count]
      have : (contour.filter fun p => decide (binOf c outer keys contour ⟨x, y⟩ p = some b)) = [] := by
        rw [List.filter_eq_nil_iff]
        intro p hp
        rw [decide_eq_true_eq]
        exact skipped_none c hv habs hR outer hring kernel hker rows cols img keys contour hcont y x hs p hp b
      rw [this]
      simp
    · rw [if_neg hs]
  have hall : keys.mapM (listStep c outer kernel rows cols img keys contour) =
      some (keys.map fun k => accum (binOf c outer keys contour k) contour fun _ => initVal c) := LSS.mapM_some _ _ keys hstep
  refine ⟨_, by unfold fillList; rw [hall]; rfl, by simp, fun i k hi => ?_⟩
  have hval : ∀ b, finish c (accum (binOf c outer keys contour k) contour fun _ => initVal c) b =
      Spec.start (c.R * c.A) c.nonzero + Spec.number (fun p => binOf c outer keys contour k p = some b) contour := by
    intro b
    unfold finish
    rw [hn, if_neg (by decide), accum_count, initVal_start, number_len]
  refine ⟨_, by rw [List.getElem?_map, List.getElem?_map, hi]; rfl, hval, ?_⟩
  rw [Finset.sum_congr rfl fun b _ => hval b, Finset.sum_add_distrib, Finset.sum_const, Finset.card_range, nsmul_eq_mul,
    sum_number (fun p b => binOf c outer keys contour k p = some b) (fun p b b' h h' => by rw [h] at h'; injection h')]
  congr 1
  apply number_congr
  intro p hp
  obtain ⟨y, x, rfl, _⟩ := hkeys k (List.mem_of_getElem? hi)
  obtain ⟨py, px, rfl, _⟩ := hcont p hp
  have hd := direct_counted c hv habs hR outer hring keys contour y x py px
  have e1 : (⟨(px : ℝ), (py : ℝ)⟩ : ℂ) ≠ ⟨(x : ℝ), (y : ℝ)⟩ ↔ (py, px) ≠ (y, x) := by
    rw [Ne, Ne, Complex.ext_iff, Prod.mk.injEq]
    simp only [Int.cast_inj]
    tauto
  have e2 : ‖(⟨(px : ℝ), (py : ℝ)⟩ : ℂ) - ⟨(x : ℝ), (y : ℝ)⟩‖ = LSS.Spec.hyp (y - py) (x - px) := by
    rw [← keyDist_norm]
    unfold keyDist LSS.Spec.hyp
    push_cast
    rfl
  rw [e1, e2, ← hd]
  constructor
  · rintro ⟨b, _, h⟩; exact ⟨b, h⟩
  · rintro ⟨b, h⟩
    refine ⟨b, ?_, h⟩
    obtain ⟨m, hm, he⟩ := binOf_direct c hv habs outer keys contour y x py px
    rw [he] at h
    split at h
    swap
    · cases h
    rename_i hin
    split at h
    · cases h
    rename_i hcell
    injection h with h
    rw [abs_le, abs_le] at hin
    have hr : (py - y + outer).toNat < outer * 2 + 1 := by omega
    have hc : (px - x + outer).toNat < outer * 2 + 1 := by omega
    have hlt : (py - y + outer).toNat * (outer * 2 + 1) + (px - x + outer).toNat < (outer * 2 + 1) * (outer * 2 + 1) := by
      have : ((py - y + outer).toNat + 1) * (outer * 2 + 1) ≤ (outer * 2 + 1) * (outer * 2 + 1) := Nat.mul_le_mul_right _ hr
      rw [Nat.add_mul, Nat.one_mul] at this
      omega
    have hp := (LSS.mask_proper _ _ _ _ _ m hm (Or.inl rfl)).bins _ hlt
    rcases hp with hp | hp
    · exact absurd hp hcell
    · omega

/-! ## C106: dense maps -/

theorem cround_nat (n : Nat) : cround (n : ℝ) = n := by
  have := cround_int (n : Int)
  push_cast at this
  exact this

theorem mem_allPixels (rows cols : Nat) (k : ℂ) : k ∈ allPixels rows cols ↔ ∃ r q : Nat, r < rows ∧ q < cols ∧ k = ⟨(q : ℝ), (r : ℝ)⟩ := by
  unfold allPixels
  rw [List.mem_flatMap]
  constructor
  · rintro ⟨r, hr, h⟩
    rw [List.mem_map] at h
    obtain ⟨q, hq, rfl⟩ := h
    exact ⟨r, q, List.mem_range.1 hr, List.mem_range.1 hq, rfl⟩
  · rintro ⟨r, q, hr, hq, rfl⟩
    exact ⟨r, List.mem_range.2 hr, List.mem_map.2 ⟨q, List.mem_range.2 hq, rfl⟩⟩

theorem allPixels_inside (rows cols : Nat) : ∀ k ∈ allPixels rows cols, Inside rows cols k := by
  intro k hk
  obtain ⟨r, q, hr, hq, rfl⟩ := (mem_allPixels rows cols k).1 hk
  unfold Inside
  dsimp only
  rw [cround_nat, cround_nat]
  omega

theorem allPixels_distinct (rows cols : Nat) :
    (allPixels rows cols).Pairwise fun k k' => ¬ (cround k.im = cround k'.im ∧ cround k.re = cround k'.re) := by
  unfold allPixels
  rw [List.pairwise_flatMap]
  constructor
  · intro r _
    rw [List.pairwise_map]
    refine List.pairwise_lt_range.imp ?_
    intro q q' hlt
    dsimp only
    rw [cround_nat, cround_nat, cround_nat]
    omega
  · refine List.pairwise_lt_range.imp ?_
    intro r r' hlt k hk k' hk'
    rw [List.mem_map] at hk hk'
    obtain ⟨q, _, rfl⟩ := hk
    obtain ⟨q', _, rfl⟩ := hk'
    dsimp only
    rw [cround_nat, cround_nat, cround_nat, cround_nat]
    omega

/-- **C106 (dense maps).** When the key points are all the pixels, the map holds the descriptor of every pixel, whatever the schedule. -/
theorem dense_counts (c : Cfg) (hv : c.Valid) (hm : c.relative = true ∨ c.rot = true) (hn : c.normalize = false) (outer : Nat)
    (kernel : Int → Int → Bool) (rows cols : Nat) (img : Int → Int → Bool) (contour order : List ℂ) (ho : order.Perm (allPixels rows cols)) :
    ∃ d, fillMap c outer kernel rows cols img (allPixels rows cols) contour order = some d ∧ ∀ r q : Nat, r < rows → q < cols → ∀ b,
      d r q b = Spec.start (c.R * c.A) c.nonzero + Spec.number (fun p => CountedIn c (allPixels rows cols) contour ⟨(q : ℝ), (r : ℝ)⟩ p b) contour := by
  obtain ⟨d, h1, h2, _⟩ := map_counts_partial c hv hm hn outer kernel rows cols img (allPixels rows cols) contour order ho
    (allPixels_inside rows cols) (allPixels_distinct rows cols)
  refine ⟨d, h1, fun r q hr hq b => ?_⟩
  have := h2 ⟨(q : ℝ), (r : ℝ)⟩ ((mem_allPixels rows cols _).2 ⟨r, q, hr, hq, rfl⟩) b
  dsimp only at this
  rw [cround_nat, cround_nat] at this
  exact this

/-- **C106 (dense maps, lookup mask).** The same with absolute distances and angles, under the hypotheses of `direct_counts`. -/
theorem dense_direct_counts (c : Cfg) (hv : c.Valid) (habs : c.relative = false ∧ c.rot = false) (hn : c.normalize = false) (hR : 2 ≤ c.R) (outer : Nat)
    (hring : LSS.Spec.ring outer c.R c.inner (c.R - 2) ≤ outer) (kernel : Int → Int → Bool) (hker : ∀ y x, LSS.Spec.hyp y x ≤ outer → kernel y x = true)
    (rows cols : Nat) (img : Int → Int → Bool) (contour order : List ℂ) (ho : order.Perm (allPixels rows cols))
    (hcont : ∀ p ∈ contour, ∃ y x : Int, p = ⟨x, y⟩ ∧ 0 ≤ y ∧ y < rows ∧ 0 ≤ x ∧ x < cols ∧ img y x = true) :
    ∃ d, fillMap c outer kernel rows cols img (allPixels rows cols) contour order = some d ∧ ∀ r q : Nat, r < rows → q < cols → ∀ b,
      d r q b = Spec.start (c.R * c.A) c.nonzero +
        Spec.number (fun p => binOf c outer (allPixels rows cols) contour ⟨(q : ℝ), (r : ℝ)⟩ p = some b) contour := by
  obtain ⟨d, h1, h2⟩ := map_any c hn outer kernel rows cols img (allPixels rows cols) contour order ho (allPixels_inside rows cols)
  refine ⟨d, h1, fun r q hr hq b => ?_⟩
  rw [h2]
  congr 1
  by_cases hs : skipped c kernel rows cols img r q = true
  · have hnone := skipped_none c hv habs hR outer hring kernel hker rows cols img (allPixels rows cols) contour hcont r q hs
    simp only [Int.cast_natCast] at hnone
    rw [hs, number_congr _ (fun _ => False) contour fun p hp => iff_false_intro (hnone p hp b)]
    simp [number_eq]
  · have hs' : skipped c kernel rows cols img r q = false := by simpa using hs
    simp only [hs', and_true]
    have := filter_pixel (allPixels rows cols) (allPixels_distinct rows cols) ⟨(q : ℝ), (r : ℝ)⟩ ((mem_allPixels rows cols _).2 ⟨r, q, hr, hq, rfl⟩)
    dsimp only at this
    rw [cround_nat, cround_nat] at this
    rw [this]
    simp

/-- **C106 (maps, refuted).** A key point given twice, as are the inner points of the contour of a thin line, has all its contour points counted twice in
the map. -/
theorem map_duplicates_refuted (c : Cfg) (hv : c.Valid) (hm : c.relative = true ∨ c.rot = true) (hn : c.normalize = false) (outer : Nat)
    (kernel : Int → Int → Bool) (rows cols : Nat) (img : Int → Int → Bool) (k : ℂ) (hk : Inside rows cols k) (contour : List ℂ) :
    ∃ d, fillMap c outer kernel rows cols img [k, k] contour [k, k] = some d ∧ ∀ b,
      d (cround k.im) (cround k.re) b = Spec.start (c.R * c.A) c.nonzero + 2 * Spec.number (fun p => CountedIn c [k, k] contour k p b) contour := by
  obtain ⟨d, h1, h2⟩ := map_any c hn outer kernel rows cols img [k, k] contour [k, k] (List.Perm.refl _) (by simpa using hk)
  refine ⟨d, h1, fun b => ?_⟩
  rw [h2]
  have : ([k, k].filter fun k' => decide (At (cround k.im) (cround k.re) k' ∧ skipped c kernel rows cols img (cround k.im) (cround k.re) = false)) = [k, k] := by
    rw [List.filter_eq_self]
    intro a ha
    have : a = k := by simpa using ha
    subst this
    simp [At, skipped_map c hm]
  rw [this]
  simp only [List.map_cons, List.map_nil, List.sum_cons, List.sum_nil, add_zero]
  rw [number_congr _ _ contour fun p _ => binOf_map c hv hm outer [k, k] contour k p b]
  unfold CountedIn
  ring

/-- An extractor with 12 sectors, 5 rings, absolute distances from 2 to 40 and relative angles; and one with absolute angles. -/
def demo (rot : Bool) : Cfg := ⟨12, 5, 2, 40, false, rot, false, true⟩

theorem demo_valid (rot : Bool) : (demo rot).Valid := ⟨Nat.zero_lt_succ _, Nat.zero_lt_succ _, by norm_num [demo], by norm_num [demo]⟩

/-- Some point is counted: the second of two contour points at distance one, seen from the first. -/
example : Spec.number (fun p => ∃ b < 5 * 12, CountedIn (demo true) [0] [0, 1] 0 p b) [0, 1] = 1 := by
  have h : ∀ p : ℂ, (∃ b < 5 * 12, CountedIn (demo true) [0] [0, 1] 0 p b) ↔ ¬ Spec.Coincident 0 p ∧ ‖p - 0‖ / 1 < 40 := by
    intro p
    have := counted_iff (demo true) (demo_valid true) [0] [0, 1] 0 p
    simpa [demo] using this
  rw [number_congr _ _ _ fun p _ => h p]
  have h0 : ¬ (¬ Spec.Coincident 0 0 ∧ ‖(0 : ℂ) - 0‖ / 1 < 40) := by
    intro h
    exact h.1 ⟨by norm_num, by norm_num⟩
  have h1 : ¬ Spec.Coincident 0 1 ∧ ‖(1 : ℂ) - 0‖ / 1 < 40 := by
    refine ⟨fun h => ?_, by norm_num⟩
    have := h.1
    norm_num at this
  rw [number_eq, List.filter_cons, if_neg (by simpa using h0), List.filter_cons, if_pos (by simpa using h1)]
  simp

/-- The parameters used by the tests of the library do not push a ring beyond the outer radius. -/
example : LSS.Spec.ring 40 (demo false).R (demo false).inner ((demo false).R - 2) ≤ 40 := by
  have h : ((5 : ℝ) ^ ((4 : ℝ) / 5)) ≤ 4 := by
    have h5 : ((5 : ℝ) ^ ((4 : ℝ) / 5)) ^ (5 : ℕ) = 5 ^ (4 : ℕ) := by
      rw [← Real.rpow_natCast, ← Real.rpow_mul (by norm_num)]
      norm_num
    by_contra hc
    have := pow_lt_pow_left₀ (not_le.1 hc) (by norm_num) (n := 5) (by norm_num)
    rw [h5] at this
    norm_num at this
  have e : LSS.Spec.ring 40 5 2 3 ≤ 40 := by
    unfold LSS.Spec.ring
    norm_num at h ⊢
    linarith
  exact e

/-! ## C109 -/

/-- The size of the image given to a call. -/
def Op.size : Op → Nat × Nat
  | .dense s => s
  | .sparse s _ _ => s
  | .detect s _ => s

theorem run_append (ops : List Op) (op : Op) : run (ops ++ [op]) = step (run ops) op := by
  unfold run; rw [List.foldl_append]; rfl

/-- **C109 (given key points).** Descriptors are computed for the key points of the call, or for the contour points if there are none, whatever
the calls before. -/
theorem sparse_keys (ops : List Op) (size : Nat × Nat) (keys contour : List ℂ) :
    (run (ops ++ [.sparse size keys contour])).keys = if keys = [] then contour else keys := by
  rw [run_append]; rfl

/-- **C109 (detected key points).** -/
theorem detect_keys (ops : List Op) (size : Nat × Nat) (kept : List ℂ) (h : kept ≠ []) : (run (ops ++ [.detect size kept])).keys = kept := by
  rw [run_append]
  show (if kept = [] then _ else _ : St).keys = kept
  rw [if_neg h]

/-- What holds after any sequence of calls that all have an image of the same size, or of which no detection ends without key points. -/
theorem run_inv (ops : List Op) (h : (∀ s, Op.detect s [] ∉ ops) ∨ ∃ size, ∀ op ∈ ops, op.size = size) :
    (run ops).full = true → (run ops).keys = allPixels (run ops).size.1 (run ops).size.2 := by
  have key : ∀ l : List Op, ((∀ s, Op.detect s [] ∉ l) ∨ ∃ size, ∀ op ∈ l, op.size = size) →
      ((run l.reverse).full = true → (run l.reverse).keys = allPixels (run l.reverse).size.1 (run l.reverse).size.2) ∧
      (l ≠ [] → ∀ size, (∀ op ∈ l, op.size = size) → (run l.reverse).size = size) := by
    intro l
    induction l with
    | nil => intro _; exact ⟨fun hf => (by cases hf), fun hf => absurd rfl hf⟩
    | cons op l ih =>
      intro hl
      have hl' : (∀ s, Op.detect s [] ∉ l) ∨ ∃ size, ∀ op ∈ l, op.size = size := by
        rcases hl with hl | ⟨size, hl⟩
        · exact Or.inl fun s hs => hl s (List.mem_cons_of_mem _ hs)
        · exact Or.inr ⟨size, fun o ho => hl o (List.mem_cons_of_mem _ ho)⟩
      obtain ⟨i1, i2⟩ := ih hl'
      rw [List.reverse_cons, run_append]
      generalize hs : run l.reverse = s at *
      refine ⟨?_, ?_⟩
      · cases op with
        | dense size =>
          simp only [step]
          split
          · intro _; rfl
          · rename_i hcond
            have hc : s.full = true ∧ s.size = size := by simpa using hcond
            intro hf
            rw [i1 hc.1, hc.2]
        | sparse size keys contour => intro hf; cases hf
        | detect size kept =>
          simp only [step]
          split
          · rename_i hk
            subst hk
            intro hf
            dsimp only at hf ⊢
            rcases hl with hl | ⟨size', hl⟩
            · exact absurd (List.mem_cons_self ..) (hl size)
            · have e1 := hl _ (List.mem_cons_self ..)
              have e1' : size = size' := e1
              by_cases hne : l = []
              · subst hne
                have : s = St.new := by rw [← hs]; rfl
                rw [this] at hf
                cases hf
              · have e2 := i2 hne size' fun o ho => hl o (List.mem_cons_of_mem _ ho)
                rw [i1 hf, e2, e1']
          · intro hf; cases hf
      · intro _ size' hall
        have e1 := hall _ (List.mem_cons_self ..)
        cases op with
        | dense size =>
          have e1' : size = size' := e1
          simp only [step]
          split <;> exact e1'
        | sparse size keys contour => exact e1
        | detect size kept =>
          have e1' : size = size' := e1
          simp only [step]
          split <;> exact e1'
  have := (key ops.reverse (by
    rcases h with h | ⟨size, h⟩
    · exact Or.inl fun s hs => h s (List.mem_reverse.1 hs)
    · exact Or.inr ⟨size, fun o ho => h o (List.mem_reverse.1 ho)⟩)).1
  rwa [List.reverse_reverse] at this

/-- **C109 (dense maps, partial).** A dense map is computed for all the pixels of its image, after any sequence of calls of which no detection ends without
key points, or which all have images of the same size. Missing: other sequences, see `dense_refuted`. -/
theorem dense_keys_partial (ops : List Op) (size : Nat × Nat) (h : (∀ s, Op.detect s [] ∉ ops) ∨ ∃ size', ∀ op ∈ ops, op.size = size') :
    (run (ops ++ [.dense size])).keys = allPixels size.1 size.2 := by
  rw [run_append]
  simp only [step]
  split
  · rfl
  · rename_i hcond
    have hc : (run ops).full = true ∧ (run ops).size = size := by simpa using hcond
    show (run ops).keys = _
    rw [run_inv ops h hc.1, hc.2]

/-- **C109 (dense maps, refuted).** After a dense map of an image and a detection without result on an image of another size, a dense map of an image of this other
size is computed for the pixels of the first. If this one has fewer rows or columns, some pixels have no descriptor. If it has more, descriptors are written
out of bounds. -/
theorem dense_refuted (a b : Nat × Nat) (ha : 0 < a.1 ∧ 0 < a.2) (hb : 0 < b.1 ∧ 0 < b.2) :
    (run [.dense a, .detect b [], .dense b]).keys = allPixels a.1 a.2 ∧
    ((a.1 < b.1 ∨ a.2 < b.2) → ∃ r q : Nat, r < b.1 ∧ q < b.2 ∧ ∀ k ∈ (run [.dense a, .detect b [], .dense b]).keys, ¬ At r q k) ∧
    ((b.1 < a.1 ∨ b.2 < a.2) → ∀ (c : Cfg) (outer : Nat) (kernel : Int → Int → Bool) (img : Int → Int → Bool) (contour : List ℂ),
      fillMap c outer kernel b.1 b.2 img (allPixels a.1 a.2) contour (allPixels a.1 a.2) = none) := by
  have hk : (run [.dense a, .detect b [], .dense b]).keys = allPixels a.1 a.2 := by simp [run, step, St.new]
  refine ⟨hk, fun h => ⟨b.1 - 1, b.2 - 1, by omega, by omega, fun k hmem => ?_⟩, ?_⟩
  · rw [hk] at hmem
    obtain ⟨r, q, hr, hq, rfl⟩ := (mem_allPixels _ _ _).1 hmem
    unfold At
    dsimp only
    rw [cround_nat, cround_nat]
    omega
  · intro h c outer kernel img contour
    apply map_outside_refuted
    refine ⟨⟨((a.2 - 1 : Nat) : ℝ), ((a.1 - 1 : Nat) : ℝ)⟩, (mem_allPixels _ _ _).2 ⟨a.1 - 1, a.2 - 1, by omega, by omega, rfl⟩, ?_⟩
    unfold Inside
    dsimp only
    rw [cround_nat, cround_nat]
    omega

/-- **C109 (output, partial).** The matrix of the caller receives the result if it was empty or had the right size. -/
theorem output_partial {α : Type} (old : Option ((Nat × Nat) × α)) (size : Nat × Nat) (result : α) (h : ∀ s a, old = some (s, a) → s = size) :
    output old size result = some (size, result) := by
  cases old with
  | none => rfl
  | some x =>
    obtain ⟨s, a⟩ := x
    have := h s a rfl
    subst this
    simp [output]

/-- **C109 (output, refuted).** A matrix of another size, for instance one filled for another image, is left as it was: the result is lost. -/
theorem output_refuted {α : Type} (s size : Nat × Nat) (a result : α) (h : s ≠ size) : output (some (s, a)) size result = some (s, a) := by
  simp [output, h]

/-- A sequence of calls that meets the hypotheses, with images of two sizes. -/
example : (run [.dense (2, 3), .detect (4, 4) [1], .sparse (2, 2) [] [0], .dense (2, 2)]).keys = allPixels 2 2 :=
  dense_keys_partial [.dense (2, 3), .detect (4, 4) [1], .sparse (2, 2) [] [0]] (2, 2) (Or.inl fun s h => by simp at h)

end Litiv.SC
