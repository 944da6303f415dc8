import Mathlib.Algebra.Ring.GeomSum
import Mathlib.Analysis.Complex.ExponentialBounds
import Verif.Lemmas.DASC

/-!
# C110–C113: the DASC descriptor
-/

namespace Litiv.DASC

open Spec

/-! ## C110: the recursive filter -/

theorem forward_congr (n : Nat) (v v' x y : Nat → ℝ) (h : ∀ i, 0 < i → i < n → v i = v' i) : Forward n v x y → Forward n v' x y :=
  fun ⟨h0, h1⟩ => ⟨h0, fun i hi => by rw [h1 i hi, h (i + 1) (by omega) hi]⟩

theorem backward_congr (n : Nat) (v v' x y : Nat → ℝ) (h : ∀ i, 0 < i → i < n → v i = v' i) : Backward n v x y → Backward n v' x y :=
  fun ⟨h0, h1⟩ => ⟨h0, fun i hi => by rw [h1 i hi, h (i + 1) (by omega) hi]⟩

/-- **C110 (recursion).** Every iteration filters the rows and then the columns, each forwards and then backwards, with the feedback given by the
difference between neighbours of the guide. -/
theorem filter_steps (sigmaS sigmaR : ℝ) (iters rows cols : Nat) (hr : 0 < rows) (hc : 0 < cols) (img oldX oldY x : Img) :
    ∃ seq : Nat → Img, seq 0 = x ∧ seq iters = rf sigmaS sigmaR iters rows cols img oldX oldY x ∧ ∀ i < iters, ∃ mid : Img,
      (∀ r < rows, ∃ y, Forward cols (fun q => feedback sigmaS sigmaR iters i (img r (q - 1) - img r q)) (seq i r) y ∧
        Backward cols (fun q => feedback sigmaS sigmaR iters i (img r (q - 1) - img r q)) y (mid r)) ∧
      ∀ q < cols, ∃ y, Forward rows (fun r => feedback sigmaS sigmaR iters i (img (r - 1) q - img r q)) (fun r => mid r q) y ∧
        Backward rows (fun r => feedback sigmaS sigmaR iters i (img (r - 1) q - img r q)) y (fun r => seq (i + 1) r q) := by
  refine ⟨fun m => (List.range m).foldl (fun x i => transpose (hPass cols rows (weightVt sigmaS sigmaR iters rows cols img oldY i)
    (transpose (hPass rows cols (weightH sigmaS sigmaR iters rows cols img oldX i) x)))) x, rfl, rfl, fun i _ => ?_⟩
  dsimp only
  rw [List.range_succ, List.foldl_append]
  generalize (List.range i).foldl (fun x i => transpose (hPass cols rows (weightVt sigmaS sigmaR iters rows cols img oldY i)
    (transpose (hPass rows cols (weightH sigmaS sigmaR iters rows cols img oldX i) x)))) x = z
  simp only [List.foldl_cons, List.foldl_nil]
  refine ⟨hPass rows cols (weightH sigmaS sigmaR iters rows cols img oldX i) z, fun r hr => ?_, fun q hq => ?_⟩
  · have e : ∀ q, 0 < q → q < cols → weightH sigmaS sigmaR iters rows cols img oldX i r q = feedback sigmaS sigmaR iters i (img r (q - 1) - img r q) :=
      fun q h0 hq => weightH_get _ _ _ _ _ _ _ _ _ _ hr h0 hq
    obtain ⟨y, h1, h2⟩ := rowPass_spec (weightH sigmaS sigmaR iters rows cols img oldX i r) cols hc (z r)
    refine ⟨y, forward_congr _ _ _ _ _ e h1, ?_⟩
    unfold hPass
    rw [if_pos hr]
    exact backward_congr _ _ _ _ _ e h2
  · have e : ∀ r, 0 < r → r < rows → weightVt sigmaS sigmaR iters rows cols img oldY i q r = feedback sigmaS sigmaR iters i (img (r - 1) q - img r q) :=
      fun r h0 hr => weightVt_get _ _ _ _ _ _ _ _ _ _ hq h0 hr
    obtain ⟨y, h1, h2⟩ := rowPass_spec (weightVt sigmaS sigmaR iters rows cols img oldY i q) rows hr
      (fun r => hPass rows cols (weightH sigmaS sigmaR iters rows cols img oldX i) z r q)
    refine ⟨y, forward_congr _ _ _ _ _ e h1, ?_⟩
    have e2 : (fun r => transpose (hPass cols rows (weightVt sigmaS sigmaR iters rows cols img oldY i)
        (transpose (hPass rows cols (weightH sigmaS sigmaR iters rows cols img oldX i) z))) r q) =
        rowPass rows (weightVt sigmaS sigmaR iters rows cols img oldY i q) (fun r => hPass rows cols (weightH sigmaS sigmaR iters rows cols img oldX i) z r q) := by
      funext r
      unfold transpose
      rw [show ∀ v x : Img, hPass cols rows v x q = rowPass rows (v q) (x q) from fun v x => by unfold hPass; rw [if_pos hq]]
    rw [e2]
    exact backward_congr _ _ _ _ _ e h2

/-- **C110 (total smoothing).** The variances of the iterations add up to the requested variance. -/
theorem sigma_budget (sigmaS : ℝ) (iters : Nat) (hi : 0 < iters) : ∑ i ∈ Finset.range iters, sigma sigmaS iters i ^ 2 = sigmaS ^ 2 := by
  have h4 : (1 : ℝ) < 4 ^ iters := one_lt_pow₀ (by norm_num) (by omega)
  have e : ∀ i ∈ Finset.range iters, sigma sigmaS iters i ^ 2 = sigmaS ^ 2 * 3 / (4 ^ iters - 1) * 4 ^ (iters - 1 - i) := by
    intro i _
    unfold sigma
    rw [div_pow, Real.sq_sqrt (by linarith), mul_pow, mul_pow, Real.sq_sqrt (by norm_num), ← pow_mul, mul_comm (iters - (i + 1)) 2, pow_mul,
      show iters - (i + 1) = iters - 1 - i by omega]
    norm_num
    ring
  rw [Finset.sum_congr rfl e, ← Finset.mul_sum, Finset.sum_range_reflect (fun i => (4 : ℝ) ^ i) iters, geom_sum_eq (by norm_num)]
  have : (4 : ℝ) ^ iters - 1 ≠ 0 := by linarith
  field_simp
  norm_num

/-- **C110 (means).** The recursive filter replaces every pixel by a weighted mean of all pixels, with positive weights that depend on the guide only. -/
theorem filter_averages (sigmaS sigmaR : ℝ) (hs : 0 < sigmaS) (hr : 0 < sigmaR) (iters rows cols : Nat) (hi : 0 < iters) (img oldX oldY : Img) :
    Averages rows cols (rf sigmaS sigmaR iters rows cols img oldX oldY) := (rf_pos sigmaS sigmaR hs hr iters rows cols hi img oldX oldY).averages

/-- **C110 (range).** Filtered values lie within the range of the input; constant images are unchanged (`lo = hi`). -/
theorem filter_range (sigmaS sigmaR : ℝ) (hs : 0 < sigmaS) (hr : 0 < sigmaR) (iters rows cols : Nat) (hi : 0 < iters) (img oldX oldY x : Img) (lo hi' : ℝ)
    (hx : ∀ r < rows, ∀ q < cols, lo ≤ x r q ∧ x r q ≤ hi') (r q : Nat) (hr' : r < rows) (hq : q < cols) :
    lo ≤ rf sigmaS sigmaR iters rows cols img oldX oldY x r q ∧ rf sigmaS sigmaR iters rows cols img oldX oldY x r q ≤ hi' := by
  obtain ⟨h1, h2, h3⟩ := filter_averages sigmaS sigmaR hs hr iters rows cols hi img oldX oldY
  have hp : (r, q) ∈ pixels rows cols := (mem_pixels _ _ _).2 ⟨hr', hq⟩
  rw [h3 x (r, q) hp]
  have h4 := h2 _ hp
  constructor
  · calc lo = ∑ s ∈ pixels rows cols, response (rf sigmaS sigmaR iters rows cols img oldX oldY) (r, q) s * lo := by rw [← Finset.sum_mul, h4, one_mul]
      _ ≤ _ := Finset.sum_le_sum fun s hs => by
        have := (mem_pixels _ _ _).1 hs
        exact mul_le_mul_of_nonneg_left (hx _ this.1 _ this.2).1 (h1 _ hp s hs).le
  · calc _ ≤ ∑ s ∈ pixels rows cols, response (rf sigmaS sigmaR iters rows cols img oldX oldY) (r, q) s * hi' := Finset.sum_le_sum fun s hs => by
          have := (mem_pixels _ _ _).1 hs
          exact mul_le_mul_of_nonneg_left (hx _ this.1 _ this.2).2 (h1 _ hp s hs).le
      _ = hi' := by rw [← Finset.sum_mul, h4, one_mul]

/-- **C110 (history).** What the buffers of the extractor hold from earlier calls has no effect on the filter. -/
theorem filter_history (sigmaS sigmaR : ℝ) (iters rows cols : Nat) (img oldX oldY oldX' oldY' : Img) :
    rf sigmaS sigmaR iters rows cols img oldX oldY = rf sigmaS sigmaR iters rows cols img oldX' oldY' := rf_old _ _ _ _ _ _ _ _ _ _

/-- **C110 (differences).** -/
theorem localDiff_spec (dr dq rows cols : Nat) (img old : Img) (r q : Nat) (hr : r < rows) (hq : q < cols) :
    localDiff dr dq rows cols img old r q = if dr ≤ r ∧ dq ≤ q then img (r - dr) (q - dq) - img r q else 0 := localDiff_get _ _ _ _ _ _ _ _ hr hq

/-- One iteration with the default parameters is such a filter; a difference of 1 gives the smaller feedback. -/
example : Averages 40 50 (rf 2 (1 / 5) 1 40 50 (fun r q => if r < q then 1 else 0) (fun _ _ => 7) (fun _ _ => 8)) ∧
    feedback 2 (1 / 5) 1 0 1 < feedback 2 (1 / 5) 1 0 0 := by
  refine ⟨filter_averages _ _ (by norm_num) (by norm_num) 1 40 50 (by norm_num) _ _ _, ?_⟩
  unfold feedback
  rw [Real.exp_lt_exp]
  have := sigma_pos 2 (by norm_num) 1 0 (by norm_num)
  have h2 : 0 < Real.sqrt 2 / sigma 2 1 0 := div_pos (Real.sqrt_pos.2 (by norm_num)) this
  norm_num
  linarith

/-! ## C111: values of the descriptors -/

/-- **C111 (correlation).** A value of a descriptor compares the surroundings of the two samples of the pattern: it is `exp(-2(1-ρ))` for the correlation
`ρ` between the image and the image moved from one sample to the other, with the weights of the filter at the first sample, and 1 for flat surroundings. -/
theorem raw_corr (filter : Img → Img) (rows cols : Nat) (img : Img) (hf : Averages rows cols filter) (r q k : Nat) (hk : k < 128)
    (a b : Int × Int) (ha : a = rp1.getD k (0, 0)) (hb : b = rp2.getD k (0, 0))
    (hin : 0 < r + a.1 ∧ r + a.1 < rows ∧ 0 < q + a.2 ∧ q + a.2 < cols) :
    let w := response filter ((r + a.1).toNat, (q + a.2).toNat)
    let x : Nat × Nat → ℝ := fun s => img s.1 s.2
    let y : Nat × Nat → ℝ := fun s => sample rows cols img (s.1 + (b.1 - a.1)) (s.2 + (b.2 - a.2))
    raw filter rows cols img r q k =
      if 1 / 10 ^ 10 < Real.sqrt (cov (pixels rows cols) w x x * cov (pixels rows cols) w y y) then
        Real.exp (-2 * (1 - corr (pixels rows cols) w x y)) else 1 := by
  intro w x y
  obtain ⟨h1, h2, h3⟩ := hf
  have hp : ((r + a.1).toNat, (q + a.2).toNat) ∈ pixels rows cols := (mem_pixels _ _ _).2 ⟨by show (r + a.1).toNat < rows; omega, by show (q + a.2).toNat < cols; omega⟩
  have hd := rpDiff_get k hk
  rw [← ha, ← hb] at hd
  unfold raw
  dsimp only
  rw [← ha, hd, if_pos hin]
  have := value_corr (pixels rows cols) w x y (fun s hs => (h1 _ hp s hs).le) (h2 _ hp)
  rw [← this]
  have e1 := h3 img _ hp
  have e2 := h3 (fun r q => img r q * img r q) _ hp
  have e3 := h3 (lookup rows cols img (b.1 - a.1, b.2 - a.2)) _ hp
  have e4 := h3 (lookupSqr rows cols img (b.1 - a.1, b.2 - a.2)) _ hp
  have e5 := h3 (lookupMix rows cols img (b.1 - a.1, b.2 - a.2)) _ hp
  dsimp only at e1 e2 e3 e4 e5
  rw [e1, e2, e3, e4, e5]
  congr 1
  · refine Finset.sum_congr rfl fun s _ => ?_
    show _ = _ * (sample rows cols img _ _ * sample rows cols img _ _)
    unfold lookupSqr sample
    dsimp only
    split <;> simp [w]
  · refine Finset.sum_congr rfl fun s _ => ?_
    show _ = _ * (x s * sample rows cols img _ _)
    unfold lookupMix sample
    dsimp only
    split <;> simp [w, x]

/-- **C111 (range).** With the recursive filter no square root of a negative number is taken, and values of samples in the image lie between `exp(-4)` and 1. -/
theorem raw_range (filter : Img → Img) (rows cols : Nat) (img : Img) (hf : Averages rows cols filter) (r q k : Nat) (hk : k < 128)
    (hin : 0 < r + (rp1.getD k (0, 0)).1 ∧ r + (rp1.getD k (0, 0)).1 < rows ∧ 0 < q + (rp1.getD k (0, 0)).2 ∧ q + (rp1.getD k (0, 0)).2 < cols) :
    Real.exp (-4) ≤ raw filter rows cols img r q k ∧ raw filter rows cols img r q k ≤ 1 := by
  have := raw_corr filter rows cols img hf r q k hk _ _ rfl rfl hin
  dsimp only at this
  rw [this]
  have hp : ((r + (rp1.getD k (0, 0)).1).toNat, (q + (rp1.getD k (0, 0)).2).toNat) ∈ pixels rows cols :=
    (mem_pixels _ _ _).2 ⟨by show (r + (rp1.getD k (0, 0)).1).toNat < rows; omega, by show (q + (rp1.getD k (0, 0)).2).toNat < cols; omega⟩
  split
  · have := corr_range (pixels rows cols) (response filter ((r + (rp1.getD k (0, 0)).1).toNat, (q + (rp1.getD k (0, 0)).2).toNat))
      (fun s => img s.1 s.2) (fun s => sample rows cols img (s.1 + ((rp2.getD k (0, 0)).1 - (rp1.getD k (0, 0)).1))
        (s.2 + ((rp2.getD k (0, 0)).2 - (rp1.getD k (0, 0)).2))) fun s hs => (hf.pos _ hp s hs).le
    rw [Real.exp_le_exp, Real.exp_le_one_iff]
    constructor <;> linarith [this.1, this.2]
  · exact ⟨Real.exp_le_one_iff.2 (by norm_num), le_rfl⟩

/-- **C111 (no negative variance).** -/
theorem variance_nonneg (filter : Img → Img) (rows cols : Nat) (hf : Averages rows cols filter) (x : Img) (r q : Nat) (hr : r < rows) (hq : q < cols) :
    filter x r q * filter x r q ≤ filter (fun r q => x r q * x r q) r q := by
  have hp : (r, q) ∈ pixels rows cols := (mem_pixels _ _ _).2 ⟨hr, hq⟩
  have h := cov_self_nonneg (pixels rows cols) (response filter (r, q)) (fun s => x s.1 s.2) fun s hs => (hf.pos _ hp s hs).le
  rw [cov_eq _ _ _ _ (hf.one _ hp)] at h
  have e1 := hf.sum x _ hp
  have e2 := hf.sum (fun r q => x r q * x r q) _ hp
  dsimp only at e1 e2
  unfold mean at h
  rw [e1, e2]
  linarith

theorem raw_bounds (filter : Img → Img) (rows cols : Nat) (img : Img) (r q k : Nat) : 0 ≤ raw filter rows cols img r q k ∧ raw filter rows cols img r q k ≤ 1 := by
  unfold raw
  dsimp only
  split
  · have := value_range
    exact ⟨(this _ _ _ _ _).1.le, (this _ _ _ _ _).2⟩
  · exact ⟨le_rfl, zero_le_one⟩

theorem border_eq : border = 15 := by decide +kernel

/-- **C111 (normalization).** With either filter, images of at least 31 rows and columns are accepted and all their descriptors have unit length and
values between 0 and 1. -/
theorem dense_unit (filter : Img → Img) (rows cols : Nat) (img : Img) :
    (31 ≤ rows ∧ 31 ≤ cols ↔ ∃ d, dense filter rows cols img = some d) ∧
      ∀ d, dense filter rows cols img = some d → ∀ r q, length (d r q) = 1 ∧ ∀ k < 128, 0 ≤ d r q k ∧ d r q k ≤ 1 := by
  have e : diam = 31 := by unfold diam; rw [border_eq]; rfl
  unfold dense
  rw [e]
  constructor
  · constructor
    · intro h; rw [if_pos (by omega)]; exact ⟨_, rfl⟩
    · rintro ⟨d, h⟩
      by_contra hn
      rw [if_neg (by omega)] at h
      cases h
  · intro d h r q
    by_cases hd : (31 : Int) ≤ cols ∧ (31 : Int) ≤ rows
    · rw [if_pos hd] at h
      injection h with h
      subst h
      exact normalize_unit _ fun k _ => (raw_bounds filter rows cols img r q k).1
    · rw [if_neg hd] at h; cases h

/-- **C111 (direction).** Where at least one sample lies in the image, the descriptor is the vector of the values divided by its length, so it keeps
the ratios between values. -/
theorem dense_ratio (sigmaS sigmaR : ℝ) (hs : 0 < sigmaS) (hr : 0 < sigmaR) (iters rows cols : Nat) (hi : 0 < iters) (img oldX oldY : Img)
    (d : Nat → Nat → Nat → ℝ) (h : denseRF sigmaS sigmaR iters rows cols img oldX oldY = some d) (r q k : Nat) (hk : k < 128)
    (hin : 0 < r + (rp1.getD k (0, 0)).1 ∧ r + (rp1.getD k (0, 0)).1 < rows ∧ 0 < q + (rp1.getD k (0, 0)).2 ∧ q + (rp1.getD k (0, 0)).2 < cols) :
    0 < d r q k ∧ ∃ n, 0 < n ∧ ∀ j, d r q j = raw (rf sigmaS sigmaR iters rows cols img oldX oldY) rows cols img r q j / n := by
  have hf := filter_averages sigmaS sigmaR hs hr iters rows cols hi img oldX oldY
  have hk' := (raw_range _ rows cols img hf r q k hk hin).1
  unfold denseRF dense at h
  split at h
  · injection h with h
    subst h
    have hpos : eps < Real.sqrt (((List.range lut).map fun k => raw (rf sigmaS sigmaR iters rows cols img oldX oldY) rows cols img r q k ^ 2).sum) := by
      rw [length_eq]
      refine lt_of_lt_of_le ?_ (Real.sqrt_le_sqrt (Finset.single_le_sum
        (f := fun k => raw (rf sigmaS sigmaR iters rows cols img oldX oldY) rows cols img r q k ^ 2) (fun k _ => sq_nonneg _) (Finset.mem_range.2 hk)))
      rw [Real.sqrt_sq (raw_bounds _ _ _ _ _ _ _).1]
      refine lt_of_lt_of_le ?_ hk'
      unfold eps
      have h1 : Real.exp 4 < 10 ^ 10 := by
        have : Real.exp 4 = Real.exp 1 ^ 4 := by rw [← Real.exp_nat_mul]; norm_num
        rw [this]
        have h3 : Real.exp 1 < 3 := lt_trans Real.exp_one_lt_d9 (by norm_num)
        calc Real.exp 1 ^ 4 < 3 ^ 4 := pow_lt_pow_left₀ h3 (Real.exp_pos _).le (by norm_num)
          _ < 10 ^ 10 := by norm_num
      rw [Real.exp_neg, ← one_div]
      exact one_div_lt_one_div_of_lt (Real.exp_pos _) h1
    unfold normalize
    dsimp only
    rw [if_pos hpos]
    have hn : (0 : ℝ) < Real.sqrt (((List.range lut).map fun k => raw (rf sigmaS sigmaR iters rows cols img oldX oldY) rows cols img r q k ^ 2).sum) :=
      lt_trans (by unfold eps; norm_num) hpos
    exact ⟨div_pos (lt_of_lt_of_le (Real.exp_pos _) hk') hn, _, hn, fun j => rfl⟩
  · cases h

/-- **C111 (history).** -/
theorem dense_history (sigmaS sigmaR : ℝ) (iters rows cols : Nat) (img oldX oldY oldX' oldY' : Img) :
    denseRF sigmaS sigmaR iters rows cols img oldX oldY = denseRF sigmaS sigmaR iters rows cols img oldX' oldY' := by
  unfold denseRF
  rw [rf_old _ _ _ _ _ _ oldX oldY oldX' oldY']

/-- **C111 (refuted).** Samples in the first row or column are taken as outside of the image: at row 15, sample 23 (row offset -15) is in the image, but
its value is zero for every image. -/
theorem raw_first_row_refuted : ∃ k < 128, (rp1.getD k (0, 0)).1 = -15 ∧ ∀ (filter : Img → Img) (rows cols : Nat) (img : Img) (q : Nat),
    raw filter rows cols img 15 q k = 0 := by
  have : ∃ k < 128, (rp1.getD k (0, 0)).1 = -15 := by decide +kernel
  obtain ⟨k, hk, e⟩ := this
  refine ⟨k, hk, e, fun filter rows cols img q => ?_⟩
  unfold raw
  dsimp only
  rw [e, if_neg (by norm_num)]

/-! ## C112: the guided filter -/

section guided
variable (cv : CV) (epsilon : ℝ) (he : 0 < epsilon) (img x : Img)

theorem ridge_expand {α : Type} (S : Finset α) (w i p : α → ℝ) (h1 : ∑ s ∈ S, w s = 1) (epsilon a b : ℝ) :
    ridge S w i p epsilon a b = a ^ 2 * (∑ s ∈ S, w s * (i s * i s)) + b ^ 2 + (∑ s ∈ S, w s * (p s * p s)) + 2 * a * b * mean S w i
      - 2 * a * (∑ s ∈ S, w s * (i s * p s)) - 2 * b * mean S w p + epsilon * a ^ 2 := by
  unfold ridge mean
  have : ∀ s ∈ S, w s * (a * i s + b - p s) ^ 2 = a ^ 2 * (w s * (i s * i s)) + b ^ 2 * w s + w s * (p s * p s) + 2 * a * b * (w s * i s)
      - 2 * a * (w s * (i s * p s)) - 2 * b * (w s * p s) := fun s _ => by ring
  rw [Finset.sum_congr rfl this]
  simp only [Finset.sum_add_distrib, Finset.sum_sub_distrib, ← Finset.mul_sum, h1]
  ring

include he in
/-- **C112 (regression).** At every pixel the slope and the offset are the line that best predicts the filtered image from the guide in the window of the
blur, with a penalty on the slope; it is the only one. -/
theorem guided_ridge (S : Finset (Nat × Nat)) (w : Nat × Nat → Nat × Nat → ℝ) (hb : WeightedMeans S S cv.blur w) (t : Nat × Nat) (ht : t ∈ S) (a b : ℝ) :
    let i : Nat × Nat → ℝ := fun s => cv.down img s.1 s.2
    let p : Nat × Nat → ℝ := fun s => cv.down x s.1 s.2
    let a0 := slope cv epsilon img x t.1 t.2
    let b0 := offset cv epsilon img x t.1 t.2
    ridge S (w t) i p epsilon a0 b0 ≤ ridge S (w t) i p epsilon a b ∧
      (ridge S (w t) i p epsilon a b = ridge S (w t) i p epsilon a0 b0 → a = a0 ∧ b = b0) := by
  intro i p a0 b0
  obtain ⟨h1, h2, h3⟩ := hb
  have hv := cov_self_nonneg S (w t) i fun s hs => h1 t ht s hs
  have ev := cov_eq S (w t) i i (h2 t ht)
  have e1 : cv.blur (cv.down img) t.1 t.2 = mean S (w t) i := h3 _ t ht
  have e2 : cv.blur (cv.down x) t.1 t.2 = mean S (w t) p := h3 _ t ht
  have e3 := h3 (fun r q => cv.down img r q * cv.down x r q) t ht
  have e4 := h3 (fun r q => cv.down img r q * cv.down img r q) t ht
  have ea : a0 * (cov S (w t) i i + epsilon) = ∑ s ∈ S, w t s * (i s * p s) - mean S (w t) i * mean S (w t) p := by
    have : a0 = (∑ s ∈ S, w t s * (i s * p s) - mean S (w t) i * mean S (w t) p) / (cov S (w t) i i + epsilon) := by
      show slope cv epsilon img x t.1 t.2 = _
      unfold slope
      rw [e1, e2, e3, e4, ev]
    rw [this, div_mul_cancel₀ _ (by linarith)]
  have eb : b0 = mean S (w t) p - a0 * mean S (w t) i := by
    show offset cv epsilon img x t.1 t.2 = _
    unfold offset
    rw [e1, e2]
  have key : ridge S (w t) i p epsilon a b = ridge S (w t) i p epsilon a0 b0 + (cov S (w t) i i + epsilon) * (a - a0) ^ 2 +
      ((a - a0) * mean S (w t) i + (b - b0)) ^ 2 := by
    rw [ridge_expand S (w t) i p (h2 t ht), ridge_expand S (w t) i p (h2 t ht)]
    have e5 : ∑ s ∈ S, w t s * (i s * p s) = a0 * (cov S (w t) i i + epsilon) + mean S (w t) i * mean S (w t) p := by linarith
    have e6 : ∑ s ∈ S, w t s * (i s * i s) = cov S (w t) i i + mean S (w t) i * mean S (w t) i := by linarith
    rw [e5, e6, eb]
    ring
  have hq : 0 ≤ (cov S (w t) i i + epsilon) * (a - a0) ^ 2 := mul_nonneg (by linarith) (sq_nonneg _)
  have hq2 : 0 ≤ ((a - a0) * mean S (w t) i + (b - b0)) ^ 2 := sq_nonneg _
  refine ⟨by linarith, fun h => ?_⟩
  have h5 : (cov S (w t) i i + epsilon) * (a - a0) ^ 2 = 0 := by linarith
  have h6 : ((a - a0) * mean S (w t) i + (b - b0)) ^ 2 = 0 := by linarith
  have h7 : a = a0 := by
    rcases mul_eq_zero.1 h5 with h | h
    · linarith
    · have := pow_eq_zero_iff (two_ne_zero) |>.1 h; linarith
  rw [h7] at h6
  have := pow_eq_zero_iff (two_ne_zero) |>.1 h6
  exact ⟨h7, by linarith⟩

/-- **C112 (constants).** Constant images are unchanged. -/
theorem guided_constant (rows cols : Nat) (S : Finset (Nat × Nat)) (wb wd wu : Nat × Nat → Nat × Nat → ℝ) (hb : WeightedMeans S S cv.blur wb)
    (hd : WeightedMeans (pixels rows cols) S cv.down wd) (hu : WeightedMeans S (pixels rows cols) cv.up wu) (c : ℝ) (r q : Nat) (hr : r < rows) (hq : q < cols) :
    guidedFilter cv epsilon img (fun _ _ => c) r q = c := by
  have hp : (r, q) ∈ pixels rows cols := (mem_pixels _ _ _).2 ⟨hr, hq⟩
  have ed : ∀ s ∈ S, cv.down (fun _ _ => c) s.1 s.2 = c := fun s hs => by rw [hd.2.2 _ s hs, ← Finset.sum_mul, hd.2.1 s hs, one_mul]
  have eb : ∀ s ∈ S, cv.blur (cv.down fun _ _ => c) s.1 s.2 = c := fun s hs => by
    rw [hb.2.2 _ s hs, Finset.sum_congr rfl (g := fun u => wb s u * c) fun u hu => by rw [ed u hu], ← Finset.sum_mul, hb.2.1 s hs, one_mul]
  have es : ∀ s ∈ S, slope cv epsilon img (fun _ _ => c) s.1 s.2 = 0 := fun s hs => by
    unfold slope
    rw [eb s hs, hb.2.2 _ s hs, hb.2.2 (cv.down img) s hs, Finset.sum_congr rfl (g := fun u => wb s u * cv.down img u.1 u.2 * c) fun u hu => by
      rw [ed u hu, mul_assoc], ← Finset.sum_mul, sub_self, zero_div]
  have eo : ∀ s ∈ S, offset cv epsilon img (fun _ _ => c) s.1 s.2 = c := fun s hs => by
    unfold offset
    rw [eb s hs, es s hs, zero_mul, sub_zero]
  unfold guidedFilter
  have e1 := hu.2.2 (cv.blur (slope cv epsilon img fun _ _ => c)) _ hp
  have e2 := hu.2.2 (cv.blur (offset cv epsilon img fun _ _ => c)) _ hp
  dsimp only at e1 e2
  rw [e1, e2]
  have g1 : ∀ s ∈ S, wu (r, q) s * cv.blur (slope cv epsilon img fun _ _ => c) s.1 s.2 = 0 := fun s hs => by
    rw [hb.2.2 _ s hs, Finset.sum_eq_zero fun u hu => by rw [es u hu, mul_zero], mul_zero]
  have g2 : ∀ s ∈ S, wu (r, q) s * cv.blur (offset cv epsilon img fun _ _ => c) s.1 s.2 = wu (r, q) s * c := fun s hs => by
    rw [hb.2.2 _ s hs, Finset.sum_congr rfl (g := fun u => wb s u * c) fun u hu => by rw [eo u hu], ← Finset.sum_mul, hb.2.1 s hs, one_mul]
  rw [Finset.sum_eq_zero g1, Finset.sum_congr rfl g2, ← Finset.sum_mul, hu.2.1 _ hp]
  ring

/-- **C112 (linearity).** The filter is linear in the filtered image. -/
theorem guided_linear (rows cols : Nat) (S : Finset (Nat × Nat)) (wb wd wu : Nat × Nat → Nat × Nat → ℝ) (hb : WeightedMeans S S cv.blur wb)
    (hd : WeightedMeans (pixels rows cols) S cv.down wd) (hu : WeightedMeans S (pixels rows cols) cv.up wu) (y : Img) (a b : ℝ) (r q : Nat)
    (hr : r < rows) (hq : q < cols) :
    guidedFilter cv epsilon img (fun r q => a * x r q + b * y r q) r q = a * guidedFilter cv epsilon img x r q + b * guidedFilter cv epsilon img y r q := by
  have hp : (r, q) ∈ pixels rows cols := (mem_pixels _ _ _).2 ⟨hr, hq⟩
  have lin : ∀ (T U : Finset (Nat × Nat)) (F : Img → Img) (w : Nat × Nat → Nat × Nat → ℝ), WeightedMeans T U F w → ∀ f g h : Img,
      (∀ s ∈ T, f s.1 s.2 = a * g s.1 s.2 + b * h s.1 s.2) → ∀ s ∈ U, F f s.1 s.2 = a * F g s.1 s.2 + b * F h s.1 s.2 := by
    intro T U F w hF f g h e s hs
    rw [hF.2.2 f s hs, hF.2.2 g s hs, hF.2.2 h s hs, Finset.mul_sum, Finset.mul_sum, ← Finset.sum_add_distrib]
    exact Finset.sum_congr rfl fun u hu => by rw [e u hu]; ring
  have ed := lin _ _ _ _ hd (fun r q => a * x r q + b * y r q) x y fun s _ => rfl
  have eb := lin _ _ _ _ hb _ _ _ ed
  have ec := lin _ _ _ _ hb (fun r q => cv.down img r q * cv.down (fun r q => a * x r q + b * y r q) r q) (fun r q => cv.down img r q * cv.down x r q)
    (fun r q => cv.down img r q * cv.down y r q) fun s hs => by rw [ed s hs]; ring
  have es : ∀ s ∈ S, slope cv epsilon img (fun r q => a * x r q + b * y r q) s.1 s.2 = a * slope cv epsilon img x s.1 s.2 + b * slope cv epsilon img y s.1 s.2 := by
    intro s hs
    unfold slope
    rw [eb s hs, ec s hs]
    ring
  have eo : ∀ s ∈ S, offset cv epsilon img (fun r q => a * x r q + b * y r q) s.1 s.2 = a * offset cv epsilon img x s.1 s.2 + b * offset cv epsilon img y s.1 s.2 := by
    intro s hs
    unfold offset
    rw [eb s hs, es s hs]
    ring
  have g1 := lin _ _ _ _ hu _ _ _ (lin _ _ _ _ hb _ _ _ es) _ hp
  have g2 := lin _ _ _ _ hu _ _ _ (lin _ _ _ _ hb _ _ _ eo) _ hp
  dsimp only at g1 g2
  unfold guidedFilter
  rw [g1, g2]
  ring

/-- **C112 (guide).** Filtering is local averaging of the fitted lines: the value at a pixel is the mean, over the windows that cover it, of the lines
evaluated at the guide. Here without subsampling. -/
theorem guided_lines (S : Finset (Nat × Nat)) (w : Nat × Nat → Nat × Nat → ℝ) (hb : WeightedMeans S S cv.blur w) (hu : cv.up = id)
    (t : Nat × Nat) (ht : t ∈ S) :
    guidedFilter cv epsilon img x t.1 t.2 = ∑ s ∈ S, w t s * (slope cv epsilon img x s.1 s.2 * img t.1 t.2 + offset cv epsilon img x s.1 s.2) := by
  unfold guidedFilter
  rw [hu, id, id, hb.2.2 _ t ht, hb.2.2 _ t ht, Finset.sum_mul, ← Finset.sum_add_distrib]
  exact Finset.sum_congr rfl fun s _ => by ring

end guided

/-- A blur that takes the mean of the image meets the contract. -/
example : WeightedMeans (pixels 4 5) (pixels 4 5) (fun x _ _ => ∑ s ∈ pixels 4 5, 1 / 20 * x s.1 s.2) (fun _ _ => 1 / 20) := by
  refine ⟨fun _ _ _ _ => by norm_num, fun _ _ => ?_, fun _ _ _ => rfl⟩
  rw [Finset.sum_const, show (pixels 4 5).card = 20 by decide +kernel]
  norm_num

/-! ## C113: key points -/

/-- **C113 (pattern).** Every offset of the pattern is at most 15, and the bound is reached on each side: the border cannot be smaller. -/
theorem pattern_border : border = 15 ∧ rp1.length = 128 ∧ rp2.length = 128 ∧
    (∀ o ∈ rp1 ++ rp2, -border ≤ o.1 ∧ o.1 ≤ border ∧ -border ≤ o.2 ∧ o.2 ≤ border) ∧
    (∃ o ∈ rp1, o.1 = -border) ∧ (∃ o ∈ rp1, o.1 = border) ∧ (∃ o ∈ rp1, o.2 = -border) ∧ ∃ o ∈ rp1, o.2 = border := by
  rw [border_eq]
  decide +kernel

theorem trunc_nonneg (x : Rat) (n : Int) (hn : 0 < n) (h : n ≤ LBSP.cvRound x) : n - 1 ≤ LBSP.trunc x ∧ 0 ≤ x := by
  have hx : n - 1 ≤ ⌊x⌋ := by
    unfold LBSP.cvRound at h
    split at h
    · omega
    · split at h
      · omega
      · split at h <;> omega
  have h0 : 0 ≤ x := by
    have := Int.floor_le x
    have h2 : (0 : Rat) ≤ (⌊x⌋ : Rat) := by exact_mod_cast (by omega : (0 : Int) ≤ ⌊x⌋)
    linarith
  unfold LBSP.trunc
  rw [if_pos h0]
  exact ⟨hx, h0⟩

theorem trunc_le (x : Rat) (h0 : 0 ≤ x) : LBSP.trunc x ≤ LBSP.cvRound x := by
  unfold LBSP.trunc LBSP.cvRound
  rw [if_pos h0]
  split
  · exact le_rfl
  · split
    · omega
    · split <;> omega

theorem kept_bounds (rows cols : Nat) (mask : Option (Int → Int → Bool)) (given : Option (List LBSP.KP)) (k : LBSP.KP) (hk : k ∈ keyPoints rows cols mask given) :
    14 ≤ LBSP.trunc k.y ∧ LBSP.trunc k.y < rows - 15 ∧ 14 ≤ LBSP.trunc k.x ∧ LBSP.trunc k.x < cols - 15 ∧
      31 ≤ rows ∧ 31 ≤ cols := by
  have hb : border.toNat = 15 := by rw [border_eq]; rfl
  have h : ∃ l, k ∈ LBSP.runByImageBorder rows cols 15 l := by
    unfold keyPoints at hk
    rw [hb] at hk
    dsimp only at hk
    cases mask with
    | none => exact ⟨_, hk⟩
    | some m => exact ⟨_, (List.mem_filter.1 hk).1⟩
  obtain ⟨l, h⟩ := h
  unfold LBSP.runByImageBorder at h
  split at h
  · cases h
  · rw [List.mem_filter, decide_eq_true_eq] at h
    obtain ⟨_, h1, h2, h3, h4⟩ := h
    have a := trunc_nonneg k.x 15 (by norm_num) h1
    have b := trunc_nonneg k.y 15 (by norm_num) h3
    have a2 := trunc_le k.x a.2
    have b2 := trunc_le k.y b.2
    push_cast at h1 h2 h3 h4
    omega

/-- **C113 (key points).** Whatever key points, mask and image are given, describing key points reads nothing out of bounds and gives, for each key point
kept, the dense descriptor of its pixel. It only fails for images of less than 31 rows or columns, and then no key point is kept. -/
theorem detect_spec (filter : Img → Img) (rows cols : Nat) (img : Img) (mask : Option (Int → Int → Bool)) (given : Option (List LBSP.KP)) :
    ∃ ds, detectAndCompute filter rows cols img mask given = some (keyPoints rows cols mask given, ds) ∧
      (keyPoints rows cols mask given = [] → ds = []) ∧
      ∀ d, dense filter rows cols img = some d → ds = (keyPoints rows cols mask given).map fun k => d (LBSP.trunc k.y).toNat (LBSP.trunc k.x).toNat := by
  have hb := kept_bounds rows cols mask given
  unfold detectAndCompute
  dsimp only
  generalize keyPoints rows cols mask given = l at hb
  cases l with
  | nil => exact ⟨[], by rw [if_pos rfl], fun _ => rfl, fun d _ => rfl⟩
  | cons k l =>
    rw [if_neg (by simp)]
    have h31 := hb k (by simp)
    obtain ⟨d, hd⟩ := (dense_unit filter rows cols img).1.1 ⟨by omega, by omega⟩
    rw [hd, Option.bind_some]
    have : ∀ l : List LBSP.KP, (∀ k ∈ l, 14 ≤ LBSP.trunc k.y ∧ LBSP.trunc k.y < rows - 15 ∧ 14 ≤ LBSP.trunc k.x ∧ LBSP.trunc k.x < cols - 15 ∧
        31 ≤ rows ∧ 31 ≤ cols) →
        (l.mapM fun k => if 0 ≤ LBSP.trunc k.y ∧ LBSP.trunc k.y < rows ∧ 0 ≤ LBSP.trunc k.x ∧ LBSP.trunc k.x < cols then
          some (d (LBSP.trunc k.y).toNat (LBSP.trunc k.x).toNat) else none) =
        some (l.map fun k => d (LBSP.trunc k.y).toNat (LBSP.trunc k.x).toNat) := by
      intro l h
      induction l with
      | nil => rfl
      | cons k l ih =>
        have hk := h k (by simp)
        rw [List.mapM_cons, if_pos (by omega), ih fun k hk => h k (by simp [hk])]
        rfl
    rw [this _ hb]
    exact ⟨_, rfl, fun h => absurd h (by simp), fun d' h => by rw [Option.some.inj h]⟩

/-- **C113 (which are kept).** Without a mask, a key point at a pixel is kept exactly if all the samples of the pattern lie in the image. -/
theorem kept_iff (rows cols : Nat) (given : List LBSP.KP) (r q : Nat) (hk : (⟨(q : Rat), (r : Rat)⟩ : LBSP.KP) ∈ given) :
    (⟨(q : Rat), (r : Rat)⟩ : LBSP.KP) ∈ keyPoints rows cols none (some given) ↔
      ∀ o ∈ rp1 ++ rp2, Inside rows cols (r + o.1) (q + o.2) := by
  obtain ⟨h15, -, -, hall, ⟨o1, m1, e1⟩, ⟨o2, m2, e2⟩, ⟨o3, m3, e3⟩, ⟨o4, m4, e4⟩⟩ := pattern_border
  have hc : ∀ n : Nat, LBSP.cvRound (n : Rat) = n := fun n => by
    unfold LBSP.cvRound
    rw [Int.floor_natCast, if_pos (by rw [Int.cast_natCast, sub_self]; norm_num)]
  unfold keyPoints LBSP.runByImageBorder
  rw [show border.toNat = 15 by rw [h15]; rfl]
  rw [h15] at e1 e2 e3 e4 hall
  dsimp only
  constructor
  · intro h o ho
    have ha := hall o ho
    split at h
    · cases h
    · rw [List.mem_filter, decide_eq_true_eq] at h
      dsimp only at h
      rw [hc, hc] at h
      push_cast at h
      unfold Inside
      omega
  · intro h
    have a1 := h o1 (List.mem_append_left _ m1)
    have a2 := h o2 (List.mem_append_left _ m2)
    have a3 := h o3 (List.mem_append_left _ m3)
    have a4 := h o4 (List.mem_append_left _ m4)
    unfold Inside at a1 a2 a3 a4
    rw [if_neg (by omega), List.mem_filter, decide_eq_true_eq]
    dsimp only
    rw [hc, hc]
    push_cast
    exact ⟨hk, by omega, by omega, by omega, by omega⟩

/-- **C113 (masks).** With a mask, exactly the key points at pixels where the mask is set are kept of those kept without it; key points are kept in the order
given, and if none are given every pixel whose samples lie in the image becomes one. -/
theorem kept_masked (rows cols : Nat) (m : Int → Int → Bool) (given : List LBSP.KP) (o : Option (List LBSP.KP)) (r q : Nat) :
    ((⟨(q : Rat), (r : Rat)⟩ : LBSP.KP) ∈ keyPoints rows cols (some m) o ↔
      (⟨(q : Rat), (r : Rat)⟩ : LBSP.KP) ∈ keyPoints rows cols none o ∧ m r q = true) ∧
    (keyPoints rows cols (some m) (some given)).Sublist given ∧ (keyPoints rows cols none (some given)).Sublist given ∧
    ((⟨(q : Rat), (r : Rat)⟩ : LBSP.KP) ∈ keyPoints rows cols none none ↔
      ∀ o ∈ rp1 ++ rp2, Inside rows cols (r + o.1) (q + o.2)) := by
  have ht : ∀ n : Nat, LBSP.trunc ((n : Rat) + 1 / 2) = n := fun n => by
    unfold LBSP.trunc
    rw [if_pos (by positivity), Int.floor_eq_iff]
    push_cast
    constructor <;> linarith
  have hs : ∀ l b, (LBSP.runByImageBorder rows cols b l).Sublist l := fun l b => by
    unfold LBSP.runByImageBorder
    split
    · exact List.nil_sublist _
    · exact List.filter_sublist
  refine ⟨?_, List.filter_sublist.trans (hs _ _), hs _ _, ?_⟩
  · unfold keyPoints
    dsimp only
    rw [List.mem_filter]
    dsimp only
    rw [ht, ht]
  · let all : List LBSP.KP := (List.range rows).flatMap fun (r : Nat) => (List.range cols).map fun (q : Nat) => ⟨(q : Rat), (r : Rat)⟩
    have he : keyPoints rows cols none none = keyPoints rows cols none (some all) := rfl
    have hall : (⟨(q : Rat), (r : Rat)⟩ : LBSP.KP) ∈ all ↔ r < rows ∧ q < cols := by
      simp only [all, List.mem_flatMap, List.mem_range, List.mem_map, LBSP.KP.mk.injEq, Nat.cast_inj]
      constructor
      · rintro ⟨a, ha, b, hb, rfl, rfl⟩; exact ⟨ha, hb⟩
      · rintro ⟨ha, hb⟩; exact ⟨r, ha, q, hb, rfl, rfl⟩
    rw [he]
    constructor
    · intro h
      exact (kept_iff rows cols all r q ((hs _ _).subset h)).1 h
    · intro h
      obtain ⟨h15, -, -, -, ⟨o1, m1, e1⟩, ⟨o2, m2, e2⟩, ⟨o3, m3, e3⟩, ⟨o4, m4, e4⟩⟩ := pattern_border
      have a1 := h o1 (List.mem_append_left _ m1)
      have a2 := h o2 (List.mem_append_left _ m2)
      have a3 := h o3 (List.mem_append_left _ m3)
      have a4 := h o4 (List.mem_append_left _ m4)
      unfold Inside at a1 a2 a3 a4
      rw [h15] at e1 e2 e3 e4
      exact (kept_iff rows cols all r q (hall.2 ⟨by omega, by omega⟩)).2 h

/-- **C113 (complete descriptors, partial).** Key points at pixels from row and column 16 on have a positive value for every sample. -/
theorem kept_complete_partial (sigmaS sigmaR : ℝ) (hs : 0 < sigmaS) (hr : 0 < sigmaR) (iters rows cols : Nat) (hi : 0 < iters) (img oldX oldY : Img)
    (d : Nat → Nat → Nat → ℝ) (h : denseRF sigmaS sigmaR iters rows cols img oldX oldY = some d) (r q : Nat) (h1 : 16 ≤ r) (h2 : r + 15 < rows)
    (h3 : 16 ≤ q) (h4 : q + 15 < cols) (k : Nat) (hk : k < 128) : 0 < d r q k := by
  have hb : ∀ k < 128, -15 ≤ (rp1.getD k (0, 0)).1 ∧ (rp1.getD k (0, 0)).1 ≤ 15 ∧ -15 ≤ (rp1.getD k (0, 0)).2 ∧ (rp1.getD k (0, 0)).2 ≤ 15 := by
    decide +kernel
  have := hb k hk
  exact (dense_ratio sigmaS sigmaR hs hr iters rows cols hi img oldX oldY d h r q k hk (by omega)).1

/-- **C113 (refuted).** A key point at row 15 is kept, all its samples are in the image, but its descriptor has a value that is zero for every image. -/
theorem kept_complete_refuted : ∃ k < 128, ∀ (sigmaS sigmaR : ℝ), 0 < sigmaS → 0 < sigmaR → ∀ (iters : Nat), 0 < iters → ∀ (img oldX oldY : Img)
    (d : Nat → Nat → Nat → ℝ), denseRF sigmaS sigmaR iters 40 40 img oldX oldY = some d →
    (⟨20, 15⟩ : LBSP.KP) ∈ keyPoints 40 40 none (some [⟨20, 15⟩]) ∧ d 15 20 k = 0 := by
  obtain ⟨k, hk, e, h0⟩ := raw_first_row_refuted
  refine ⟨k, hk, fun sigmaS sigmaR hs hr iters hi img oldX oldY d h => ⟨?_, ?_⟩⟩
  · have := kept_iff 40 40 [⟨20, 15⟩] 15 20 (by norm_num)
    have h2 := this.2 (by unfold Inside; decide +kernel)
    exact_mod_cast h2
  · have hin : ∃ j < 128, 0 < 15 + (rp1.getD j (0, 0)).1 ∧ 15 + (rp1.getD j (0, 0)).1 < 40 ∧ 0 < 20 + (rp1.getD j (0, 0)).2 ∧
        20 + (rp1.getD j (0, 0)).2 < 40 := by decide +kernel
    obtain ⟨j, hj, hin⟩ := hin
    obtain ⟨-, n, -, hd⟩ := dense_ratio sigmaS sigmaR hs hr iters 40 40 hi img oldX oldY d h 15 20 j hj (by exact_mod_cast hin)
    rw [hd, h0, zero_div]

end Litiv.DASC
