import Verif.Spec.BgImage
import Verif.Lemmas.IEEE
import Verif.Lemmas.Consensus

namespace Litiv.BgImage
open IEEE Spec

theorem foldlM_flatMap' {σ α β : Type} (g : σ → β → Option σ) (f : α → List β) (l : List α) (s : σ) :
    (l.flatMap f).foldlM g s = l.foldlM (fun s a => (f a).foldlM g s) s := by
  induction l generalizing s with
  | nil => rfl
  | cons a l ih =>
    rw [List.flatMap_cons, List.foldlM_append, List.foldlM_cons]
    cases (f a).foldlM g s with
    | none => rfl
    | some s' => exact ih s'

theorem foldlM_map' {σ α β : Type} (g : σ → β → Option σ) (f : α → β) (l : List α) (s : σ) :
    (l.map f).foldlM g s = l.foldlM (fun s a => g s (f a)) s := by
  induction l generalizing s with
  | nil => rfl
  | cons a l ih =>
    rw [List.map_cons, List.foldlM_cons, List.foldlM_cons]
    cases g s (f a) with
    | none => rfl
    | some s' => exact ih s'

theorem flat (a b base : Nat) :
    (List.range a).flatMap (fun i => (List.range b).map fun j => base + b * i + j) = (List.range (a * b)).map (base + ·) := by
  induction a with
  | zero => simp
  | succ a ih =>
    rw [List.range_succ, List.flatMap_append, ih, Nat.succ_mul, List.range_add, List.map_append]
    congr 1
    rw [List.flatMap_singleton, List.map_map]
    refine List.map_congr_left fun j _ => ?_
    show base + b * a + j = base + (a * b + j)
    rw [Nat.mul_comm a b]; omega

/-- With a continuous sample image the loops visit the elements in order. -/
theorem addSample_range (rd : ℚ → ℚ) (n total h w ch : Nat) (smp : Samples) (acc : Nat → ℚ) :
    addSample rd n total h w ch (w * ch) smp acc = (List.range (h * (w * ch))).foldlM (fun acc a => addCell rd n total smp a acc) acc := by
  have e1 : ∀ y, (List.range w).flatMap (fun x => (List.range ch).map fun c => cellAddr (w * ch) ch y x c) =
      (List.range (w * ch)).map (w * ch * y + ·) := fun y => flat w ch (w * ch * y)
  have e2 : (List.range h).flatMap (fun y => (List.range (w * ch)).map (w * ch * y + ·)) = List.range (h * (w * ch)) := by
    have := flat h (w * ch) 0
    simp only [Nat.zero_add] at this
    rw [this, List.map_id']
  rw [← e2, foldlM_flatMap']
  unfold addSample
  congr 1
  funext acc y
  rw [← e1 y, foldlM_flatMap']
  congr 1
  funext acc x
  rw [foldlM_map']

/-- One sample image is added to every element. -/
theorem addSample_spec (rd : ℚ → ℚ) (n h w ch : Nat) (smp : Samples) (hs : h * w * ch ≤ smp.size) (acc : Nat → ℚ) :
    ∃ acc', addSample rd n (h * w * ch) h w ch (w * ch) smp acc = some acc' ∧
      ∀ a < h * w * ch, acc' a = rd (acc a + rd ((smp.at_ a : ℚ) / n)) := by
  rw [addSample_range, ← Nat.mul_assoc]
  obtain ⟨acc', e, h1⟩ := Consensus.foldlM_inv (fun acc a => addCell rd n (h * w * ch) smp a acc) (List.range (h * w * ch))
    (fun pre acc' => ∀ a, acc' a = if a ∈ pre then rd (acc a + rd ((smp.at_ a : ℚ) / n)) else acc a) (by
      intro pre a post acc1 e h1
      have ha : a < h * w * ch := by
        have : a ∈ List.range (h * w * ch) := by rw [e]; simp
        exact List.mem_range.1 this
      have hn : a ∉ pre := by
        have := (List.nodup_range (n := h * w * ch))
        rw [e] at this
        intro hm
        exact (List.nodup_append.1 this).2.2 a hm a (by simp) rfl
      refine ⟨_, if_pos ⟨by omega, ha⟩, fun b => ?_⟩
      by_cases hb : b = a
      · subst hb
        rw [if_pos rfl, if_pos (by simp), h1, if_neg hn]
      · rw [if_neg hb, h1 b]
        simp [hb]) acc (by intro a; simp)
  exact ⟨acc', e, fun a ha => by rw [h1 a, if_pos (List.mem_range.2 ha)]⟩

/-- The accumulated value of an element. -/
def accum (rd : ℚ → ℚ) (n : Nat) (vs : List ℚ) : ℚ := vs.foldl (fun a v => rd (a + rd (v / n))) 0

theorem bgImage_spec (rd : ℚ → ℚ) (bits h w ch : Nat) (smps : List Samples) (hs : ∀ s ∈ smps, h * w * ch ≤ s.size) :
    ∃ img, bgImage rd bits h w ch (w * ch) smps = some img ∧ ∀ y < h, ∀ x < w, ∀ c < ch,
      img y x c = convert bits (accum rd smps.length (valuesAt w ch smps y x c)) := by
  obtain ⟨acc, e, h1⟩ := Consensus.foldlM_inv (fun acc s => addSample rd smps.length (h * w * ch) h w ch (w * ch) s acc) smps
    (fun pre acc => ∀ a < h * w * ch, acc a = accum rd smps.length (pre.map fun s => (s.at_ a : ℚ))) (by
      intro pre s post acc e h1
      obtain ⟨acc', e', h2⟩ := addSample_spec rd smps.length h w ch s (hs s (by rw [e]; simp)) acc
      refine ⟨acc', e', fun a ha => ?_⟩
      rw [h2 a ha, h1 a ha]
      unfold accum
      rw [List.map_append, List.foldl_append]
      rfl) (fun _ => 0) (by intro a _; rfl)
  refine ⟨_, by unfold bgImage; rw [e]; rfl, fun y hy x hx c hc => ?_⟩
  have hlt : cellAddr (w * ch) ch y x c < h * w * ch := by
    unfold cellAddr
    have a1 : ch * x + ch ≤ w * ch := by
      calc ch * x + ch = (x + 1) * ch := by ring
        _ ≤ w * ch := Nat.mul_le_mul_right _ hx
    have a2 : w * ch * y + w * ch ≤ h * w * ch := by
      calc w * ch * y + w * ch = (y + 1) * (w * ch) := by ring
        _ ≤ h * (w * ch) := Nat.mul_le_mul_right _ hy
        _ = h * w * ch := by ring
    omega
  dsimp only
  rw [h1 _ hlt]
  have : cellAddr (w * ch) ch y x c = (y * w + x) * ch + c := by unfold cellAddr; ring
  rw [this]
  rfl

/-! ## Rounding -/

/-- Rounding error of a number below `2^B`. -/
theorem fl_error_le (p : Nat) (B : Int) (x : ℚ) (h0 : 0 ≤ x) (h1 : x < (2 : ℚ) ^ B) : |fl p x - x| ≤ (2 : ℚ) ^ (B - 1 - p) := by
  rcases h0.eq_or_lt with rfl | hx
  · rw [fl_zero]; simp; exact (zpow_pos (show (0 : ℚ) < 2 by norm_num) _).le
  unfold fl
  rw [if_neg hx.ne', abs_of_pos hx]
  have hb := Lut.roundEven_bound (x * (2 : ℚ) ^ ((p : Int) - 1 - Lut.ilog x))
  have he : Lut.ilog x ≤ B - 1 := by
    have := (zpow_lt_iff (Lut.ilog x) B).1 (lt_of_le_of_lt (Lut.ilog_le x hx) h1)
    omega
  have hz : (0 : ℚ) < (2 : ℚ) ^ (Lut.ilog x - ((p : Int) - 1)) := zpow_pos (by norm_num) _
  have hxx : x = (x * (2 : ℚ) ^ ((p : Int) - 1 - Lut.ilog x)) * (2 : ℚ) ^ (Lut.ilog x - ((p : Int) - 1)) := by
    rw [mul_assoc, ← zpow_add₀ (by norm_num : (2 : ℚ) ≠ 0)]
    have : (p : Int) - 1 - Lut.ilog x + (Lut.ilog x - ((p : Int) - 1)) = 0 := by ring
    rw [this, zpow_zero, mul_one]
  conv_lhs => rw [show ∀ a : ℚ, a - x = a - (x * (2 : ℚ) ^ ((p : Int) - 1 - Lut.ilog x)) * (2 : ℚ) ^ (Lut.ilog x - ((p : Int) - 1)) from fun a => by rw [← hxx]]
  rw [← sub_mul, abs_mul, abs_of_pos hz]
  refine le_trans (mul_le_mul_of_nonneg_right hb hz.le) ?_
  have : (1 / 2 : ℚ) = (2 : ℚ) ^ (-1 : Int) := by norm_num
  rw [this, ← zpow_add₀ (by norm_num : (2 : ℚ) ≠ 0), zpow_le_iff]
  omega

theorem accum_nonneg (n : Nat) (vs : List ℚ) (hv : ∀ v ∈ vs, 0 ≤ v) : 0 ≤ accum float32 n vs := by
  induction vs using List.reverseRecOn with
  | nil => simp [accum]
  | append_singleton vs u ih2 =>
    unfold accum
    rw [List.foldl_append]
    have h1 := ih2 fun v hm => hv v (List.mem_append_left _ hm)
    exact fl_nonneg 24 (by norm_num) _ (add_nonneg h1 (fl_nonneg 24 (by norm_num) _ (div_nonneg (hv u (by simp)) (Nat.cast_nonneg n))))

/-- The accumulated value is close to the mean; `e` bounds the error of an operation below `2^bits`. -/
theorem accum_err (bits n : Nat) (hn : 0 < n) (hsmall : n * 2 ^ (bits + 1) < 2 ^ 24) (vs : List ℚ) (hl : vs.length ≤ n)
    (hv : ∀ v ∈ vs, 0 ≤ v ∧ v ≤ 2 ^ bits - 1) :
    |accum float32 n vs - vs.sum / n| ≤ vs.length * (2 * (2 : ℚ) ^ ((bits : Int) - 25)) := by
  have hnq : (0 : ℚ) < n := by exact_mod_cast hn
  have he : (n : ℚ) * (2 * (2 : ℚ) ^ ((bits : Int) - 25)) < 1 / 2 := by
    have h1 : (n : ℚ) * 2 ^ (bits + 1) < 2 ^ 24 := by exact_mod_cast hsmall
    have h2 : (2 : ℚ) ^ ((bits : Int) - 25) = 2 ^ bits / 2 ^ 25 := by
      rw [zpow_sub₀ (by norm_num), zpow_natCast]; norm_num
    rw [h2]
    rw [pow_succ] at h1
    have : (2 : ℚ) ^ 25 = 2 ^ 24 * 2 := by norm_num
    rw [this]
    rw [show (n : ℚ) * (2 * (2 ^ bits / (2 ^ 24 * 2))) = (n * (2 ^ bits * 2)) / 2 ^ 24 * (1 / 2) by field_simp]
    have : (n * ((2 : ℚ) ^ bits * 2)) / 2 ^ 24 < 1 := by rw [div_lt_one (by norm_num)]; exact h1
    linarith
  have hpos : (0 : ℚ) < (2 : ℚ) ^ ((bits : Int) - 25) := zpow_pos (by norm_num) _
  have hb2 : (2 : ℚ) ^ ((bits : Int)) = 2 ^ bits := zpow_natCast _ _
  induction vs using List.reverseRecOn with
  | nil => simp [accum]
  | append_singleton vs v ih =>
    rw [List.length_append, List.length_singleton] at hl
    have ih := ih (by omega) (fun v hm => hv v (List.mem_append_left _ hm))
    obtain ⟨v0, v1⟩ := hv v (by simp)
    have hlq : (vs.length : ℚ) ≤ n := by exact_mod_cast (by omega : vs.length ≤ n)
    have hlq1 : (vs.length : ℚ) + 1 ≤ n := by exact_mod_cast hl
    -- the exact partial sums
    have hsum : vs.sum / n + v / n ≤ 2 ^ bits - 1 := by
      have key : ∀ l : List ℚ, (∀ v ∈ l, 0 ≤ v ∧ v ≤ (2 : ℚ) ^ bits - 1) → l.sum ≤ l.length * ((2 : ℚ) ^ bits - 1) := by
        intro l
        induction l with
        | nil => intro _; simp
        | cons a l ih2 =>
          intro h
          have := ih2 fun v hm => h v (List.mem_cons_of_mem _ hm)
          have := (h a List.mem_cons_self).2
          rw [List.sum_cons, List.length_cons]; push_cast; linarith
      have h1 := key vs fun v hm => hv v (List.mem_append_left _ hm)
      have hB : (0 : ℚ) ≤ 2 ^ bits - 1 := le_trans v0 v1
      rw [← add_div, div_le_iff₀ hnq]
      nlinarith
    have hsum0 : 0 ≤ vs.sum / n := by
      refine div_nonneg (List.sum_nonneg fun v hm => (hv v (List.mem_append_left _ hm)).1) hnq.le
    have hv0 : 0 ≤ v / n := div_nonneg v0 hnq.le
    have hacc0 := accum_nonneg n vs fun v hm => (hv v (List.mem_append_left _ hm)).1
    have e1 := fl_error_le 24 bits (v / n) hv0 (by rw [hb2]; linarith)
    have ex : (bits : Int) - 1 - ((24 : Nat) : Int) = (bits : Int) - 25 := by push_cast; ring
    rw [ex] at e1
    have f0 : 0 ≤ float32 (v / n) := fl_nonneg 24 (by norm_num) _ hv0
    have e1' := abs_le.1 e1
    have ih' := abs_le.1 ih
    have hnb : (vs.length : ℚ) * (2 * (2 : ℚ) ^ ((bits : Int) - 25)) + 2 * (2 : ℚ) ^ ((bits : Int) - 25) < 1 / 2 := by nlinarith
    have e2 := fl_error_le 24 bits (accum float32 n vs + float32 (v / n)) (add_nonneg hacc0 f0) (by
      rw [hb2]
      have : float32 (v / n) = fl 24 (v / n) := rfl
      rw [this]
      linarith [e1'.2, ih'.2])
    rw [ex] at e2
    have e2' := abs_le.1 e2
    have hstep : accum float32 n (vs ++ [v]) = fl 24 (accum float32 n vs + float32 (v / n)) := by
      unfold accum
      rw [List.foldl_append]
      rfl
    rw [hstep, List.sum_append, List.sum_singleton, add_div, List.length_append, List.length_singleton, abs_le]
    push_cast
    have : float32 (v / n) = fl 24 (v / n) := rfl
    rw [this] at e2' ⊢
    constructor <;> linarith [e1'.1, e1'.2, e2'.1, e2'.2, ih'.1, ih'.2]

theorem accum_half (bits n : Nat) (hn : 0 < n) (hsmall : n * 2 ^ (bits + 1) < 2 ^ 24) (vs : List ℚ) (hl : vs.length = n)
    (hv : ∀ v ∈ vs, 0 ≤ v ∧ v ≤ 2 ^ bits - 1) : |accum float32 n vs - mean vs| ≤ n * 2 ^ bits / 2 ^ 24 ∧ (n : ℚ) * 2 ^ bits / 2 ^ 24 < 1 / 2 := by
  have h := accum_err bits n hn hsmall vs hl.le hv
  have h2 : (2 : ℚ) ^ ((bits : Int) - 25) = 2 ^ bits / 2 ^ 25 := by
    rw [zpow_sub₀ (by norm_num), zpow_natCast]; norm_num
  unfold mean
  rw [hl] at h ⊢
  refine ⟨le_trans h (le_of_eq ?_), ?_⟩
  · rw [h2, show (2 : ℚ) ^ 25 = 2 ^ 24 * 2 by norm_num]; field_simp
  · have h1 : (n : ℚ) * 2 ^ (bits + 1) < 2 ^ 24 := by exact_mod_cast hsmall
    rw [pow_succ] at h1
    rw [div_lt_iff₀ (by norm_num)]
    linarith

/-- Conversion of a number closer than half to a number between two whole ones. -/
theorem convert_between (bits lo hi : Nat) (q m : ℚ) (h1 : (lo : ℚ) ≤ m) (h2 : m ≤ hi) (hhi : hi ≤ 2 ^ bits - 1) (hq : |q - m| < 1 / 2) :
    lo ≤ convert bits q ∧ convert bits q ≤ hi ∧ (convert bits q : ℤ) = Lut.roundEven q := by
  have hb := abs_le.1 (Lut.roundEven_bound q)
  have hq' := abs_lt.1 hq
  have g1 : ((lo : Int) : ℚ) < ((Lut.roundEven q + 1 : Int) : ℚ) := by push_cast; linarith [hb.1]
  have g2 : ((Lut.roundEven q : Int) : ℚ) < (((hi : Int) + 1 : Int) : ℚ) := by push_cast; linarith [hb.2]
  have g1 := Int.cast_lt.1 g1
  have g2 := Int.cast_lt.1 g2
  have hp : 1 ≤ 2 ^ bits := Nat.one_le_two_pow
  have hc : (hi : Int) ≤ 2 ^ bits - 1 := by
    have : (hi : Int) + 1 ≤ ((2 ^ bits : Nat) : Int) := by exact_mod_cast (by omega : hi + 1 ≤ 2 ^ bits)
    push_cast at this; omega
  unfold convert
  rw [min_eq_right (by omega), max_eq_right (by omega)]
  omega

end Litiv.BgImage
