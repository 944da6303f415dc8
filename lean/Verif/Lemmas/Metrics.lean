import Verif.Spec.Metrics
import Mathlib.Tactic.Ring
import Mathlib.Tactic.Linarith
import Mathlib.Tactic.Positivity
import Mathlib.Data.List.GetD

/-! # Auxiliary lemmas for the evaluation metrics -/

set_option linter.unusedSimpArgs false

namespace Litiv.Metrics

theorem foldlM_range_mul {α : Type} (f : α → Nat → Option α) (s : α) (r c : Nat) :
    (List.range r).foldlM (fun s i => (List.range c).foldlM (fun s j => f s (c * i + j)) s) s =
      (List.range (r * c)).foldlM f s := by
  induction r with
  | zero => simp
  | succ r ih =>
    rw [List.range_succ, List.foldlM_append, ih, Nat.succ_mul, List.range_add, List.foldlM_append]
    simp only [List.foldlM_cons, List.foldlM_nil, List.foldlM_map, bind_pure, Nat.mul_comm c r]

theorem foldlM_range_some {α : Type} (f : α → Nat → Option α) (g : α → Nat → α) (s : α) (n : Nat)
    (h : ∀ s (k : Nat), k < n → f s k = some (g s k)) :
    (List.range n).foldlM f s = some ((List.range n).foldl g s) := by
  induction n with
  | zero => simp
  | succ n ih =>
    rw [List.range_succ, List.foldlM_append, ih (fun s k hk => h s k (by omega)), List.foldl_append]
    simp [h _ n (by omega)]

theorem numPx_succ (n : Nat) (P : Nat → Prop) [Decidable (P n)] :
    numPx (n + 1) P = numPx n P + if P n then 1 else 0 := by
  classical
  unfold numPx
  rw [Finset.range_add_one, Finset.filter_insert]
  by_cases h : P n
  · simp [h]
  · simp [h]

theorem numPx_zero (P : Nat → Prop) : numPx 0 P = 0 := by simp [numPx]

theorem numPx_le (n : Nat) (P : Nat → Prop) : numPx n P ≤ n := by
  classical
  unfold numPx
  exact (Finset.card_filter_le _ _).trans (by simp)

theorem numPx_mono (n : Nat) (P Q : Nat → Prop) (h : ∀ k, P k → Q k) : numPx n P ≤ numPx n Q := by
  classical
  unfold numPx
  exact Finset.card_le_card (fun k hk => by simp only [Finset.mem_filter] at *; exact ⟨hk.1, h k hk.2⟩)

theorem empty_iff (m : Mat8) : m.empty = true ↔ Absent m := by simp [Mat8.empty, Absent]

theorem checkArgs_of {c g r : Mat8} (h : Admissible c g r) : checkArgs c g r = true := by
  have h1 : c.empty = false := by rw [← Bool.not_eq_true, empty_iff]; exact h.nonempty
  have key : ∀ m : Mat8, Absent m ∨ SameSize c m → (m.empty || c.sameSize m) = true := by
    rintro m (hm | hm)
    · simp [(empty_iff m).2 hm]
    · simp [Mat8.sameSize, hm.1, hm.2]
  unfold checkArgs
  rw [h1, Bool.not_false, Bool.true_and, Bool.and_eq_true]
  exact ⟨key g h.gt_size, key r h.roi_size⟩

/-- The region-of-interest value in the form the loop body uses. -/
noncomputable def roiVal (roi : Mat8) (k : Nat) : Option UInt8 := if roi.empty then none else some (px roi k)

theorem data_get (m : Mat8) (hv : m.Valid) (k : Nat) (hk : k < m.rows * m.cols) : m.data[k]? = some (px m k) := by
  have : k < m.data.length := by rw [hv]; exact hk
  rw [px, List.getD_eq_getElem _ _ this, List.getElem?_eq_getElem this]

theorem reads {c g r : Mat8} (h : Admissible c g r) (hg : ¬ Absent g) (k : Nat) (hk : k < c.rows * c.cols) :
    c.data[k]? = some (px c k) ∧ g.data[k]? = some (px g k) ∧ roiAt r k = some (roiVal r k) := by
  refine ⟨data_get c h.classif_valid k hk, ?_, ?_⟩
  · have hs := h.gt_size.resolve_left hg
    exact data_get g h.gt_valid k (by rw [← hs.1, ← hs.2]; exact hk)
  · unfold roiAt roiVal
    by_cases hr : Absent r
    · simp [(empty_iff r).2 hr]
    · have hs := h.roi_size.resolve_left hr
      have : r.empty = false := by rw [← Bool.not_eq_true, empty_iff]; exact hr
      simp [this, data_get r h.roi_valid k (by rw [← hs.1, ← hs.2]; exact hk)]

theorem accImage_foldl (s : BinClassif) {c g r : Mat8} (h : Admissible c g r) (hg : ¬ Absent g) :
    s.accImage c g r =
      some ((List.range c.area).foldl (fun s k => countPixel s (px c k) (px g k) (roiVal r k)) s) := by
  have hge : g.empty = false := by rw [← Bool.not_eq_true, empty_iff]; exact hg
  unfold BinClassif.accImage
  rw [checkArgs_of h, hge]
  simp only [Bool.not_true, Bool.false_eq_true, if_false]
  rw [foldlM_range_mul (fun s k => do
        let x ← c.data[k]?
        let g ← g.data[k]?
        let r ← roiAt r k
        return countPixel s x g r)]
  apply foldlM_range_some
  intro s k hk
  obtain ⟨h1, h2, h3⟩ := reads h hg k hk
  simp [h1, h2, h3]

theorem evaluated_iff (g r : Mat8) (k : Nat) :
    (px g k ≠ 85 ∧ px g k ≠ 170 ∧ (roiVal r k = none ∨ roiVal r k ≠ some 0)) ↔ Evaluated g r k := by
  unfold Evaluated roiVal
  by_cases hr : Absent r
  · simp [(empty_iff r).2 hr, hr]
  · have : r.empty = false := by rw [← Bool.not_eq_true, empty_iff]; exact hr
    simp [this, hr]

open Classical in
theorem fold_counts (s : BinClassif) (c g r : Mat8) (n : Nat) :
    (List.range n).foldl (fun s k => countPixel s (px c k) (px g k) (roiVal r k)) s =
      { tp := s.tp + UInt64.ofNat (numPx n fun k => Evaluated g r k ∧ px c k = 255 ∧ px g k = 255)
        tn := s.tn + UInt64.ofNat (numPx n fun k => Evaluated g r k ∧ px c k ≠ 255 ∧ px g k ≠ 255)
        fp := s.fp + UInt64.ofNat (numPx n fun k => Evaluated g r k ∧ px c k = 255 ∧ px g k ≠ 255)
        fn := s.fn + UInt64.ofNat (numPx n fun k => Evaluated g r k ∧ px c k ≠ 255 ∧ px g k = 255)
        se := s.se + UInt64.ofNat (numPx n fun k => Evaluated g r k ∧ px c k = 255 ∧ px g k = 50)
        dc := s.dc + UInt64.ofNat (numPx n fun k => ¬ Evaluated g r k) } := by
  induction n with
  | zero => simp [numPx_zero]
  | succ n ih =>
    rw [List.range_succ, List.foldl_append, ih]
    simp only [List.foldl_cons, List.foldl_nil, countPixel, evaluated_iff, numPx_succ]
    by_cases he : Evaluated g r n
    · by_cases hx : px c n = 255
      · by_cases hg : px g n = 255
        · have h50 : px g n ≠ 50 := by rw [hg]; decide
          simp [he, hx, hg, countEvaluated, UInt64.ofNat_add, UInt64.add_assoc]
        · by_cases h50 : px g n = 50
          · simp [he, hx, h50, countEvaluated, UInt64.ofNat_add, UInt64.add_assoc]
          · simp [he, hx, hg, h50, countEvaluated, UInt64.ofNat_add, UInt64.add_assoc]
      · by_cases hg : px g n = 255
        · simp [he, hx, hg, countEvaluated, UInt64.ofNat_add, UInt64.add_assoc]
        · by_cases h50 : px g n = 50
          · simp [he, hx, h50, countEvaluated, UInt64.ofNat_add, UInt64.add_assoc]
          · simp [he, hx, hg, h50, countEvaluated, UInt64.ofNat_add, UInt64.add_assoc]
    · simp [he, UInt64.ofNat_add, UInt64.add_assoc]

open Classical in
theorem numPx_partition (c g r : Mat8) (n : Nat) :
    numPx n (fun k => Evaluated g r k ∧ px c k = 255 ∧ px g k = 255) +
    numPx n (fun k => Evaluated g r k ∧ px c k ≠ 255 ∧ px g k ≠ 255) +
    numPx n (fun k => Evaluated g r k ∧ px c k = 255 ∧ px g k ≠ 255) +
    numPx n (fun k => Evaluated g r k ∧ px c k ≠ 255 ∧ px g k = 255) +
    numPx n (fun k => ¬ Evaluated g r k) = n := by
  induction n with
  | zero => simp [numPx_zero]
  | succ n ih =>
    simp only [numPx_succ]
    simp only [Ne] at ih ⊢
    by_cases he : Evaluated g r n <;> by_cases hx : px c n = 255 <;> by_cases hg : px g n = 255 <;>
      simp only [he, hx, hg, not_true, not_false_iff, and_true, and_false, true_and, false_and, if_true, if_false,
        and_self] <;> omega

/-! ### Counters form a commutative monoid -/

theorem acc_assoc (a b c : BinClassif) : (a.acc b).acc c = a.acc (b.acc c) := by
  simp [BinClassif.acc, UInt64.add_assoc]

theorem acc_comm (a b : BinClassif) : a.acc b = b.acc a := by
  simp [BinClassif.acc, UInt64.add_comm]

theorem zero_acc (a : BinClassif) : BinClassif.acc {} a = a := by simp [BinClassif.acc]

theorem foldl_acc_init (l : List BinClassif) (s : BinClassif) :
    l.foldl BinClassif.acc s = s.acc (l.foldl BinClassif.acc {}) := by
  induction l generalizing s with
  | nil => simp [BinClassif.acc]
  | cons a l ih => rw [List.foldl_cons, List.foldl_cons, ih, ih (BinClassif.acc {} a), zero_acc, acc_assoc]

/-! ### Real-number facts -/

theorem pos_iff (n : UInt64) : n > 0 ↔ n.toNat ≠ 0 := by
  rw [gt_iff_lt, UInt64.lt_iff_toNat_lt]
  simp [Nat.pos_iff_ne_zero]

theorem toR_add (a b : UInt64) (h : a.toNat + b.toNat < 2^64) : toR (a + b) = toR a + toR b := by
  unfold toR
  rw [UInt64.toNat_add, Nat.mod_eq_of_lt h, Nat.cast_add]

theorem toNat_add_of_lt (a b : UInt64) (h : a.toNat + b.toNat < 2^64) : (a + b).toNat = a.toNat + b.toNat := by
  rw [UInt64.toNat_add, Nat.mod_eq_of_lt h]

theorem toNat_add_ofNat (a : UInt64) (n : Nat) (h : a.toNat + n < 2^64) : (a + UInt64.ofNat n).toNat = a.toNat + n := by
  have : (UInt64.ofNat n).toNat = n := by rw [UInt64.toNat_ofNat', Nat.mod_eq_of_lt (by omega)]
  rw [toNat_add_of_lt _ _ (by rw [this]; exact h), this]

theorem toR_nonneg (a : UInt64) : 0 ≤ toR a := Nat.cast_nonneg _

theorem divc_of_ne (a b : ℝ) (h : b ≠ 0) : divc a b = some (a / b) := by simp [divc, h]

/-- A guarded ratio of a part to the (non-wrapping) whole. -/
theorem ratio_spec (a b : UInt64) (h : a.toNat + b.toNat < 2^64) :
    (if a + b > 0 then divc (toR a) (toR (a + b)) else some 0) = some (toR a / (toR a + toR b)) := by
  by_cases hp : a + b > 0
  · have hne : toR (a + b) ≠ 0 := by
      unfold toR; exact Nat.cast_ne_zero.2 ((pos_iff _).1 hp)
    rw [if_pos hp, divc_of_ne _ _ hne, toR_add a b h]
  · rw [if_neg hp]
    have h0 : (a + b).toNat = 0 := by
      by_contra hc; exact hp ((pos_iff _).2 hc)
    rw [UInt64.toNat_add, Nat.mod_eq_of_lt h] at h0
    have ha : a.toNat = 0 := by omega
    simp [toR, ha]

theorem ratio_range (a b : ℝ) (ha : 0 ≤ a) (hb : 0 ≤ b) : 0 ≤ a / (a + b) ∧ a / (a + b) ≤ 1 := by
  refine ⟨by positivity, ?_⟩
  by_cases h : a + b = 0
  · simp [h]
  · rw [div_le_one (lt_of_le_of_ne (by positivity) (Ne.symm h))]
    linarith

end Litiv.Metrics
