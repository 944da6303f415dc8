import Mathlib.Algebra.BigOperators.Ring.Finset
import Mathlib.Algebra.BigOperators.Field
import Mathlib.Algebra.Order.BigOperators.Ring.Finset
import Mathlib.Algebra.Order.Chebyshev
import Mathlib.Tactic.Linarith
import Mathlib.Tactic.FieldSimp
import Verif.Model.DASC
import Verif.Spec.DASC

namespace Litiv.DASC

open Spec

/-! ## Filling -/

theorem fill_get (l : List (Nat × Nat)) (f : Nat → Nat → ℝ) (m : Img) (r q : Nat) : fill l f m r q = if (r, q) ∈ l then f r q else m r q := by
  unfold fill
  induction l generalizing m with
  | nil => simp
  | cons a l ih =>
    rw [List.foldl_cons, ih]
    by_cases h : (r, q) ∈ l
    · simp [h]
    · by_cases h2 : (r, q) = a
      · subst h2; simp [h]
      · have : ¬ (r = a.1 ∧ q = a.2) := fun e => h2 (Prod.ext e.1 e.2)
        simp [h, h2, this]

theorem mem_loops (r0 r1 q0 q1 r q : Nat) : (r, q) ∈ loops r0 r1 q0 q1 ↔ (r0 ≤ r ∧ r < r1) ∧ (q0 ≤ q ∧ q < q1) := by
  unfold loops
  simp only [List.mem_flatMap, List.mem_range'_1, List.mem_map, Prod.mk.injEq]
  constructor
  · rintro ⟨a, h, b, h2, rfl, rfl⟩; omega
  · rintro ⟨h, h2⟩; exact ⟨r, by omega, q, by omega, rfl, rfl⟩

/-! ## Passes over a line -/

section line
variable (v : Nat → ℝ)

theorem fwd_fold (x : Nat → ℝ) (m : Nat) :
    let y := (List.range m).foldl (fun x i => Function.update x (i + 1) (x (i + 1) + v (i + 1) * (x i - x (i + 1)))) x
    y 0 = x 0 ∧ (∀ i < m, y (i + 1) = (1 - v (i + 1)) * x (i + 1) + v (i + 1) * y i) ∧ ∀ i, m < i → y i = x i := by
  induction m with
  | zero => simp
  | succ m ih =>
    rw [List.range_succ, List.foldl_append]
    simp only [List.foldl_cons, List.foldl_nil]
    generalize (List.range m).foldl (fun x i => Function.update x (i + 1) (x (i + 1) + v (i + 1) * (x i - x (i + 1)))) x = y at ih
    obtain ⟨h0, h1, h2⟩ := ih
    refine ⟨?_, ?_, ?_⟩
    · rw [Function.update_of_ne (by omega), h0]
    · intro i hi
      by_cases e : i = m
      · subst e
        rw [Function.update_self, Function.update_of_ne (by omega), h2 (i + 1) (by omega)]
        ring
      · rw [Function.update_of_ne (by omega), Function.update_of_ne (by omega), h1 i (by omega)]
    · intro i hi
      rw [Function.update_of_ne (by omega), h2 i (by omega)]

theorem bwd_fold (m : Nat) : ∀ x : Nat → ℝ,
    let y := (List.range m).reverse.foldl (fun x i => Function.update x i (x i + v (i + 1) * (x (i + 1) - x i))) x
    (∀ i, m ≤ i → y i = x i) ∧ ∀ i < m, y i = (1 - v (i + 1)) * x i + v (i + 1) * y (i + 1) := by
  induction m with
  | zero => intro x; simp
  | succ m ih =>
    intro x
    rw [List.range_succ, List.reverse_append]
    simp only [List.reverse_cons, List.reverse_nil, List.nil_append, List.singleton_append, List.foldl_cons]
    obtain ⟨h1, h2⟩ := ih (Function.update x m (x m + v (m + 1) * (x (m + 1) - x m)))
    refine ⟨fun i hi => ?_, fun i hi => ?_⟩
    · rw [h1 i (by omega), Function.update_of_ne (by omega)]
    · by_cases e : i = m
      · subst e
        rw [h1 i le_rfl, h1 (i + 1) (by omega), Function.update_self, Function.update_of_ne (by omega)]
        ring
      · rw [h2 i (by omega), Function.update_of_ne (by omega)]

theorem rowPass_spec (n : Nat) (hn : 0 < n) (x : Nat → ℝ) : ∃ y, Forward n v x y ∧ Backward n v y (rowPass n v x) := by
  obtain ⟨h0, h1, h2⟩ := fwd_fold v x (n - 1)
  obtain ⟨g1, g2⟩ := bwd_fold v (n - 1)
    ((List.range (n - 1)).foldl (fun x i => Function.update x (i + 1) (x (i + 1) + v (i + 1) * (x i - x (i + 1)))) x)
  exact ⟨_, ⟨h0, fun i hi => h1 i (by omega)⟩, g1 (n - 1) le_rfl, fun i hi => g2 i (by omega)⟩

/-- Weights along a chain of positions. -/
noncomputable def chain (pos : Nat → Nat) (c : Nat → ℝ) : Nat → Nat → ℝ
  | 0, j => if j = pos 0 then 1 else 0
  | m + 1, j => (1 - c m) * (if j = pos (m + 1) then 1 else 0) + c m * chain pos c m j

variable (pos : Nat → Nat) (c : Nat → ℝ) (n : Nat)

theorem chain_nonneg (hc : ∀ m, m + 1 < n → 0 < c m ∧ c m < 1) (m : Nat) (hm : m < n) (j : Nat) : 0 ≤ chain pos c m j := by
  induction m with
  | zero => unfold chain; split <;> norm_num
  | succ m ih =>
    unfold chain
    have := hc m hm
    have h3 := ih (by omega)
    refine add_nonneg (mul_nonneg (by linarith) ?_) (mul_nonneg (by linarith) h3)
    split <;> norm_num

theorem chain_pos (hc : ∀ m, m + 1 < n → 0 < c m ∧ c m < 1) (m : Nat) (hm : m < n) (k : Nat) (hk : k ≤ m) : 0 < chain pos c m (pos k) := by
  induction m with
  | zero => obtain rfl : k = 0 := by omega
            unfold chain; rw [if_pos rfl]; norm_num
  | succ m ih =>
    unfold chain
    have := hc m hm
    have h3 := chain_nonneg pos c n hc m (by omega) (pos k)
    by_cases e : k = m + 1
    · subst e
      rw [if_pos rfl, mul_one]
      have := mul_nonneg this.1.le h3
      linarith
    · have h4 := ih (by omega) (by omega)
      refine add_pos_of_nonneg_of_pos (mul_nonneg (by linarith) ?_) (mul_pos this.1 h4)
      split <;> norm_num

theorem chain_eval (hp : ∀ m < n, pos m < n) (x y : Nat → ℝ) (h0 : y (pos 0) = x (pos 0))
    (h1 : ∀ m, m + 1 < n → y (pos (m + 1)) = (1 - c m) * x (pos (m + 1)) + c m * y (pos m)) (m : Nat) (hm : m < n) :
    y (pos m) = ∑ j ∈ Finset.range n, chain pos c m j * x j := by
  induction m with
  | zero =>
    unfold chain
    simp only [ite_mul, one_mul, zero_mul]
    rw [Finset.sum_ite_eq', if_pos (Finset.mem_range.2 (hp 0 hm)), h0]
  | succ m ih =>
    unfold chain
    rw [h1 m hm, ih (by omega), Finset.mul_sum]
    simp only [add_mul, mul_assoc]
    rw [Finset.sum_add_distrib]
    congr 1
    rw [← Finset.mul_sum]
    simp only [ite_mul, one_mul, zero_mul]
    rw [Finset.sum_ite_eq', if_pos (Finset.mem_range.2 (hp _ hm))]

theorem chain_one (hp : ∀ m < n, pos m < n) (m : Nat) (hm : m < n) : ∑ j ∈ Finset.range n, chain pos c m j = 1 := by
  have := chain_eval pos c n hp (fun _ => 1) (fun _ => 1) rfl (fun m _ => by ring) m hm
  simpa using this.symm

end line

/-- A pass over a line gives positive weighted means. -/
theorem rowPass_weights (n : Nat) (v : Nat → ℝ) (hv : ∀ i, 0 < i → i < n → 0 < v i ∧ v i < 1) :
    ∃ w : Nat → Nat → ℝ, (∀ i < n, ∀ j < n, 0 < w i j) ∧ (∀ i < n, ∑ j ∈ Finset.range n, w i j = 1) ∧
      ∀ x, ∀ i < n, rowPass n v x i = ∑ j ∈ Finset.range n, w i j * x j := by
  let cf : Nat → ℝ := fun m => v (m + 1)
  let cb : Nat → ℝ := fun m => v (n - 1 - m)
  let pb : Nat → Nat := fun m => n - 1 - m
  have hcf : ∀ m, m + 1 < n → 0 < cf m ∧ cf m < 1 := fun m hm => hv _ (by omega) hm
  have hcb : ∀ m, m + 1 < n → 0 < cb m ∧ cb m < 1 := fun m hm => hv _ (by omega) (by omega)
  have hpf : ∀ m < n, id m < n := fun m hm => hm
  have hpb : ∀ m < n, pb m < n := fun m hm => by show n - 1 - m < n; omega
  let wf := chain id cf
  let wb : Nat → Nat → ℝ := fun i => chain pb cb (n - 1 - i)
  refine ⟨fun i j => ∑ k ∈ Finset.range n, wb i k * wf k j, ?_, ?_, ?_⟩
  · intro i hi j hj
    refine Finset.sum_pos' (fun k hk => mul_nonneg (chain_nonneg pb cb n hcb _ (by omega) _) (chain_nonneg id cf n hcf _ (Finset.mem_range.1 hk) _))
      ⟨max i j, Finset.mem_range.2 (by omega), mul_pos ?_ ?_⟩
    · have := chain_pos pb cb n hcb (n - 1 - i) (by omega) (n - 1 - max i j) (by omega)
      have e : pb (n - 1 - max i j) = max i j := by show n - 1 - (n - 1 - max i j) = max i j; omega
      rwa [e] at this
    · exact chain_pos id cf n hcf (max i j) (by omega) j (by omega)
  · intro i hi
    rw [Finset.sum_comm]
    have : ∀ k ∈ Finset.range n, ∑ j ∈ Finset.range n, wb i k * wf k j = wb i k := fun k hk => by
      rw [← Finset.mul_sum, chain_one id cf n hpf k (Finset.mem_range.1 hk), mul_one]
    rw [Finset.sum_congr rfl this]
    exact chain_one pb cb n hpb _ (by omega)
  · intro x i hi
    obtain ⟨y, hf, hb⟩ := rowPass_spec v n (by omega) x
    have e1 : ∀ k < n, y k = ∑ j ∈ Finset.range n, wf k j * x j := fun k hk =>
      chain_eval id cf n hpf x y hf.1 (fun m hm => hf.2 m hm) k hk
    have e2 := chain_eval pb cb n hpb y (rowPass n v x) hb.1 (fun m hm => by
      have := hb.2 (n - 1 - (m + 1)) (by omega)
      have e : n - 1 - (m + 1) + 1 = n - 1 - m := by omega
      rw [e] at this
      exact this) (n - 1 - i) (by omega)
    have e3 : pb (n - 1 - i) = i := by show n - 1 - (n - 1 - i) = i; omega
    rw [e3] at e2
    rw [e2]
    simp only [Finset.sum_mul]
    rw [Finset.sum_comm]
    refine Finset.sum_congr rfl fun k hk => ?_
    rw [e1 k (Finset.mem_range.1 hk), Finset.mul_sum]
    exact Finset.sum_congr rfl fun j _ => by rw [mul_assoc]

/-! ## Filters of images -/

/-- Positive weighted means of all pixels. -/
def Pos (rows cols : Nat) (F : Img → Img) : Prop :=
  ∃ w : Nat × Nat → Nat × Nat → ℝ, (∀ p ∈ pixels rows cols, ∀ s ∈ pixels rows cols, 0 < w p s) ∧
    (∀ p ∈ pixels rows cols, ∑ s ∈ pixels rows cols, w p s = 1) ∧
    ∀ x, ∀ p ∈ pixels rows cols, F x p.1 p.2 = ∑ s ∈ pixels rows cols, w p s * x s.1 s.2

theorem mem_pixels (rows cols : Nat) (p : Nat × Nat) : p ∈ pixels rows cols ↔ p.1 < rows ∧ p.2 < cols := by
  unfold pixels; simp

theorem Pos.comp {rows cols : Nat} {F G : Img → Img} (hF : Pos rows cols F) (hG : Pos rows cols G) : Pos rows cols fun x => G (F x) := by
  obtain ⟨w, h1, h2, h3⟩ := hF
  obtain ⟨u, g1, g2, g3⟩ := hG
  refine ⟨fun p s => ∑ k ∈ pixels rows cols, u p k * w k s, ?_, ?_, ?_⟩
  · intro p hp s hs
    exact Finset.sum_pos (fun k hk => mul_pos (g1 p hp k hk) (h1 k hk s hs)) ⟨p, hp⟩
  · intro p hp
    rw [Finset.sum_comm, Finset.sum_congr rfl (g := fun k => u p k) fun k hk => by rw [← Finset.mul_sum, h2 k hk, mul_one]]
    exact g2 p hp
  · intro x p hp
    dsimp only
    rw [g3 _ p hp]
    simp only [Finset.sum_mul]
    rw [Finset.sum_comm]
    refine Finset.sum_congr rfl fun k hk => ?_
    rw [h3 x k hk, Finset.mul_sum]
    exact Finset.sum_congr rfl fun s _ => by rw [mul_assoc]

theorem Pos.step (rows cols : Nat) (vh vvt : Img) (hh : ∀ r < rows, ∀ q, 0 < q → q < cols → 0 < vh r q ∧ vh r q < 1)
    (hv : ∀ q < cols, ∀ r, 0 < r → r < rows → 0 < vvt q r ∧ vvt q r < 1) :
    Pos rows cols fun x => transpose (hPass cols rows vvt (transpose (hPass rows cols vh x))) := by
  have a : ∀ r, ∃ w : Nat → Nat → ℝ, r < rows → ((∀ i < cols, ∀ j < cols, 0 < w i j) ∧ (∀ i < cols, ∑ j ∈ Finset.range cols, w i j = 1) ∧
      ∀ x, ∀ i < cols, rowPass cols (vh r) x i = ∑ j ∈ Finset.range cols, w i j * x j) := fun r => by
    by_cases hr : r < rows
    · obtain ⟨w, h⟩ := rowPass_weights cols (vh r) (hh r hr)
      exact ⟨w, fun _ => h⟩
    · exact ⟨fun _ _ => 0, fun h => absurd h hr⟩
  have b : ∀ q, ∃ w : Nat → Nat → ℝ, q < cols → ((∀ i < rows, ∀ j < rows, 0 < w i j) ∧ (∀ i < rows, ∑ j ∈ Finset.range rows, w i j = 1) ∧
      ∀ x, ∀ i < rows, rowPass rows (vvt q) x i = ∑ j ∈ Finset.range rows, w i j * x j) := fun q => by
    by_cases hq : q < cols
    · obtain ⟨w, h⟩ := rowPass_weights rows (vvt q) (hv q hq)
      exact ⟨w, fun _ => h⟩
    · exact ⟨fun _ _ => 0, fun h => absurd h hq⟩
  choose wh ha using a
  choose wv hb using b
  refine ⟨fun p s => wv p.2 p.1 s.1 * wh s.1 p.2 s.2, ?_, ?_, ?_⟩
  · intro p hp s hs
    rw [mem_pixels] at hp hs
    exact mul_pos ((hb p.2 hp.2).1 _ hp.1 _ hs.1) ((ha s.1 hs.1).1 _ hp.2 _ hs.2)
  · intro p hp
    rw [mem_pixels] at hp
    unfold pixels
    rw [Finset.sum_product]
    dsimp only
    rw [Finset.sum_congr rfl (g := fun r => wv p.2 p.1 r) fun r hr => by
      rw [← Finset.mul_sum, (ha r (Finset.mem_range.1 hr)).2.1 _ hp.2, mul_one]]
    exact (hb p.2 hp.2).2.1 _ hp.1
  · intro x p hp
    rw [mem_pixels] at hp
    unfold pixels
    rw [Finset.sum_product]
    unfold transpose
    unfold hPass
    dsimp only
    rw [if_pos hp.2, (hb p.2 hp.2).2.2 _ _ hp.1]
    refine Finset.sum_congr rfl fun r hr => ?_
    rw [Finset.mem_range] at hr
    rw [if_pos hr, (ha r hr).2.2 _ _ hp.2, Finset.mul_sum]
    exact Finset.sum_congr rfl fun j _ => by rw [mul_assoc]

theorem Pos.averages {rows cols : Nat} {F : Img → Img} (h : Pos rows cols F) : Averages rows cols F := by
  obtain ⟨w, h1, h2, h3⟩ := h
  have e : ∀ p ∈ pixels rows cols, ∀ s ∈ pixels rows cols, response F p s = w p s := by
    intro p hp s hs
    unfold response
    rw [h3 _ p hp]
    unfold impulse
    simp only [mul_ite, mul_one, mul_zero, Prod.mk.eta]
    rw [Finset.sum_ite_eq', if_pos hs]
  refine ⟨fun p hp s hs => by rw [e p hp s hs]; exact h1 p hp s hs, fun p hp => ?_, fun x p hp => ?_⟩
  · rw [Finset.sum_congr rfl (e p hp)]; exact h2 p hp
  · rw [h3 x p hp]
    exact Finset.sum_congr rfl fun s hs => by rw [e p hp s hs]

/-! ## Weighted moments -/

section moments
variable {α : Type} (S : Finset α) (w x y : α → ℝ)

theorem cov_eq (h1 : ∑ s ∈ S, w s = 1) : cov S w x y = ∑ s ∈ S, w s * (x s * y s) - mean S w x * mean S w y := by
  unfold cov
  have : ∀ s ∈ S, w s * ((x s - mean S w x) * (y s - mean S w y)) =
      w s * (x s * y s) - (w s * x s) * mean S w y - mean S w x * (w s * y s) + mean S w x * mean S w y * w s := fun s _ => by ring
  rw [Finset.sum_congr rfl this, Finset.sum_add_distrib, Finset.sum_sub_distrib, Finset.sum_sub_distrib, ← Finset.sum_mul, ← Finset.mul_sum,
    ← Finset.mul_sum, h1]
  have e1 : ∑ s ∈ S, w s * x s = mean S w x := rfl
  have e2 : ∑ s ∈ S, w s * y s = mean S w y := rfl
  rw [e1, e2]; ring

theorem cov_self_nonneg (hw : ∀ s ∈ S, 0 ≤ w s) : 0 ≤ cov S w x x := by
  unfold cov
  exact Finset.sum_nonneg fun s hs => mul_nonneg (hw s hs) (mul_self_nonneg _)

theorem cov_sq_le (hw : ∀ s ∈ S, 0 ≤ w s) : cov S w x y ^ 2 ≤ cov S w x x * cov S w y y := by
  have := Finset.sum_mul_sq_le_sq_mul_sq S (fun s => Real.sqrt (w s) * (x s - mean S w x)) (fun s => Real.sqrt (w s) * (y s - mean S w y))
  have e : ∀ (a b : α → ℝ), ∀ s ∈ S, (Real.sqrt (w s) * a s) * (Real.sqrt (w s) * b s) = w s * (a s * b s) := fun a b s hs => by
    have := Real.mul_self_sqrt (hw s hs)
    calc _ = (Real.sqrt (w s) * Real.sqrt (w s)) * (a s * b s) := by ring
      _ = _ := by rw [this]
  simp only [sq (Real.sqrt _ * _)] at this
  rw [Finset.sum_congr rfl (e (fun s => x s - mean S w x) (fun s => y s - mean S w y)),
    Finset.sum_congr rfl (e (fun s => x s - mean S w x) (fun s => x s - mean S w x)),
    Finset.sum_congr rfl (e (fun s => y s - mean S w y) (fun s => y s - mean S w y))] at this
  exact this

theorem corr_range (hw : ∀ s ∈ S, 0 ≤ w s) : -1 ≤ corr S w x y ∧ corr S w x y ≤ 1 := by
  unfold corr
  have h := cov_sq_le S w x y hw
  have h2 := Real.abs_le_sqrt h
  rw [← abs_le, abs_div, abs_of_nonneg (Real.sqrt_nonneg _)]
  exact div_le_one_of_le₀ h2 (Real.sqrt_nonneg _)

end moments

/-! ## The recursive filter -/

theorem Pos.recurs (rows cols : Nat) (vh vvt : Nat → Img) (iters : Nat) (hi : 0 < iters)
    (hh : ∀ i < iters, ∀ r < rows, ∀ q, 0 < q → q < cols → 0 < vh i r q ∧ vh i r q < 1)
    (hv : ∀ i < iters, ∀ q < cols, ∀ r, 0 < r → r < rows → 0 < vvt i q r ∧ vvt i q r < 1) : Pos rows cols (recursFilter iters rows cols vh vvt) := by
  obtain ⟨m, rfl⟩ : ∃ m, iters = m + 1 := ⟨iters - 1, by omega⟩
  clear hi
  induction m with
  | zero =>
    have := Pos.step rows cols (vh 0) (vvt 0) (hh 0 (by omega)) (hv 0 (by omega))
    exact this
  | succ m ih =>
    have h1 := ih (fun i hi => hh i (by omega)) fun i hi => hv i (by omega)
    have h2 := Pos.step rows cols (vh (m + 1)) (vvt (m + 1)) (hh _ (by omega)) (hv _ (by omega))
    have := h1.comp h2
    unfold recursFilter at this ⊢
    rw [List.range_succ]
    simp only [List.foldl_append, List.foldl_cons, List.foldl_nil]
    exact this

theorem localDiff_get (dr dq rows cols : Nat) (img old : Img) (r q : Nat) (hr : r < rows) (hq : q < cols) :
    localDiff dr dq rows cols img old r q = if dr ≤ r ∧ dq ≤ q then img (r - dr) (q - dq) - img r q else 0 := by
  unfold localDiff
  rw [fill_get, fill_get, fill_get]
  simp only [mem_loops]
  by_cases h1 : dr ≤ r
  · by_cases h2 : dq ≤ q
    · rw [if_neg (by omega), if_neg (by omega), if_pos (by omega), if_pos (by omega)]
    · rw [if_pos (by omega), if_neg (by omega)]
  · rw [if_neg (by omega), if_pos (by omega), if_neg (by omega)]

theorem sigma_pos (sigmaS : ℝ) (hs : 0 < sigmaS) (iters i : Nat) (hi : i < iters) : 0 < sigma sigmaS iters i := by
  unfold sigma
  have h4 : (1 : ℝ) < 4 ^ iters := one_lt_pow₀ (by norm_num) (by omega)
  have : 0 < Real.sqrt (4 ^ iters - 1) := Real.sqrt_pos.2 (by linarith)
  positivity

theorem base_eq (sigmaS : ℝ) (iters i : Nat) : base sigmaS iters i = Real.exp (-(Real.sqrt 2 / sigma sigmaS iters i)) := by
  unfold base sigma
  rw [neg_div]

theorem base_rpow (sigmaS : ℝ) (iters i : Nat) (d : ℝ) : base sigmaS iters i ^ d = Real.exp (-(Real.sqrt 2 / sigma sigmaS iters i) * d) := by
  rw [base_eq, ← Real.exp_mul]

theorem feedback_range (sigmaS sigmaR : ℝ) (hs : 0 < sigmaS) (hr : 0 < sigmaR) (iters i : Nat) (hi : i < iters) (d : ℝ) :
    0 < feedback sigmaS sigmaR iters i d ∧ feedback sigmaS sigmaR iters i d < 1 := by
  unfold feedback
  refine ⟨Real.exp_pos _, ?_⟩
  rw [Real.exp_lt_one_iff]
  have h1 := sigma_pos sigmaS hs iters i hi
  have h2 : 0 < Real.sqrt 2 / sigma sigmaS iters i := div_pos (Real.sqrt_pos.2 (by norm_num)) h1
  have h3 : 0 < 1 + sigmaS / sigmaR * |d| := by positivity
  nlinarith

theorem weightH_get (sigmaS sigmaR : ℝ) (iters rows cols : Nat) (img old : Img) (i r q : Nat) (hr : r < rows) (h0 : 0 < q) (hq : q < cols) :
    weightH sigmaS sigmaR iters rows cols img old i r q = feedback sigmaS sigmaR iters i (img r (q - 1) - img r q) := by
  unfold weightH ref feedback
  rw [base_rpow, localDiff_get 0 1 rows cols img old r q hr hq, if_pos ⟨by omega, by omega⟩, Nat.sub_zero]

theorem weightVt_get (sigmaS sigmaR : ℝ) (iters rows cols : Nat) (img old : Img) (i r q : Nat) (hq : q < cols) (h0 : 0 < r) (hr : r < rows) :
    weightVt sigmaS sigmaR iters rows cols img old i q r = feedback sigmaS sigmaR iters i (img (r - 1) q - img r q) := by
  unfold weightVt ref feedback
  rw [base_rpow, localDiff_get 1 0 rows cols img old r q hr hq, if_pos ⟨by omega, by omega⟩, Nat.sub_zero]

theorem rf_pos (sigmaS sigmaR : ℝ) (hs : 0 < sigmaS) (hr : 0 < sigmaR) (iters rows cols : Nat) (hi : 0 < iters) (img oldX oldY : Img) :
    Pos rows cols (rf sigmaS sigmaR iters rows cols img oldX oldY) := by
  unfold rf
  refine Pos.recurs rows cols _ _ iters hi (fun i hi r hr' q h0 hq => ?_) fun i hi q hq r h0 hr' => ?_
  · rw [weightH_get _ _ _ _ _ _ _ _ _ _ hr' h0 hq]; exact feedback_range _ _ hs hr _ _ hi _
  · rw [weightVt_get _ _ _ _ _ _ _ _ _ _ hq h0 hr']; exact feedback_range _ _ hs hr _ _ hi _

theorem foldl_congr_mem {α β : Type} (f g : β → α → β) (l : List α) (h : ∀ b, ∀ a ∈ l, f b a = g b a) (b : β) : l.foldl f b = l.foldl g b := by
  induction l generalizing b with
  | nil => rfl
  | cons a l ih =>
    rw [List.foldl_cons, List.foldl_cons, h b a (by simp)]
    exact ih (fun b a ha => h b a (by simp [ha])) _

theorem rowPass_congr (n : Nat) (v v' x : Nat → ℝ) (h : ∀ i, 0 < i → i < n → v i = v' i) : rowPass n v x = rowPass n v' x := by
  unfold rowPass
  dsimp only
  rw [foldl_congr_mem _ (fun x i => Function.update x (i + 1) (x (i + 1) + v' (i + 1) * (x i - x (i + 1)))) (List.range (n - 1))]
  · apply foldl_congr_mem
    intro b a ha
    rw [List.mem_reverse, List.mem_range] at ha
    rw [h (a + 1) (by omega) (by omega)]
  · intro b a ha
    rw [List.mem_range] at ha
    rw [h (a + 1) (by omega) (by omega)]

theorem hPass_congr (rows cols : Nat) (v v' x : Img) (h : ∀ r < rows, ∀ q, 0 < q → q < cols → v r q = v' r q) : hPass rows cols v x = hPass rows cols v' x := by
  unfold hPass
  funext r
  split
  · next hr => exact rowPass_congr cols _ _ _ (h r hr)
  · rfl

theorem rf_old (sigmaS sigmaR : ℝ) (iters rows cols : Nat) (img oldX oldY oldX' oldY' : Img) :
    rf sigmaS sigmaR iters rows cols img oldX oldY = rf sigmaS sigmaR iters rows cols img oldX' oldY' := by
  funext x
  unfold rf recursFilter
  apply foldl_congr_mem
  intro b i _
  rw [hPass_congr rows cols _ (weightH sigmaS sigmaR iters rows cols img oldX' i) b fun r hr q h0 hq => by
      rw [weightH_get _ _ _ _ _ _ _ _ _ _ hr h0 hq, weightH_get _ _ _ _ _ _ _ _ _ _ hr h0 hq],
    hPass_congr cols rows _ (weightVt sigmaS sigmaR iters rows cols img oldY' i) _ fun q hq r h0 hr => by
      rw [weightVt_get _ _ _ _ _ _ _ _ _ _ hq h0 hr, weightVt_get _ _ _ _ _ _ _ _ _ _ hq h0 hr]]

/-! ## Values -/

theorem value_range (a b c d e : ℝ) : 0 < value a b c d e ∧ value a b c d e ≤ 1 := by
  unfold value
  dsimp only
  split
  · exact ⟨lt_min (Real.exp_pos _) one_pos, min_le_right _ _⟩
  · exact ⟨one_pos, le_rfl⟩

theorem value_corr {α : Type} (S : Finset α) (w x y : α → ℝ) (hw : ∀ s ∈ S, 0 ≤ w s) (h1 : ∑ s ∈ S, w s = 1) :
    value (∑ s ∈ S, w s * x s) (∑ s ∈ S, w s * (x s * x s)) (∑ s ∈ S, w s * y s) (∑ s ∈ S, w s * (y s * y s)) (∑ s ∈ S, w s * (x s * y s)) =
      if 1 / 10 ^ 10 < Real.sqrt (cov S w x x * cov S w y y) then Real.exp (-2 * (1 - corr S w x y)) else 1 := by
  unfold value eps
  dsimp only
  have hx := cov_eq S w x x h1
  have hy := cov_eq S w y y h1
  have hxy := cov_eq S w x y h1
  unfold mean at hx hy hxy
  rw [← hx, ← hy, ← hxy]
  split
  · have := corr_range S w x y hw
    rw [show -(1 - cov S w x y / Real.sqrt (cov S w x x * cov S w y y)) * 2 = -2 * (1 - corr S w x y) by unfold corr; ring, min_eq_left]
    rw [Real.exp_le_one_iff]
    linarith [this.2]
  · rfl

theorem rpDiff_get (k : Nat) (hk : k < 128) :
    rpDiff.getD k (0, 0) = ((rp2.getD k (0, 0)).1 - (rp1.getD k (0, 0)).1, (rp2.getD k (0, 0)).2 - (rp1.getD k (0, 0)).2) := by
  have : ∀ k < 128, rpDiff.getD k (0, 0) = ((rp2.getD k (0, 0)).1 - (rp1.getD k (0, 0)).1, (rp2.getD k (0, 0)).2 - (rp1.getD k (0, 0)).2) := by
    decide +kernel
  exact this k hk

theorem length_eq (d : Nat → ℝ) : Real.sqrt (((List.range lut).map fun k => d k ^ 2).sum) = length d := by
  unfold length lut
  congr 1

theorem normalize_unit (d : Nat → ℝ) (h0 : ∀ k < 128, 0 ≤ d k) :
    length (normalize d) = 1 ∧ (∀ k < 128, 0 ≤ normalize d k ∧ normalize d k ≤ 1) := by
  unfold normalize
  dsimp only
  rw [length_eq]
  have hsum : ∀ e : Nat → ℝ, length e = 1 → (∀ k < 128, 0 ≤ e k) → ∀ k < 128, 0 ≤ e k ∧ e k ≤ 1 := by
    intro e h1 h2 k hk
    refine ⟨h2 k hk, ?_⟩
    unfold length at h1
    rw [Real.sqrt_eq_one] at h1
    have := Finset.single_le_sum (f := fun k => e k ^ 2) (fun k _ => sq_nonneg _) (Finset.mem_range.2 hk)
    rw [h1] at this
    nlinarith [h2 k hk]
  split
  · next h =>
    have hpos : 0 < length d := lt_trans (by unfold eps; norm_num) h
    have h1 : length (fun k => d k / length d) = 1 := by
      rw [length]
      simp only [div_pow]
      rw [← Finset.sum_div, Real.sqrt_div (Finset.sum_nonneg fun k _ => sq_nonneg _), Real.sqrt_sq hpos.le]
      exact div_self hpos.ne'
    exact ⟨h1, hsum _ h1 fun k hk => div_nonneg (h0 k hk) hpos.le⟩
  · have h1 : length (fun _ => Real.sqrt (1 / lut)) = 1 := by
      unfold length lut
      rw [Finset.sum_const, Finset.card_range, Real.sq_sqrt (by positivity)]
      norm_num
    exact ⟨h1, hsum _ h1 fun k hk => Real.sqrt_nonneg _⟩

end Litiv.DASC
