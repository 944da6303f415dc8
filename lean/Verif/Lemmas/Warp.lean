import Verif.Spec.Warp
import Mathlib.Tactic.Linarith
import Mathlib.Tactic.FieldSimp
import Mathlib.Tactic.Ring
import Mathlib.Tactic.Positivity
import Mathlib.Tactic.LinearCombination
import Mathlib.Algebra.Order.BigOperators.Group.List

namespace Litiv.Warp
open Spec

theorem pt_eq {a b : Pt} (hx : a.x = b.x) (hy : a.y = b.y) : a = b := by
  cases a; cases b; simp_all

theorem dist2_pos {v p : Pt} (h : v ≠ p) : 0 < dist2 v p := by
  unfold dist2
  by_contra hn
  have h1 : (v.x - p.x) ^ 2 = 0 := by nlinarith [sq_nonneg (v.x - p.x), sq_nonneg (v.y - p.y)]
  have h2 : (v.y - p.y) ^ 2 = 0 := by nlinarith [sq_nonneg (v.x - p.x), sq_nonneg (v.y - p.y)]
  exact h (pt_eq (by linarith [pow_eq_zero_iff (n := 2) (by norm_num) |>.1 h1]) (by linarith [pow_eq_zero_iff (n := 2) (by norm_num) |>.1 h2]))

theorem dist2_nonneg (a b : Pt) : 0 ≤ dist2 a b := by unfold dist2; positivity

theorem dist2_zero {a b : Pt} (h : dist2 a b = 0) : a = b := by
  by_contra hn
  exact absurd h (dist2_pos hn).ne'

/-- Weighted sum. -/
noncomputable def mom (v : Pt) (l : List (Pt × Pt)) (f : Pt × Pt → ℝ) : ℝ := (l.map fun e => 1 / dist2 v e.1 * f e).sum

theorem mom_cons (v : Pt) (e : Pt × Pt) (l : List (Pt × Pt)) (f : Pt × Pt → ℝ) : mom v (e :: l) f = 1 / dist2 v e.1 * f e + mom v l f := by
  simp [mom]

theorem mom_nil (v : Pt) (f : Pt × Pt → ℝ) : mom v [] f = 0 := by simp [mom]

theorem ne_iff {v p : Pt} : v ≠ p ↔ ¬(v.x = p.x ∧ v.y = p.y) := by
  constructor
  · intro h hn; exact h (pt_eq hn.1 hn.2)
  · rintro h rfl; exact h ⟨rfl, rfl⟩

theorem gather_inr (v : Pt) (l : List (Pt × Pt)) (a : Acc) (h : ∀ e ∈ l, v ≠ e.1) :
    gather v l a = .inr ⟨a.inv + mom v l (fun _ => 1), ⟨a.dest.x + mom v l (fun e => e.1.x), a.dest.y + mom v l (fun e => e.1.y)⟩,
      ⟨a.source.x + mom v l (fun e => e.2.x), a.source.y + mom v l (fun e => e.2.y)⟩, a.ws ++ l.map fun e => 1 / dist2 v e.1⟩ := by
  induction l generalizing a with
  | nil => simp [gather, mom_nil]
  | cons e l ih =>
    obtain ⟨p, q⟩ := e
    have h0 := h (p, q) (by simp)
    unfold gather
    rw [if_neg (ne_iff.1 h0)]
    dsimp only
    rw [ih _ (fun e he => h e (by simp [he]))]
    have hd : (v.x - p.x) * (v.x - p.x) + (v.y - p.y) * (v.y - p.y) = dist2 v p := by unfold dist2; ring
    rw [hd]
    simp only [mom_cons, Pt.add, Pt.smul, List.map_cons, List.append_assoc, List.cons_append, List.nil_append]
    congr 2
    · ring
    · congr 1 <;> ring
    · congr 1 <;> ring

theorem gather_inl (v : Pt) (pre post : List (Pt × Pt)) (q : Pt) (a : Acc) (h : ∀ e ∈ pre, v ≠ e.1) :
    gather v (pre ++ (v, q) :: post) a = .inl q := by
  induction pre generalizing a with
  | nil => simp [gather]
  | cons e l ih =>
    obtain ⟨p, q'⟩ := e
    have h0 := h (p, q') (by simp)
    rw [List.cons_append]
    unfold gather
    rw [if_neg (ne_iff.1 h0)]
    exact ih _ (fun e he => h e (by simp [he]))

theorem zip_weights (v : Pt) (l : List (Pt × Pt)) : l.zip (l.map fun e => 1 / dist2 v e.1) = l.map fun e => (e, 1 / dist2 v e.1) := by
  induction l with
  | nil => rfl
  | cons e l ih => rw [List.map_cons, List.zip_cons_cons, ih, List.map_cons]

theorem rigidMu_sum (v wd wq : Pt) (l : List (Pt × Pt)) (h : ∀ e ∈ l, v ≠ e.1) :
    rigidMu v wd wq (l.map fun e => (e, 1 / dist2 v e.1)) =
      Real.sqrt (mom v l (fun e => (e.2.sub wq).dot (e.1.sub wd)) * mom v l (fun e => (e.2.sub wq).dot (e.1.sub wd)) +
        mom v l (fun e => (e.2.sub wq).dot (e.1.sub wd).perp) * mom v l (fun e => (e.2.sub wq).dot (e.1.sub wd).perp)) := by
  unfold rigidMu
  have key : ∀ (s : ℝ × ℝ), (l.map fun e => (e, 1 / dist2 v e.1)).foldl (fun (s : ℝ × ℝ) (e : (Pt × Pt) × ℝ) =>
      open Classical in
      if v.x = e.1.1.x ∧ v.y = e.1.1.y then s
      else
        let i := e.1.1.sub wd
        let j := e.1.2.sub wq
        (s.1 + e.2 * j.dot i, s.2 + e.2 * j.dot i.perp)) s =
      (s.1 + mom v l (fun e => (e.2.sub wq).dot (e.1.sub wd)), s.2 + mom v l (fun e => (e.2.sub wq).dot (e.1.sub wd).perp)) := by
    induction l with
    | nil => simp [mom_nil]
    | cons e l ih =>
      intro s
      rw [List.map_cons, List.foldl_cons, if_neg (ne_iff.1 (h e (by simp)))]
      dsimp only
      rw [ih (fun e he => h e (by simp [he]))]
      simp only [mom_cons]
      congr 1 <;> ring
  dsimp only at key ⊢
  rw [key]
  simp only [zero_add]

theorem similarityMu_sum (v wd : Pt) (l : List (Pt × Pt)) (h : ∀ e ∈ l, v ≠ e.1) :
    similarityMu v wd (l.map fun e => (e, 1 / dist2 v e.1)) = mom v l (fun e => (e.1.sub wd).dot (e.1.sub wd)) := by
  unfold similarityMu
  have key : ∀ (s : ℝ), (l.map fun e => (e, 1 / dist2 v e.1)).foldl (fun (s : ℝ) (e : (Pt × Pt) × ℝ) =>
      open Classical in
      if v.x = e.1.1.x ∧ v.y = e.1.1.y then s
      else
        let i := e.1.1.sub wd
        s + e.2 * i.dot i) s = s + mom v l (fun e => (e.1.sub wd).dot (e.1.sub wd)) := by
    induction l with
    | nil => simp [mom_nil]
    | cons e l ih =>
      intro s
      rw [List.map_cons, List.foldl_cons, if_neg (ne_iff.1 (h e (by simp)))]
      dsimp only
      rw [ih (fun e he => h e (by simp [he]))]
      simp only [mom_cons]
      ring
  rw [key, zero_add]

theorem moved_sum (v wd : Pt) (mu : ℝ) (l : List (Pt × Pt)) (h : ∀ e ∈ l, v ≠ e.1) :
    moved v wd mu (l.map fun e => (e, 1 / dist2 v e.1)) =
      ⟨((v.x - wd.x) * mom v l (fun e => e.2.dot (e.1.sub wd)) - (v.y - wd.y) * mom v l (fun e => e.2.dot (e.1.sub wd).perp)) / mu,
       ((v.y - wd.y) * mom v l (fun e => e.2.dot (e.1.sub wd)) + (v.x - wd.x) * mom v l (fun e => e.2.dot (e.1.sub wd).perp)) / mu⟩ := by
  unfold moved
  have key : ∀ (s : Pt), (l.map fun e => (e, 1 / dist2 v e.1)).foldl (fun (s : Pt) (e : (Pt × Pt) × ℝ) =>
      open Classical in
      if v.x = e.1.1.x ∧ v.y = e.1.1.y then s
      else
        let i := e.1.1.sub wd
        let q := e.1.2
        let t : Pt := ⟨i.dot (v.sub wd) * q.x - i.perp.dot (v.sub wd) * q.y, -i.dot (v.sub wd).perp * q.x + i.perp.dot (v.sub wd).perp * q.y⟩
        s.add (t.smul (e.2 / mu))) s =
      ⟨s.x + ((v.x - wd.x) * mom v l (fun e => e.2.dot (e.1.sub wd)) - (v.y - wd.y) * mom v l (fun e => e.2.dot (e.1.sub wd).perp)) / mu,
       s.y + ((v.y - wd.y) * mom v l (fun e => e.2.dot (e.1.sub wd)) + (v.x - wd.x) * mom v l (fun e => e.2.dot (e.1.sub wd).perp)) / mu⟩ := by
    induction l with
    | nil => simp [mom_nil]
    | cons e l ih =>
      intro s
      rw [List.map_cons, List.foldl_cons, if_neg (ne_iff.1 (h e (by simp)))]
      dsimp only
      rw [ih (fun e he => h e (by simp [he]))]
      simp only [mom_cons, Pt.add, Pt.smul, Pt.dot, Pt.perp, Pt.sub]
      congr 1 <;> ring
  dsimp only at key ⊢
  rw [key]
  simp only [zero_add]

/-- Moments. -/
theorem mom_s1 (v a b : Pt) (l : List (Pt × Pt)) : mom v l (fun e => (e.2.sub b).dot (e.1.sub a)) =
    mom v l (fun e => e.1.x * e.2.x + e.1.y * e.2.y) - a.x * mom v l (fun e => e.2.x) - a.y * mom v l (fun e => e.2.y)
      - b.x * mom v l (fun e => e.1.x) - b.y * mom v l (fun e => e.1.y) + (a.x * b.x + a.y * b.y) * mom v l (fun _ => 1) := by
  induction l with
  | nil => simp [mom_nil]
  | cons e l ih => simp only [mom_cons]; rw [ih]; simp only [Pt.dot, Pt.sub]; ring

theorem mom_s2 (v a b : Pt) (l : List (Pt × Pt)) : mom v l (fun e => (e.2.sub b).dot (e.1.sub a).perp) =
    mom v l (fun e => e.1.x * e.2.y - e.1.y * e.2.x) + a.y * mom v l (fun e => e.2.x) - a.x * mom v l (fun e => e.2.y)
      - b.y * mom v l (fun e => e.1.x) + b.x * mom v l (fun e => e.1.y) + (a.x * b.y - a.y * b.x) * mom v l (fun _ => 1) := by
  induction l with
  | nil => simp [mom_nil]
  | cons e l ih => simp only [mom_cons]; rw [ih]; simp only [Pt.dot, Pt.sub, Pt.perp]; ring

theorem mom_p (v a : Pt) (l : List (Pt × Pt)) : mom v l (fun e => (e.1.sub a).dot (e.1.sub a)) =
    mom v l (fun e => e.1.x * e.1.x + e.1.y * e.1.y) - 2 * a.x * mom v l (fun e => e.1.x) - 2 * a.y * mom v l (fun e => e.1.y)
      + (a.x * a.x + a.y * a.y) * mom v l (fun _ => 1) := by
  induction l with
  | nil => simp [mom_nil]
  | cons e l ih => simp only [mom_cons]; rw [ih]; simp only [Pt.dot, Pt.sub]; ring

theorem mom_q1 (v a : Pt) (l : List (Pt × Pt)) : mom v l (fun e => e.2.dot (e.1.sub a)) =
    mom v l (fun e => e.1.x * e.2.x + e.1.y * e.2.y) - a.x * mom v l (fun e => e.2.x) - a.y * mom v l (fun e => e.2.y) := by
  induction l with
  | nil => simp [mom_nil]
  | cons e l ih => simp only [mom_cons]; rw [ih]; simp only [Pt.dot, Pt.sub]; ring

theorem mom_q2 (v a : Pt) (l : List (Pt × Pt)) : mom v l (fun e => e.2.dot (e.1.sub a).perp) =
    mom v l (fun e => e.1.x * e.2.y - e.1.y * e.2.x) + a.y * mom v l (fun e => e.2.x) - a.x * mom v l (fun e => e.2.y) := by
  induction l with
  | nil => simp [mom_nil]
  | cons e l ih => simp only [mom_cons]; rw [ih]; simp only [Pt.dot, Pt.sub, Pt.perp]; ring

theorem cost_mom (v : Pt) (l : List (Pt × Pt)) (T : Sim) : cost l v T =
    (T.ax ^ 2 + T.ay ^ 2) * mom v l (fun e => e.1.x * e.1.x + e.1.y * e.1.y) + (T.bx ^ 2 + T.by' ^ 2) * mom v l (fun _ => 1)
      + mom v l (fun e => e.2.x * e.2.x + e.2.y * e.2.y)
      + 2 * (T.bx * (T.ax * mom v l (fun e => e.1.x) - T.ay * mom v l (fun e => e.1.y)) + T.by' * (T.ay * mom v l (fun e => e.1.x) + T.ax * mom v l (fun e => e.1.y)))
      - 2 * (T.ax * mom v l (fun e => e.1.x * e.2.x + e.1.y * e.2.y) + T.ay * mom v l (fun e => e.1.x * e.2.y - e.1.y * e.2.x))
      - 2 * (T.bx * mom v l (fun e => e.2.x) + T.by' * mom v l (fun e => e.2.y)) := by
  unfold cost
  induction l with
  | nil => simp [mom_nil]
  | cons e l ih =>
    rw [List.map_cons, List.sum_cons, ih]
    simp only [mom_cons]
    unfold dist2 Sim.app
    dsimp only
    ring

theorem mom_one_pos (v : Pt) (l : List (Pt × Pt)) (hl : l ≠ []) (h : ∀ e ∈ l, v ≠ e.1) : 0 < mom v l (fun _ => 1) := by
  have h0 : ∀ l : List (Pt × Pt), (∀ e ∈ l, v ≠ e.1) → 0 ≤ mom v l (fun _ => 1) := by
    intro l h
    induction l with
    | nil => simp [mom_nil]
    | cons e l ih =>
      rw [mom_cons]
      have := dist2_pos (h e (by simp))
      have := ih (fun e he => h e (by simp [he]))
      positivity
  cases l with
  | nil => exact absurd rfl hl
  | cons e l =>
    rw [mom_cons]
    have := dist2_pos (h e (by simp))
    have := h0 l (fun e he => h e (by simp [he]))
    positivity

theorem mom_nonneg (v : Pt) (l : List (Pt × Pt)) (f : Pt × Pt → ℝ) (hf : ∀ e ∈ l, 0 ≤ f e) : 0 ≤ mom v l f := by
  induction l with
  | nil => simp [mom_nil]
  | cons e l ih =>
    rw [mom_cons]
    have := dist2_nonneg v e.1
    have := hf e (by simp)
    have := ih (fun e he => hf e (by simp [he]))
    positivity

theorem mom_zero (v : Pt) (l : List (Pt × Pt)) (f : Pt × Pt → ℝ) (hf : ∀ e ∈ l, 0 ≤ f e) (h : ∀ e ∈ l, v ≠ e.1) (h0 : mom v l f = 0) :
    ∀ e ∈ l, f e = 0 := by
  induction l with
  | nil => simp
  | cons e l ih =>
    rw [mom_cons] at h0
    have hd := dist2_pos (h e (by simp))
    have h1 := hf e (by simp)
    have h2 := mom_nonneg v l f (fun e he => hf e (by simp [he]))
    have h3 : 0 ≤ 1 / dist2 v e.1 * f e := by positivity
    have h4 : 1 / dist2 v e.1 * f e = 0 := by linarith
    have h5 : mom v l f = 0 := by linarith
    intro e' he'
    rcases List.mem_cons.1 he' with rfl | he'
    · rcases mul_eq_zero.1 h4 with h | h
      · exact absurd h (by positivity)
      · exact h
    · exact ih (fun e he => hf e (by simp [he])) (fun e he => h e (by simp [he])) h5 e' he'

/-- The mean of the destination points. -/
noncomputable def mean1 (v : Pt) (l : List (Pt × Pt)) : Pt := ⟨1 / mom v l (fun _ => 1) * mom v l (fun e => e.1.x), 1 / mom v l (fun _ => 1) * mom v l (fun e => e.1.y)⟩
/-- The mean of the source points. -/
noncomputable def mean2 (v : Pt) (l : List (Pt × Pt)) : Pt := ⟨1 / mom v l (fun _ => 1) * mom v l (fun e => e.2.x), 1 / mom v l (fun _ => 1) * mom v l (fun e => e.2.y)⟩
/-- Correlations. -/
noncomputable def c1 (v : Pt) (l : List (Pt × Pt)) : ℝ := mom v l (fun e => (e.2.sub (mean2 v l)).dot (e.1.sub (mean1 v l)))
/-- Correlations. -/
noncomputable def c2 (v : Pt) (l : List (Pt × Pt)) : ℝ := mom v l (fun e => (e.2.sub (mean2 v l)).dot (e.1.sub (mean1 v l)).perp)
/-- Variance. -/
noncomputable def var (v : Pt) (l : List (Pt × Pt)) : ℝ := mom v l (fun e => (e.1.sub (mean1 v l)).dot (e.1.sub (mean1 v l)))
/-- The divisor. -/
noncomputable def muOf (mode : Mode) (v : Pt) (l : List (Pt × Pt)) : ℝ := if mode = .rigid then Real.sqrt (c1 v l * c1 v l + c2 v l * c2 v l) else var v l

/-- The best transform. -/
noncomputable def best (mode : Mode) (v : Pt) (l : List (Pt × Pt)) : Sim :=
  let m := muOf mode v l
  ⟨c1 v l / m, c2 v l / m, (mean2 v l).x - (c1 v l / m * (mean1 v l).x - c2 v l / m * (mean1 v l).y),
    (mean2 v l).y - (c2 v l / m * (mean1 v l).x + c1 v l / m * (mean1 v l).y)⟩

theorem newPoint_eval (mode : Mode) (v : Pt) (l : List (Pt × Pt)) (hl : l ≠ []) (h : ∀ e ∈ l, v ≠ e.1) :
    newPoint mode l v = open Classical in if muOf mode v l = 0 then none else some ((best mode v l).app v) := by
  have hW := mom_one_pos v l hl h
  unfold newPoint
  rw [gather_inr v l _ h]
  simp only [zero_add, List.nil_append, Pt.smul]
  rw [zip_weights, rigidMu_sum _ _ _ _ h, similarityMu_sum _ _ _ h, moved_sum _ _ _ _ h]
  change (open Classical in if muOf mode v l = 0 then none else some _) = _
  by_cases hm : muOf mode v l = 0
  · rw [if_pos hm, if_pos hm]
  · rw [if_neg hm, if_neg hm]
    congr 1
    have e1 : mom v l (fun e => e.2.dot (e.1.sub (mean1 v l))) = c1 v l := by
      unfold c1
      rw [mom_q1, mom_s1]
      unfold mean1 mean2
      dsimp only
      field_simp
      ring
    have e2 : mom v l (fun e => e.2.dot (e.1.sub (mean1 v l)).perp) = c2 v l := by
      unfold c2
      rw [mom_q2, mom_s2]
      unfold mean1 mean2
      dsimp only
      field_simp
      ring
    change Pt.add ⟨((v.x - (mean1 v l).x) * mom v l (fun e => e.2.dot (e.1.sub (mean1 v l))) - (v.y - (mean1 v l).y) * mom v l (fun e => e.2.dot (e.1.sub (mean1 v l)).perp)) / muOf mode v l,
       ((v.y - (mean1 v l).y) * mom v l (fun e => e.2.dot (e.1.sub (mean1 v l))) + (v.x - (mean1 v l).x) * mom v l (fun e => e.2.dot (e.1.sub (mean1 v l)).perp)) / muOf mode v l⟩ (mean2 v l) = _
    rw [e1, e2]
    unfold best Sim.app Pt.add
    apply pt_eq <;> dsimp only <;> ring

/-- The cost in centred form. -/
theorem cost_centred (v : Pt) (l : List (Pt × Pt)) (hW : 0 < mom v l (fun _ => 1)) : ∃ K : ℝ, ∀ T : Sim, cost l v T =
    (T.ax ^ 2 + T.ay ^ 2) * var v l - 2 * (T.ax * c1 v l + T.ay * c2 v l) + K +
    mom v l (fun _ => 1) * ((T.bx + (T.ax * (mean1 v l).x - T.ay * (mean1 v l).y) - (mean2 v l).x) ^ 2 +
      (T.by' + (T.ay * (mean1 v l).x + T.ax * (mean1 v l).y) - (mean2 v l).y) ^ 2) := by
  refine ⟨mom v l (fun e => e.2.x * e.2.x + e.2.y * e.2.y) - (mom v l (fun e => e.2.x) ^ 2 + mom v l (fun e => e.2.y) ^ 2) / mom v l (fun _ => 1), fun T => ?_⟩
  rw [cost_mom]
  unfold var c1 c2
  rw [mom_p, mom_s1, mom_s2]
  unfold mean1 mean2
  dsimp only
  field_simp
  ring

theorem var_zero (v : Pt) (l : List (Pt × Pt)) (h : ∀ e ∈ l, v ≠ e.1) (h0 : var v l = 0) : ∀ e ∈ l, e.1 = mean1 v l := by
  intro e he
  have := mom_zero v l _ (fun e _ => by unfold Pt.dot; nlinarith [sq_nonneg (e.1.sub (mean1 v l)).x, sq_nonneg (e.1.sub (mean1 v l)).y]) h h0 e he
  apply dist2_zero
  unfold Pt.dot Pt.sub at this
  unfold dist2
  dsimp only at this
  linarith

theorem mom_congr (v : Pt) (l : List (Pt × Pt)) (f g : Pt × Pt → ℝ) (h : ∀ e ∈ l, f e = g e) : mom v l f = mom v l g := by
  unfold mom
  congr 1
  exact List.map_congr_left fun e he => by rw [h e he]

theorem mom_const0 (v : Pt) (l : List (Pt × Pt)) : mom v l (fun _ => 0) = 0 := by
  simp [mom]

theorem corr_zero (v : Pt) (l : List (Pt × Pt)) (h : ∀ e ∈ l, v ≠ e.1) (h0 : var v l = 0) : c1 v l = 0 ∧ c2 v l = 0 := by
  have := var_zero v l h h0
  unfold c1 c2
  constructor
  · rw [mom_congr v l _ (fun _ => 0) (fun e he => by rw [this e he]; unfold Pt.dot Pt.sub; simp), mom_const0]
  · rw [mom_congr v l _ (fun _ => 0) (fun e he => by rw [this e he]; unfold Pt.dot Pt.perp Pt.sub; simp), mom_const0]

theorem sim_eq {S T : Sim} (h1 : S.ax = T.ax) (h2 : S.ay = T.ay) (h3 : S.bx = T.bx) (h4 : S.by' = T.by') : S = T := by
  cases S; cases T; simp_all

theorem best_unique (mode : Mode) (v : Pt) (l : List (Pt × Pt)) (hl : l ≠ []) (h : ∀ e ∈ l, v ≠ e.1) (hm : muOf mode v l ≠ 0) :
    UniqueBest mode l v (best mode v l) := by
  have hW := mom_one_pos v l hl h
  have hmu : 0 < muOf mode v l := by
    apply lt_of_le_of_ne _ (Ne.symm hm)
    unfold muOf
    split
    · exact Real.sqrt_nonneg _
    · exact mom_nonneg v l _ (fun e _ => by unfold Pt.dot; nlinarith [sq_nonneg (e.1.sub (mean1 v l)).x, sq_nonneg (e.1.sub (mean1 v l)).y])
  have had : Admissible mode (best mode v l) := by
    rintro rfl
    have hs : muOf .rigid v l ^ 2 = c1 v l * c1 v l + c2 v l * c2 v l := by
      unfold muOf
      rw [if_pos rfl, Real.sq_sqrt (by nlinarith [sq_nonneg (c1 v l), sq_nonneg (c2 v l)])]
    unfold best
    dsimp only
    rw [div_pow, div_pow, ← add_div, hs]
    have : c1 v l * c1 v l + c2 v l * c2 v l ≠ 0 := by rw [← hs]; positivity
    rw [div_eq_one_iff_eq this]
    ring
  refine ⟨had, fun T' hT' hne => ?_⟩
  obtain ⟨K, hK⟩ := cost_centred v l hW
  have key : cost l v T' - cost l v (best mode v l) = muOf mode v l * ((T'.ax - (best mode v l).ax) ^ 2 + (T'.ay - (best mode v l).ay) ^ 2) +
      mom v l (fun _ => 1) * ((T'.bx + (T'.ax * (mean1 v l).x - T'.ay * (mean1 v l).y) - (mean2 v l).x) ^ 2 +
      (T'.by' + (T'.ay * (mean1 v l).x + T'.ax * (mean1 v l).y) - (mean2 v l).y) ^ 2) := by
    have hc1 : c1 v l = muOf mode v l * (best mode v l).ax := by unfold best; dsimp only; field_simp
    have hc2 : c2 v l = muOf mode v l * (best mode v l).ay := by unfold best; dsimp only; field_simp
    have hb1 : (best mode v l).bx + ((best mode v l).ax * (mean1 v l).x - (best mode v l).ay * (mean1 v l).y) - (mean2 v l).x = 0 := by
      unfold best; dsimp only; ring
    have hb2 : (best mode v l).by' + ((best mode v l).ay * (mean1 v l).x + (best mode v l).ax * (mean1 v l).y) - (mean2 v l).y = 0 := by
      unfold best; dsimp only; ring
    rw [hK, hK, hb1, hb2, hc1, hc2]
    cases mode with
    | rigid =>
      have h1 := hT' rfl
      have h2 := had rfl
      linear_combination (var v l - muOf .rigid v l) * (h1 - h2) + 2 * muOf .rigid v l * (0 : ℝ)
    | similarity =>
      have : muOf .similarity v l = var v l := by unfold muOf; simp
      rw [this]
      ring
  have hpos : 0 < cost l v T' - cost l v (best mode v l) := by
    rw [key]
    by_contra hn
    have n1 : 0 ≤ muOf mode v l * ((T'.ax - (best mode v l).ax) ^ 2 + (T'.ay - (best mode v l).ay) ^ 2) := by positivity
    have n2 : 0 ≤ mom v l (fun _ => 1) * ((T'.bx + (T'.ax * (mean1 v l).x - T'.ay * (mean1 v l).y) - (mean2 v l).x) ^ 2 +
      (T'.by' + (T'.ay * (mean1 v l).x + T'.ax * (mean1 v l).y) - (mean2 v l).y) ^ 2) := by positivity
    have z1 : (T'.ax - (best mode v l).ax) ^ 2 + (T'.ay - (best mode v l).ay) ^ 2 = 0 := by
      have z : muOf mode v l * ((T'.ax - (best mode v l).ax) ^ 2 + (T'.ay - (best mode v l).ay) ^ 2) = 0 := by linarith
      rcases mul_eq_zero.1 z with h | h
      · exact absurd h hm
      · exact h
    have z2 : (T'.bx + (T'.ax * (mean1 v l).x - T'.ay * (mean1 v l).y) - (mean2 v l).x) ^ 2 +
      (T'.by' + (T'.ay * (mean1 v l).x + T'.ax * (mean1 v l).y) - (mean2 v l).y) ^ 2 = 0 := by
      have z : mom v l (fun _ => 1) * ((T'.bx + (T'.ax * (mean1 v l).x - T'.ay * (mean1 v l).y) - (mean2 v l).x) ^ 2 +
        (T'.by' + (T'.ay * (mean1 v l).x + T'.ax * (mean1 v l).y) - (mean2 v l).y) ^ 2) = 0 := by linarith
      rcases mul_eq_zero.1 z with h | h
      · exact absurd h hW.ne'
      · exact h
    have sq0 : ∀ a b : ℝ, a ^ 2 + b ^ 2 = 0 → a = 0 ∧ b = 0 := by
      intro a b hab
      constructor
      · have : a ^ 2 = 0 := by nlinarith [sq_nonneg a, sq_nonneg b]
        exact pow_eq_zero_iff (by norm_num) |>.1 this
      · have : b ^ 2 = 0 := by nlinarith [sq_nonneg a, sq_nonneg b]
        exact pow_eq_zero_iff (by norm_num) |>.1 this
    obtain ⟨a1, a2⟩ := sq0 _ _ z1
    obtain ⟨b1, b2⟩ := sq0 _ _ z2
    have ea : T'.ax = (best mode v l).ax := by linarith
    have eb : T'.ay = (best mode v l).ay := by linarith
    apply hne
    apply sim_eq ea eb
    · have : T'.bx = (mean2 v l).x - (T'.ax * (mean1 v l).x - T'.ay * (mean1 v l).y) := by linarith
      rw [this, ea, eb]; unfold best; rfl
    · have : T'.by' = (mean2 v l).y - (T'.ay * (mean1 v l).x + T'.ax * (mean1 v l).y) := by linarith
      rw [this, ea, eb]; unfold best; rfl
  linarith

theorem no_unique (mode : Mode) (v : Pt) (l : List (Pt × Pt)) (hl : l ≠ []) (h : ∀ e ∈ l, v ≠ e.1) (hm : muOf mode v l = 0) (T : Sim) :
    ¬UniqueBest mode l v T := by
  have hW := mom_one_pos v l hl h
  obtain ⟨K, hK⟩ := cost_centred v l hW
  rintro ⟨hT, hu⟩
  cases mode with
  | rigid =>
    have hs : c1 v l * c1 v l + c2 v l * c2 v l = 0 := by
      unfold muOf at hm
      rw [if_pos rfl] at hm
      exact (Real.sqrt_eq_zero (by nlinarith [sq_nonneg (c1 v l), sq_nonneg (c2 v l)])).1 hm
    have h1 : c1 v l = 0 := by
      have : c1 v l ^ 2 = 0 := by nlinarith [sq_nonneg (c1 v l), sq_nonneg (c2 v l)]
      exact pow_eq_zero_iff (by norm_num) |>.1 this
    have h2 : c2 v l = 0 := by
      have : c2 v l ^ 2 = 0 := by nlinarith [sq_nonneg (c1 v l), sq_nonneg (c2 v l)]
      exact pow_eq_zero_iff (by norm_num) |>.1 this
    have hu1 := hT rfl
    have := hu ⟨-T.ax, -T.ay, T.bx + 2 * (T.ax * (mean1 v l).x - T.ay * (mean1 v l).y), T.by' + 2 * (T.ay * (mean1 v l).x + T.ax * (mean1 v l).y)⟩
      (fun _ => by dsimp only; linarith [hu1, neg_sq T.ax, neg_sq T.ay]) (by
        intro he
        have e1 : -T.ax = T.ax := congrArg Sim.ax he
        have e2 : -T.ay = T.ay := congrArg Sim.ay he
        have e1 : T.ax = 0 := by linarith
        have e2 : T.ay = 0 := by linarith
        rw [e1, e2] at hu1
        norm_num at hu1)
    rw [hK, hK, h1, h2] at this
    dsimp only at this
    apply absurd this
    apply not_lt_of_ge
    apply le_of_eq
    ring
  | similarity =>
    have hv : var v l = 0 := by unfold muOf at hm; simpa using hm
    obtain ⟨h1, h2⟩ := corr_zero v l h hv
    have := hu ⟨T.ax + 1, T.ay, T.bx - (mean1 v l).x, T.by' - (mean1 v l).y⟩ (fun h => by cases h) (by
        intro he
        have e1 : T.ax + 1 = T.ax := congrArg Sim.ax he
        linarith)
    rw [hK, hK, h1, h2, hv] at this
    dsimp only at this
    apply absurd this
    apply not_lt_of_ge
    apply le_of_eq
    ring

theorem newPoint_iff (mode : Mode) (v : Pt) (l : List (Pt × Pt)) (hl : l ≠ []) (h : ∀ e ∈ l, v ≠ e.1) (n : Pt) :
    newPoint mode l v = some n ↔ ∃ T, UniqueBest mode l v T ∧ n = T.app v := by
  rw [newPoint_eval mode v l hl h]
  by_cases hm : muOf mode v l = 0
  · rw [if_pos hm]
    constructor
    · intro h; cases h
    · rintro ⟨T, hT, _⟩
      exact absurd hT (no_unique mode v l hl h hm T)
  · rw [if_neg hm]
    have hb := best_unique mode v l hl h hm
    constructor
    · intro he
      exact ⟨_, hb, (Option.some.inj he).symm⟩
    · rintro ⟨T, hT, rfl⟩
      by_cases hTe : T = best mode v l
      · rw [hTe]
      · have a := hT.2 _ hb.1 (Ne.symm hTe)
        have b := hb.2 _ hT.1 hTe
        linarith

theorem cost_nonneg (v : Pt) (l : List (Pt × Pt)) (T : Sim) : 0 ≤ cost l v T := by
  unfold cost
  apply List.sum_nonneg
  intro x hx
  obtain ⟨e, _, rfl⟩ := List.mem_map.1 hx
  have := dist2_nonneg (T.app e.1) e.2
  have := dist2_nonneg v e.1
  positivity

theorem cost_as_mom (v : Pt) (l : List (Pt × Pt)) (T : Sim) : cost l v T = mom v l (fun e => dist2 (T.app e.1) e.2) := by
  unfold cost mom
  congr 1
  exact List.map_congr_left fun e _ => by rw [one_div, div_eq_inv_mul]

theorem app_two {S T : Sim} {p p' : Pt} (hp : p ≠ p') (h1 : S.app p = T.app p) (h2 : S.app p' = T.app p') : S = T := by
  unfold Sim.app at h1 h2
  have a := congrArg Pt.x h1
  have b := congrArg Pt.y h1
  have c := congrArg Pt.x h2
  have d := congrArg Pt.y h2
  dsimp only at a b c d
  have hd := dist2_pos hp
  unfold dist2 at hd
  have e1 : (S.ax - T.ax) * ((p.x - p'.x) ^ 2 + (p.y - p'.y) ^ 2) = 0 := by
    linear_combination (p.x - p'.x) * (a - c) + (p.y - p'.y) * (b - d)
  have e2 : (S.ay - T.ay) * ((p.x - p'.x) ^ 2 + (p.y - p'.y) ^ 2) = 0 := by
    linear_combination (p.x - p'.x) * (b - d) - (p.y - p'.y) * (a - c)
  have f1 : S.ax = T.ax := by
    rcases mul_eq_zero.1 e1 with h | h
    · linarith
    · exact absurd h hd.ne'
  have f2 : S.ay = T.ay := by
    rcases mul_eq_zero.1 e2 with h | h
    · linarith
    · exact absurd h hd.ne'
  apply sim_eq f1 f2
  · rw [f1, f2] at a; linarith
  · rw [f1, f2] at b; linarith

theorem exact_unique (mode : Mode) (v : Pt) (l : List (Pt × Pt)) (h : ∀ e ∈ l, v ≠ e.1) (T : Sim) (hT : Admissible mode T)
    (hx : ∀ e ∈ l, e.2 = T.app e.1) (e e' : Pt × Pt) (he : e ∈ l) (he' : e' ∈ l) (hne : e.1 ≠ e'.1) : UniqueBest mode l v T := by
  refine ⟨hT, fun T' _ hTT => ?_⟩
  have hc : cost l v T = 0 := by
    rw [cost_as_mom, mom_congr v l _ (fun _ => 0) (fun e he => by rw [hx e he]; unfold dist2; ring), mom_const0]
  rw [hc]
  apply lt_of_le_of_ne (cost_nonneg v l T')
  intro h0
  rw [cost_as_mom] at h0
  have hz := mom_zero v l _ (fun e _ => dist2_nonneg _ _) h h0.symm
  have z1 := dist2_zero (hz e he)
  have z2 := dist2_zero (hz e' he')
  rw [hx e he] at z1
  rw [hx e' he'] at z2
  exact hTT (app_two hne z1 z2)

theorem split_first (v : Pt) (l : List (Pt × Pt)) (h : ∃ e ∈ l, v = e.1) : ∃ pre q post, l = pre ++ (v, q) :: post ∧ ∀ e ∈ pre, v ≠ e.1 := by
  induction l with
  | nil => obtain ⟨e, he, _⟩ := h; cases he
  | cons e l ih =>
    by_cases h0 : v = e.1
    · exact ⟨[], e.2, l, by rw [h0]; rfl, by simp⟩
    · have : ∃ e ∈ l, v = e.1 := by
        obtain ⟨e', he', h'⟩ := h
        rcases List.mem_cons.1 he' with rfl | he'
        · exact absurd h' h0
        · exact ⟨e', he', h'⟩
      obtain ⟨pre, q, post, rfl, hp⟩ := ih this
      refine ⟨e :: pre, q, post, rfl, ?_⟩
      intro e' he'
      rcases List.mem_cons.1 he' with rfl | he'
      · exact h0
      · exact hp e' he'

theorem newPoint_at (mode : Mode) (v q : Pt) (pre post : List (Pt × Pt)) (h : ∀ e ∈ pre, v ≠ e.1) :
    newPoint mode (pre ++ (v, q) :: post) v = some q := by
  unfold newPoint
  rw [gather_inl v pre post q _ h]

theorem newPoint_exact (mode : Mode) (v : Pt) (l : List (Pt × Pt)) (T : Sim) (hT : Admissible mode T)
    (hx : ∀ e ∈ l, e.2 = T.app e.1) (e e' : Pt × Pt) (he : e ∈ l) (he' : e' ∈ l) (hne : e.1 ≠ e'.1) : newPoint mode l v = some (T.app v) := by
  by_cases h : ∃ e ∈ l, v = e.1
  · obtain ⟨pre, q, post, rfl, hp⟩ := split_first v l h
    rw [newPoint_at mode v q pre post hp, ← hx (v, q) (by simp)]
  · push Not at h
    rw [newPoint_iff mode v l (by rintro rfl; cases he) h]
    exact ⟨T, exact_unique mode v l h T hT hx e e' he he' hne, rfl⟩

theorem similarity_none (v : Pt) (l : List (Pt × Pt)) (hl : l ≠ []) : newPoint .similarity l v = none ↔
    (∀ e ∈ l, v ≠ e.1) ∧ ∀ e ∈ l, ∀ e' ∈ l, e.1 = e'.1 := by
  by_cases h : ∃ e ∈ l, v = e.1
  · obtain ⟨pre, q, post, rfl, hp⟩ := split_first v l h
    rw [newPoint_at _ v q pre post hp]
    constructor
    · intro h; cases h
    · rintro ⟨h, _⟩
      exact absurd rfl (h (v, q) (by simp))
  · push Not at h
    rw [newPoint_eval _ v l hl h]
    have hmu : muOf .similarity v l = var v l := by unfold muOf; simp
    rw [hmu]
    by_cases hm : var v l = 0
    · rw [if_pos hm]
      have := var_zero v l h hm
      simp only [true_iff]
      exact ⟨h, fun e he e' he' => by rw [this e he, this e' he']⟩
    · rw [if_neg hm]
      constructor
      · intro h; cases h
      · rintro ⟨_, ha⟩
        exfalso
        apply hm
        obtain ⟨e0, he0⟩ := List.exists_mem_of_ne_nil l hl
        have hW := mom_one_pos v l hl h
        have hmx : mom v l (fun e => e.1.x) = e0.1.x * mom v l (fun _ => 1) := by
          rw [mom_congr v l _ (fun _ => e0.1.x) (fun e he => by rw [ha e he e0 he0])]
          unfold mom
          rw [← List.sum_map_mul_left]
          congr 1
          exact List.map_congr_left fun e _ => by ring
        have hmy : mom v l (fun e => e.1.y) = e0.1.y * mom v l (fun _ => 1) := by
          rw [mom_congr v l _ (fun _ => e0.1.y) (fun e he => by rw [ha e he e0 he0])]
          unfold mom
          rw [← List.sum_map_mul_left]
          congr 1
          exact List.map_congr_left fun e _ => by ring
        have hme : mean1 v l = e0.1 := by
          unfold mean1
          rw [hmx, hmy]
          apply pt_eq <;> dsimp only <;> field_simp
        unfold var
        rw [hme, mom_congr v l _ (fun _ => 0) (fun e he => by rw [ha e he e0 he0]; unfold Pt.dot Pt.sub; simp), mom_const0]

theorem rigid_same_source (v q : Pt) (l : List (Pt × Pt)) (hl : l ≠ []) (h : ∀ e ∈ l, v ≠ e.1) (hq : ∀ e ∈ l, e.2 = q) :
    newPoint .rigid l v = none := by
  rw [newPoint_eval _ v l hl h, if_pos]
  have hW := mom_one_pos v l hl h
  have hmx : mom v l (fun e => e.2.x) = q.x * mom v l (fun _ => 1) := by
    rw [mom_congr v l _ (fun _ => q.x) (fun e he => by rw [hq e he])]
    unfold mom
    rw [← List.sum_map_mul_left]
    congr 1
    exact List.map_congr_left fun e _ => by ring
  have hmy : mom v l (fun e => e.2.y) = q.y * mom v l (fun _ => 1) := by
    rw [mom_congr v l _ (fun _ => q.y) (fun e he => by rw [hq e he])]
    unfold mom
    rw [← List.sum_map_mul_left]
    congr 1
    exact List.map_congr_left fun e _ => by ring
  have hme : mean2 v l = q := by
    unfold mean2
    rw [hmx, hmy]
    apply pt_eq <;> dsimp only <;> field_simp
  have h1 : c1 v l = 0 := by
    unfold c1
    rw [hme, mom_congr v l _ (fun _ => 0) (fun e he => by rw [hq e he]; unfold Pt.dot Pt.sub; simp), mom_const0]
  have h2 : c2 v l = 0 := by
    unfold c2
    rw [hme, mom_congr v l _ (fun _ => 0) (fun e he => by rw [hq e he]; unfold Pt.dot Pt.perp Pt.sub; simp), mom_const0]
  unfold muOf
  rw [h1, h2]
  simp

end Litiv.Warp
