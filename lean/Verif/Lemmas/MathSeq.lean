import Verif.Model.MathSeq
import Verif.Spec.MathSeq
import Mathlib.Tactic.Ring
import Mathlib.Tactic.Linarith
import Mathlib.Tactic.FieldSimp
import Mathlib.Algebra.BigOperators.Group.List.Basic
import Mathlib.Data.List.Rotate

namespace Litiv.MathSeq
open Spec

/-! ### Nearest neighbour -/

theorem findNNLoop_some {α δ : Type} [LinearOrder δ] (d : α → δ) (xs : List α) (pre : List δ) (m : δ) (i : Nat)
    (h : pre[i]? = some m) (hmin : ∀ (j : Nat) x, pre[j]? = some x → m ≤ x) (hfst : ∀ (j : Nat) x, j < i → pre[j]? = some x → m < x) :
    ∃ m' i', findNNLoop d xs pre.length (some (m, i)) = some (m', i') ∧
      (pre ++ xs.map d)[i']? = some m' ∧ (∀ (j : Nat) x, (pre ++ xs.map d)[j]? = some x → m' ≤ x) ∧
      ∀ (j : Nat) x, j < i' → (pre ++ xs.map d)[j]? = some x → m' < x := by
  induction xs generalizing pre m i with
  | nil => exact ⟨m, i, rfl, by simpa using h, by simpa using hmin, by simpa using hfst⟩
  | cons a xs ih =>
    have hlen : (pre ++ [d a]).length = pre.length + 1 := by simp
    have happ : pre ++ (a :: xs).map d = (pre ++ [d a]) ++ xs.map d := by simp
    have hcase : ∀ (j : Nat) x, (pre ++ [d a])[j]? = some x → (j < pre.length ∧ pre[j]? = some x) ∨ (j = pre.length ∧ x = d a) := by
      intro j x hj
      rw [List.getElem?_append] at hj
      split at hj
      · rename_i h'; exact Or.inl ⟨h', hj⟩
      · rename_i h'
        have : j - pre.length = 0 := by
          by_contra hc
          obtain ⟨q, hq⟩ : ∃ q, j - pre.length = q + 1 := ⟨j - pre.length - 1, by omega⟩
          rw [hq] at hj; simp at hj
        rw [this] at hj
        exact Or.inr ⟨by omega, by simpa using hj.symm⟩
    have hi : i < pre.length := by
      by_contra hc
      rw [List.getElem?_eq_none (by omega)] at h; simp at h
    rw [happ, findNNLoop, ← hlen]
    split
    · rename_i hlt
      apply ih (pre ++ [d a]) (d a) pre.length
      · simp
      · intro j x hj
        rcases hcase j x hj with ⟨_, h'⟩ | ⟨_, rfl⟩
        · exact le_of_lt (lt_of_lt_of_le hlt (hmin j x h'))
        · exact le_refl _
      · intro j x hji hj
        rcases hcase j x hj with ⟨_, h'⟩ | ⟨h', _⟩
        · exact lt_of_lt_of_le hlt (hmin j x h')
        · omega
    · rename_i hlt
      apply ih (pre ++ [d a]) m i
      · rw [List.getElem?_append_left hi]; exact h
      · intro j x hj
        rcases hcase j x hj with ⟨_, h'⟩ | ⟨_, rfl⟩
        · exact hmin j x h'
        · exact not_lt.1 hlt
      · intro j x hji hj
        rcases hcase j x hj with ⟨_, h'⟩ | ⟨h', _⟩
        · exact hfst j x hji h'
        · omega

theorem findNN_firstMin {α β δ : Type} [LinearOrder δ] (req : β) (refs : List α) (comp : β → α → δ) (h : refs ≠ []) :
    ∃ i, findNNIndex req refs comp = some i ∧ FirstMin (refs.map (comp req)) i := by
  match refs, h with
  | a :: xs, _ =>
    obtain ⟨m', i', h1, h2, h3, h4⟩ := findNNLoop_some (comp req) xs [comp req a] (comp req a) 0 rfl
      (by intro j x hj
          match j, hj with
          | 0, hj => simp at hj; rw [hj]
          | j + 1, hj => simp at hj)
      (by intro j x hj; omega)
    refine ⟨i', ?_, m', ?_, ?_, ?_⟩
    · rw [findNNIndex, findNNLoop]
      have : [comp req a].length = 0 + 1 := rfl
      rw [this] at h1
      rw [h1]; rfl
    · simpa using h2
    · simpa using h3
    · simpa using h4

theorem firstMin_unique {δ : Type} [LinearOrder δ] {ds : List δ} {i j : Nat} (h1 : FirstMin ds i) (h2 : FirstMin ds j) :
    i = j := by
  obtain ⟨m, a1, a2, a3⟩ := h1
  obtain ⟨m', b1, b2, b3⟩ := h2
  rcases lt_trichotomy i j with h | h | h
  · exact absurd (b3 i m h a1) (not_lt.2 (a2 j m' b1))
  · exact h
  · exact absurd (a3 j m' h b1) (not_lt.2 (b2 i m a1))

set_option linter.unusedSectionVars false
section Field
variable {K : Type} [Field K] [LinearOrder K] [IsStrictOrderedRing K]

/-! ### Interpolation -/

theorem slopes_get (knots : List (K × K)) (prev : K) (i : Nat) (p q : K × K) (hp : knots[i]? = some p)
    (hq : knots[i + 1]? = some q) : (slopes knots prev)[i]? = some ((q.2 - p.2) / (q.1 - p.1)) := by
  induction knots generalizing i prev with
  | nil => simp at hp
  | cons a l ih =>
    cases l with
    | nil => simp at hq
    | cons b l =>
      cases i with
      | zero =>
        simp at hp hq
        subst hp; subst hq
        simp [slopes]
      | succ i =>
        rw [slopes, List.getElem?_cons_succ]
        exact ih _ i (by simpa using hp) (by simpa using hq)

theorem slopes_length (knots : List (K × K)) (prev : K) : (slopes knots prev).length = knots.length := by
  induction knots generalizing prev with
  | nil => rfl
  | cons a l ih => cases l with
    | nil => rfl
    | cons b l => simp [slopes, ih]

theorem increasing_lt {knots : List (K × K)} (h : Increasing knots) {i j : Nat} {p q : K × K} (hij : i < j)
    (hp : knots[i]? = some p) (hq : knots[j]? = some q) : p.1 < q.1 := by
  obtain ⟨hi, rfl⟩ := List.getElem?_eq_some_iff.1 hp
  obtain ⟨hj, rfl⟩ := List.getElem?_eq_some_iff.1 hq
  exact List.pairwise_iff_getElem.1 h i j hi hj hij

theorem increasing_le {knots : List (K × K)} (h : Increasing knots) {i j : Nat} {p q : K × K} (hij : i ≤ j)
    (hp : knots[i]? = some p) (hq : knots[j]? = some q) : p.1 ≤ q.1 := by
  rcases Nat.lt_or_eq_of_le hij with h' | rfl
  · exact le_of_lt (increasing_lt h h' hp hq)
  · rw [hp] at hq; injection hq with hq; rw [hq]

theorem interp1_of_nearest (knots : List (K × K)) (x : K) (i : Nat) (f b p : K × K) (s : K)
    (hf : knots.head? = some f) (hb : knots.getLast? = some b) (h1 : f.1 ≤ x) (h2 : x ≤ b.1)
    (hi : FirstMin ((knots.map (·.1)).map fun a => |x - a|) i) (hp : knots[i]? = some p)
    (hs : (slopes knots 0)[i]? = some s) : interp1 knots x = some (p.2 + s * (x - p.1)) := by
  have hne : knots.map (·.1) ≠ [] := by
    intro hc
    rw [List.map_eq_nil_iff] at hc
    rw [hc] at hf; simp at hf
  obtain ⟨i', hi1, hi2⟩ := findNN_firstMin x (knots.map (·.1)) (fun a b => |a - b|) hne
  have : i' = i := firstMin_unique hi2 hi
  subst this
  unfold interp1
  rw [hf, hb]
  dsimp only
  rw [if_pos ⟨h1, h2⟩, hi1]
  dsimp only
  rw [hp, hs]
  dsimp only
  congr 1
  ring

/-! ### Earth mover distances -/

theorem sum_abs_triangle (l : List (K × K × K)) :
    (l.map fun t => |t.1 - t.2.2|).sum ≤ (l.map fun t => |t.1 - t.2.1|).sum + (l.map fun t => |t.2.1 - t.2.2|).sum := by
  induction l with
  | nil => simp
  | cons t l ih =>
    simp only [List.map_cons, List.sum_cons]
    have := abs_sub_le t.1 t.2.1 t.2.2
    linarith

theorem sum_abs_nonneg (l : List (K × K)) : 0 ≤ (l.map fun p => |p.1 - p.2|).sum := by
  induction l with
  | nil => simp
  | cons p l ih =>
    simp only [List.map_cons, List.sum_cons]
    have := abs_nonneg (p.1 - p.2)
    linarith

theorem sum_abs_eq_zero (l : List (K × K)) (h : (l.map fun p => |p.1 - p.2|).sum = 0) : ∀ p ∈ l, p.1 = p.2 := by
  induction l with
  | nil => simp
  | cons p l ih =>
    simp only [List.map_cons, List.sum_cons] at h
    have h1 := abs_nonneg (p.1 - p.2)
    have h2 := sum_abs_nonneg l
    have h3 : |p.1 - p.2| = 0 := by linarith
    intro q hq
    rcases List.mem_cons.1 hq with rfl | hq
    · exact sub_eq_zero.1 (abs_eq_zero.1 h3)
    · exact ih (by linarith) q hq

theorem cumSum_length (acc : K) (l : List K) : (cumSum acc l).length = l.length := by
  induction l generalizing acc with
  | nil => rfl
  | cons x l ih => simp [cumSum, ih]

theorem cumSum_zip_eq (a b : List K) (acc : K) (hl : a.length = b.length)
    (h : ∀ p ∈ (cumSum acc a).zip (cumSum acc b), p.1 = p.2) : a = b := by
  induction a generalizing b acc with
  | nil => cases b with
    | nil => rfl
    | cons y b => simp at hl
  | cons x a ih => cases b with
    | nil => simp at hl
    | cons y b =>
      simp only [cumSum, List.zip_cons_cons, List.mem_cons, forall_eq_or_imp] at h
      have hxy : x = y := by have := h.1; simpa using this
      subst hxy
      rw [ih b (acc + x) (by simpa using hl) h.2]

theorem emd_comm (a b : List K) : emd a b = emd b a := by
  have : ∀ u v : List K, (u.zip v).map (fun p => |p.1 - p.2|) = (v.zip u).map fun p => |p.1 - p.2| := by
    intro u
    induction u with
    | nil => intro v; cases v <;> simp
    | cons x u ih =>
      intro v
      cases v with
      | nil => simp
      | cons y v => simp [ih v, abs_sub_comm]
  unfold emd
  rw [this]

theorem zip3 {α β γ δ : Type} (f : α → β → δ) (g : α → γ → δ) (h : β → γ → δ) (a : List α) (b : List β) (c : List γ)
    (h1 : a.length = b.length) (h2 : b.length = c.length) :
    (a.zip b).map (fun p => f p.1 p.2) = (a.zip (b.zip c)).map (fun t => f t.1 t.2.1) ∧
    (a.zip c).map (fun p => g p.1 p.2) = (a.zip (b.zip c)).map (fun t => g t.1 t.2.2) ∧
    (b.zip c).map (fun p => h p.1 p.2) = (a.zip (b.zip c)).map (fun t => h t.2.1 t.2.2) := by
  induction a generalizing b c with
  | nil => cases b with
    | nil => simp
    | cons y b => simp at h1
  | cons x a ih => cases b with
    | nil => simp at h1
    | cons y b => cases c with
      | nil => simp at h2
      | cons z c =>
        obtain ⟨e1, e2, e3⟩ := ih b c (by simpa using h1) (by simpa using h2)
        simp [e1, e2, e3]

theorem emd_triangle (a b c : List K) (h1 : a.length = b.length) (h2 : b.length = c.length) :
    emd a c ≤ emd a b + emd b c := by
  unfold emd
  obtain ⟨e1, e2, e3⟩ := zip3 (fun x y : K => |x - y|) (fun x y : K => |x - y|) (fun x y : K => |x - y|)
    (cumSum 0 a) (cumSum 0 b) (cumSum 0 c) (by rw [cumSum_length, cumSum_length, h1]) (by rw [cumSum_length, cumSum_length, h2])
  rw [e1, e2, e3]
  exact sum_abs_triangle _

theorem cumDiff_eq (a b : List K) (x y : K) :
    cumDiff (x - y) a b = ((cumSum x a).zip (cumSum y b)).map fun p => p.1 - p.2 := by
  induction a generalizing b x y with
  | nil => simp [cumDiff, cumSum]
  | cons u a ih => cases b with
    | nil => simp [cumDiff, cumSum]
    | cons v b =>
      simp only [cumDiff, cumSum, List.zip_cons_cons, List.map_cons]
      have e : x - y + (u - v) = x + u - (y + v) := by ring
      rw [e, ih]

theorem cumDiff_length (acc : K) (a b : List K) (h : a.length = b.length) : (cumDiff acc a b).length = a.length := by
  induction a generalizing b acc with
  | nil => simp [cumDiff]
  | cons u a ih => cases b with
    | nil => simp at h
    | cons v b => simp [cumDiff, ih _ b (by simpa using h)]

theorem emd_eq_cumDiff (a b : List K) : emd a b = ((cumDiff 0 a b).map fun d => |d|).sum := by
  have := cumDiff_eq a b 0 0
  rw [sub_zero] at this
  rw [this, List.map_map]
  rfl

theorem sum_abs_low (l : List K) (m c : K) (hmc : m ≤ c) (h : ∀ d ∈ l, d ≤ m) :
    (l.map fun d => |d - m|).sum + l.length * (c - m) ≤ (l.map fun d => |d - c|).sum := by
  induction l with
  | nil => simp
  | cons d l ih =>
    have h1 := ih fun d hd => h d (List.mem_cons_of_mem _ hd)
    have h2 := h d List.mem_cons_self
    simp only [List.map_cons, List.sum_cons, List.length_cons]
    rw [abs_of_nonpos (sub_nonpos.2 h2), abs_of_nonpos (sub_nonpos.2 (le_trans h2 hmc))]
    push_cast
    linarith

theorem sum_abs_high (l : List K) (m c : K) (hmc : c ≤ m) (h : ∀ d ∈ l, m ≤ d) :
    (l.map fun d => |d - m|).sum + l.length * (m - c) ≤ (l.map fun d => |d - c|).sum := by
  induction l with
  | nil => simp
  | cons d l ih =>
    have h1 := ih fun d hd => h d (List.mem_cons_of_mem _ hd)
    have h2 := h d List.mem_cons_self
    simp only [List.map_cons, List.sum_cons, List.length_cons]
    rw [abs_of_nonneg (sub_nonneg.2 h2), abs_of_nonneg (sub_nonneg.2 (le_trans hmc h2))]
    push_cast
    linarith

theorem sum_abs_any (l : List K) (m c : K) :
    (l.map fun d => |d - m|).sum - l.length * |c - m| ≤ (l.map fun d => |d - c|).sum := by
  induction l with
  | nil => simp
  | cons d l ih =>
    simp only [List.map_cons, List.sum_cons, List.length_cons]
    have := abs_sub_le d c m
    push_cast
    linarith

/-- A median minimises the sum of absolute deviations. -/
theorem median_minimises (v : List K) (m : K) (hv : v[v.length / 2]? = some m) (hlo : ∀ x ∈ v.take (v.length / 2), x ≤ m)
    (hhi : ∀ x ∈ v.drop (v.length / 2), m ≤ x) (c : K) :
    (v.map fun d => |d - m|).sum ≤ (v.map fun d => |d - c|).sum := by
  obtain ⟨hlt, hm⟩ := List.getElem?_eq_some_iff.1 hv
  generalize hk : v.length / 2 = k at *
  rcases le_total m c with hmc | hcm
  · have hs : v = v.take (k + 1) ++ v.drop (k + 1) := (List.take_append_drop _ _).symm
    have h1 := sum_abs_low (v.take (k + 1)) m c hmc (by
      intro d hd
      rw [List.take_succ_eq_append_getElem hlt] at hd
      rcases List.mem_append.1 hd with hd | hd
      · exact hlo d hd
      · rw [List.mem_singleton.1 hd, hm])
    have h2 := sum_abs_any (v.drop (k + 1)) m c
    rw [abs_of_nonneg (sub_nonneg.2 hmc)] at h2
    rw [hs, List.map_append, List.map_append, List.sum_append, List.sum_append]
    rw [List.length_take, Nat.min_eq_left (by omega)] at h1
    rw [List.length_drop] at h2
    have h3 : ((v.length - (k + 1) : Nat) : K) ≤ ((k + 1 : Nat) : K) := by exact_mod_cast (by omega)
    have h4 : ((v.length - (k + 1) : Nat) : K) * (c - m) ≤ ((k + 1 : Nat) : K) * (c - m) :=
      mul_le_mul_of_nonneg_right h3 (sub_nonneg.2 hmc)
    linarith
  · have hs : v = v.take k ++ v.drop k := (List.take_append_drop _ _).symm
    have h1 := sum_abs_high (v.drop k) m c hcm hhi
    have h2 := sum_abs_any (v.take k) m c
    rw [abs_sub_comm, abs_of_nonneg (sub_nonneg.2 hcm)] at h2
    rw [hs, List.map_append, List.map_append, List.sum_append, List.sum_append]
    rw [List.length_take, Nat.min_eq_left (by omega)] at h2
    rw [List.length_drop] at h1
    have h3 : ((k : Nat) : K) ≤ ((v.length - k : Nat) : K) := by exact_mod_cast (by omega)
    have h4 : ((k : Nat) : K) * (m - c) ≤ ((v.length - k : Nat) : K) * (m - c) :=
      mul_le_mul_of_nonneg_right h3 (sub_nonneg.2 hcm)
    linarith

/-! ### Circularity -/

theorem cumDiff_shift (acc : K) (a b : List K) : cumDiff acc a b = (cumDiff 0 a b).map fun d => acc + d := by
  induction a generalizing acc b with
  | nil => simp [cumDiff]
  | cons x a ih => cases b with
    | nil => simp [cumDiff]
    | cons y b =>
      simp only [cumDiff, List.map_cons, zero_add]
      rw [ih (acc + (x - y)), ih (x - y), List.map_map]
      congr 1
      apply List.map_congr_left
      intro d _
      simp only [Function.comp]
      ring

theorem cumDiff_append (acc : K) (a b : List K) (x y : K) (h : a.length = b.length) :
    cumDiff acc (a ++ [x]) (b ++ [y]) = cumDiff acc a b ++ [acc + (a.sum - b.sum) + (x - y)] := by
  induction a generalizing acc b with
  | nil => cases b with
    | nil => simp [cumDiff]
    | cons y b => simp at h
  | cons u a ih => cases b with
    | nil => simp at h
    | cons v b =>
      simp only [List.cons_append, cumDiff, List.sum_cons]
      rw [ih _ b (by simpa using h)]
      congr 3
      ring

/-- Rotating both histograms by one permutes and shifts the running differences. -/
theorem cumDiff_rotate_one (x y : K) (a b : List K) (h : a.length = b.length) (hs : (x :: a).sum = (y :: b).sum) :
    (cumDiff 0 (a ++ [x]) (b ++ [y])).Perm ((cumDiff 0 (x :: a) (y :: b)).map fun d => d - (x - y)) := by
  rw [cumDiff_append 0 a b x y h]
  simp only [cumDiff, List.map_cons, zero_add]
  have e : a.sum - b.sum + (x - y) = x - y - (x - y) := by
    simp only [List.sum_cons] at hs
    linarith
  rw [e, cumDiff_shift (x - y), List.map_map]
  have e2 : (cumDiff 0 a b).map ((fun d => d - (x - y)) ∘ fun d => x - y + d) = cumDiff 0 a b := by
    conv_rhs => rw [← List.map_id (cumDiff 0 a b)]
    apply List.map_congr_left
    intro d _
    simp
  rw [e2]
  exact List.perm_append_singleton _ _

/-- The least sum of absolute deviations of `l`. -/
def LeastDev (l : List K) (r : K) : Prop :=
  (∃ m, r = (l.map fun d => |d - m|).sum) ∧ ∀ c, r ≤ (l.map fun d => |d - c|).sum

theorem LeastDev.unique {l : List K} {r r' : K} (h : LeastDev l r) (h' : LeastDev l r') : r = r' := by
  obtain ⟨⟨m, hm⟩, h2⟩ := h
  obtain ⟨⟨m', hm'⟩, h2'⟩ := h'
  exact le_antisymm (hm' ▸ h2 m') (hm ▸ h2' m)

theorem LeastDev.perm {l l' : List K} {r : K} (hp : l.Perm l') (h : LeastDev l r) : LeastDev l' r := by
  obtain ⟨⟨m, hm⟩, h2⟩ := h
  exact ⟨⟨m, hm.trans (hp.map _).sum_eq⟩, fun c => (h2 c).trans (le_of_eq (hp.map _).sum_eq)⟩

theorem LeastDev.shift {l : List K} {r : K} (s : K) (h : LeastDev l r) : LeastDev (l.map fun d => d - s) r := by
  obtain ⟨⟨m, hm⟩, h2⟩ := h
  refine ⟨⟨m - s, ?_⟩, fun c => ?_⟩
  · rw [hm, List.map_map]
    congr 1
    apply List.map_congr_left
    intro d _
    simp
  · have := h2 (c + s)
    rw [List.map_map]
    refine this.trans (le_of_eq ?_)
    congr 1
    apply List.map_congr_left
    intro d _
    simp only [Function.comp]
    rw [sub_sub, add_comm]

theorem leastDev_cemdOf (l v : List K) (n : Nat) (hl : l.length = n) (hn : 0 < n) (hv : NthElement l (n / 2) v) :
    ∃ r, cemdOf v n = some r ∧ LeastDev l r := by
  obtain ⟨hp, hm⟩ := hv
  have hlen : v.length = n := hp.length_eq.trans hl
  obtain ⟨m, hv⟩ : ∃ m, v[n / 2]? = some m := ⟨v[n / 2]'(by omega), List.getElem?_eq_getElem _⟩
  obtain ⟨h1, h2⟩ := hm m hv
  refine ⟨_, by rw [cemdOf, hv]; rfl, LeastDev.perm hp ⟨⟨m, rfl⟩, fun c => ?_⟩⟩
  subst hlen
  exact median_minimises v m hv h1 h2 c

theorem leastDev_rotate (a b : List K) (k : Nat) (h : a.length = b.length) (hs : a.sum = b.sum) (r : K) :
    LeastDev (cumDiff 0 a b) r → LeastDev (cumDiff 0 (a.rotate k) (b.rotate k)) r := by
  induction k generalizing a b with
  | zero => simp
  | succ k ih =>
    intro hr
    cases a with
    | nil => cases b with
      | nil => simpa using hr
      | cons y b => simp at h
    | cons x a => cases b with
      | nil => simp at h
      | cons y b =>
        rw [List.rotate_cons_succ, List.rotate_cons_succ]
        have h' : a.length = b.length := by simpa using h
        apply ih
        · simp [h']
        · simp only [List.sum_append, List.sum_cons, List.sum_nil] at *
          linarith
        · exact (hr.shift (x - y)).perm (cumDiff_rotate_one x y a b h' hs).symm

end Field
end Litiv.MathSeq
