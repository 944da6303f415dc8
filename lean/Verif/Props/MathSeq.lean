import Verif.Lemmas.MathSeq

/-!
# Properties C20, C56 - C59: nearest neighbour, interpolation, sampling, earth mover distances
-/

namespace Litiv.MathSeq
open Spec

/-! ## C20: nearest neighbour -/

/-- C20: for every distance function into a linear order, `find_nn_index` returns the smallest index at minimal distance;
it reports "none" (all-ones) exactly for an empty list. -/
theorem findNNIndex_spec {α β δ : Type} [LinearOrder δ] (req : β) (refs : List α) (comp : β → α → δ) :
    (refs = [] → findNNIndex req refs comp = none) ∧
    (refs ≠ [] → ∃ i, findNNIndex req refs comp = some i ∧ FirstMin (refs.map (comp req)) i) := by
  refine ⟨?_, findNN_firstMin req refs comp⟩
  rintro rfl
  rfl

example : findNNIndex (7 : Nat) [1, 9, 5, 9] (fun a b => (a - b) + (b - a)) = some 1 := by decide

/-- C20: the index is valid, and the smallest minimal index is unique, so the specification determines the result. -/
theorem findNNIndex_determined {α β δ : Type} [LinearOrder δ] (req : β) (refs : List α) (comp : β → α → δ) (i : Nat)
    (h : FirstMin (refs.map (comp req)) i) : findNNIndex req refs comp = some i ∧ i < refs.length := by
  have hi : i < refs.length := by
    obtain ⟨m, hm, _⟩ := h
    obtain ⟨hlt, _⟩ := List.getElem?_eq_some_iff.1 hm
    simpa using hlt
  obtain ⟨j, hj, hj2⟩ := (findNNIndex_spec req refs comp).2 (by rintro rfl; simp at hi)
  rw [firstMin_unique h hj2]
  exact ⟨hj, firstMin_unique h hj2 ▸ hi⟩

section Field
variable {K : Type} [Field K] [LinearOrder K] [IsStrictOrderedRing K]

/-! ## C56: piecewise linear interpolation -/

/-- C56: requests outside the abscissa range are rejected, for any knots. -/
theorem interp1_domain (knots : List (K × K)) (x : K) (f b : K × K) (hf : knots.head? = some f)
    (hb : knots.getLast? = some b) (h : x < f.1 ∨ b.1 < x) : interp1 knots x = none := by
  unfold interp1
  rw [hf, hb]
  dsimp only
  rw [if_neg]
  rintro ⟨h1, h2⟩
  rcases h with h | h
  · exact absurd h1 (not_le.2 h)
  · exact absurd h2 (not_le.2 h)

/-- C56: interpolating at a knot returns its ordinate, for strictly increasing knots. -/
theorem interp1_at_knot (knots : List (K × K)) (h : Increasing knots) (i : Nat) (p : K × K) (hp : knots[i]? = some p) :
    interp1 knots p.1 = some p.2 := by
  have hi : i < knots.length := (List.getElem?_eq_some_iff.1 hp).1
  obtain ⟨f, hf⟩ : ∃ f, knots[0]? = some f := ⟨_, List.getElem?_eq_getElem (by omega)⟩
  obtain ⟨b, hb⟩ : ∃ b, knots[knots.length - 1]? = some b := ⟨_, List.getElem?_eq_getElem (by omega)⟩
  obtain ⟨s, hs⟩ : ∃ s, (slopes knots 0)[i]? = some s := ⟨_, List.getElem?_eq_getElem (by rw [slopes_length]; exact hi)⟩
  have := interp1_of_nearest knots p.1 i f b p s (by rw [List.head?_eq_getElem?]; exact hf)
    (by rw [List.getLast?_eq_getElem?]; exact hb) (increasing_le h (Nat.zero_le i) hf hp)
    (increasing_le h (by omega) hp hb) ?_ hp hs
  · rw [this]; simp
  · refine ⟨0, by simp [hp], ?_, ?_⟩
    · intro j x hj
      simp only [List.getElem?_map] at hj
      cases hq : knots[j]? with
      | none => simp [hq] at hj
      | some q => simp [hq] at hj; rw [← hj]; exact abs_nonneg _
    · intro j x hji hj
      simp only [List.getElem?_map] at hj
      cases hq : knots[j]? with
      | none => simp [hq] at hj
      | some q =>
        simp [hq] at hj
        rw [← hj]
        exact abs_pos.2 (sub_ne_zero.2 (ne_of_gt (increasing_lt h hji hq hp)))

/-- C56 (part): in the first half of each segment (`x` at least as close to the left knot as to the right one), `interp1`
returns the value of the segment's straight line. Missing: the second half, where the nearest knot is the right end and
the slope of the *next* segment is used (`interp1_second_half`). -/
theorem interp1_spec_partial (knots : List (K × K)) (h : Increasing knots) (i : Nat) (p q : K × K)
    (hp : knots[i]? = some p) (hq : knots[i + 1]? = some q) (x : K) (hx1 : p.1 ≤ x) (hx2 : x - p.1 ≤ q.1 - x) :
    interp1 knots x = some (line p q x) := by
  have hi : i + 1 < knots.length := (List.getElem?_eq_some_iff.1 hq).1
  obtain ⟨f, hf⟩ : ∃ f, knots[0]? = some f := ⟨_, List.getElem?_eq_getElem (by omega)⟩
  obtain ⟨b, hb⟩ : ∃ b, knots[knots.length - 1]? = some b := ⟨_, List.getElem?_eq_getElem (by omega)⟩
  have hf' := increasing_le h (Nat.zero_le i) hf hp
  have hb' := increasing_le h (show i + 1 ≤ knots.length - 1 by omega) hq hb
  have := interp1_of_nearest knots x i f b p _ (by rw [List.head?_eq_getElem?]; exact hf)
    (by rw [List.getLast?_eq_getElem?]; exact hb) (le_trans hf' hx1) (by linarith) ?_ hp (slopes_get knots 0 i p q hp hq)
  · rw [this]; rfl
  · refine ⟨|x - p.1|, by simp [hp], ?_, ?_⟩
    · intro j y hj
      simp only [List.getElem?_map] at hj
      cases hr : knots[j]? with
      | none => simp [hr] at hj
      | some r =>
        simp [hr] at hj
        rw [← hj, abs_of_nonneg (sub_nonneg.2 hx1)]
        rcases Nat.lt_or_ge i j with hij | hij
        · have := increasing_le h (show i + 1 ≤ j by omega) hq hr
          have := neg_le_abs (x - r.1)
          linarith
        · have := increasing_le h hij hr hp
          have := le_abs_self (x - r.1)
          linarith
    · intro j y hji hj
      simp only [List.getElem?_map] at hj
      cases hr : knots[j]? with
      | none => simp [hr] at hj
      | some r =>
        simp [hr] at hj
        rw [← hj, abs_of_nonneg (sub_nonneg.2 hx1)]
        have := increasing_lt h hji hr hp
        have := le_abs_self (x - r.1)
        linarith

end Field

example : Increasing [((0 : ℚ), (0 : ℚ)), (1, 0), (2, 1)] ∧ interp1 [((0 : ℚ), (0 : ℚ)), (1, 0), (2, 1)] (1/4) = some 0 := by
  have h : Increasing [((0 : ℚ), (0 : ℚ)), (1, 0), (2, 1)] := by
    simp [Increasing]
  refine ⟨h, ?_⟩
  rw [interp1_spec_partial _ h 0 (0, 0) (1, 0) rfl rfl (1/4) (by norm_num) (by norm_num)]
  norm_num [line]

/-- C56 fails in the second half of a segment: on the knots (0,0), (1,0), (2,1) the value at 3/4, between two knots of
ordinate 0, is -1/4. -/
theorem interp1_second_half :
    interp1 [((0 : ℚ), (0 : ℚ)), (1, 0), (2, 1)] (3/4) = some (-1/4) ∧ line ((0 : ℚ), (0 : ℚ)) (1, 0) (3/4) = 0 := by
  refine ⟨?_, by norm_num [line]⟩
  rw [interp1_of_nearest _ (3/4) 1 (0, 0) (2, 1) (1, 0) 1 rfl rfl (by norm_num) (by norm_num) _ rfl]
  · norm_num
  · norm_num [slopes]
  · refine ⟨1/4, ?_, ?_, ?_⟩
    · norm_num [abs_of_neg]
    · intro j x hj
      match j, hj with
      | 0, hj => simp at hj; rw [← hj, abs_of_pos (by norm_num)]; norm_num
      | 1, hj => simp at hj; rw [← hj, abs_of_neg (by norm_num)]; norm_num
      | 2, hj => simp at hj; rw [← hj, abs_of_neg (by norm_num)]; norm_num
      | j + 3, hj => simp at hj
    · intro j x hj' hj
      match j, hj', hj with
      | 0, _, hj => simp at hj; rw [← hj, abs_of_pos (by norm_num)]; norm_num

section Field
variable {K : Type} [Field K] [LinearOrder K] [IsStrictOrderedRing K]

/-! ## C57: linearly spaced samples -/

/-- C57: `linspace(a,b,n,true)` with `n ≥ 2` has `n` elements, starts at `a`, ends at `b`, and consecutive elements differ
by `(b-a)/(n-1)`. -/
theorem linspace_incl (a b : K) (n : Nat) (hn : 2 ≤ n) :
    (linspace a b n true).length = n ∧ (linspace a b n true)[0]? = some a ∧ (linspace a b n true)[n - 1]? = some b ∧
      ∀ i x y, (linspace a b n true)[i]? = some x → (linspace a b n true)[i + 1]? = some y →
        y - x = (b - a) / ((n - 1 : Nat) : K) := by
  have e : linspace a b n true = (List.range n).map fun i : Nat => a + (b - a) / ((n - 1 : Nat) : K) * (i : K) := by
    unfold linspace
    rw [if_neg (by omega), if_neg (by omega)]
    rfl
  rw [e]
  have hne : ((n - 1 : Nat) : K) ≠ 0 := by exact_mod_cast (by omega : n - 1 ≠ 0)
  refine ⟨by simp, ?_, ?_, ?_⟩
  · rw [List.getElem?_map, List.getElem?_range (by omega)]; simp
  · rw [List.getElem?_map, List.getElem?_range (by omega)]
    simp only [Option.map_some, Option.some.injEq]
    rw [div_mul_cancel₀ _ hne]; ring
  · intro i x y hx hy
    rw [List.getElem?_map] at hx hy
    have hi : i + 1 < n := by
      by_contra hc
      rw [List.getElem?_eq_none (by simpa using hc)] at hy; simp at hy
    rw [List.getElem?_range (by omega)] at hx hy
    simp only [Option.map_some, Option.some.injEq] at hx hy
    rw [← hx, ← hy]
    push_cast
    ring

/-- C57: `linspace(a,b,n,false)` with `n ≥ 2` omits `a`: it has `n` elements, starts one step after `a`, ends at `b`, with
steps of `(b-a)/n`. -/
theorem linspace_excl (a b : K) (n : Nat) (hn : 2 ≤ n) :
    (linspace a b n false).length = n ∧ (linspace a b n false)[0]? = some (a + (b - a) / (n : K)) ∧
      (linspace a b n false)[n - 1]? = some b ∧
      ∀ i x y, (linspace a b n false)[i]? = some x → (linspace a b n false)[i + 1]? = some y →
        y - x = (b - a) / (n : K) := by
  have e : linspace a b n false = (List.range n).map fun i : Nat => a + (b - a) / (n : K) * ((i + 1 : Nat) : K) := by
    unfold linspace
    rw [if_neg (by omega), if_neg (by omega)]
    rfl
  rw [e]
  have hne : (n : K) ≠ 0 := by exact_mod_cast (by omega : n ≠ 0)
  refine ⟨by simp, ?_, ?_, ?_⟩
  · rw [List.getElem?_map, List.getElem?_range (by omega)]; simp
  · rw [List.getElem?_map, List.getElem?_range (by omega)]
    simp only [Option.map_some, Option.some.injEq]
    rw [show n - 1 + 1 = n by omega, div_mul_cancel₀ _ hne]; ring
  · intro i x y hx hy
    rw [List.getElem?_map] at hx hy
    have hi : i + 1 < n := by
      by_contra hc
      rw [List.getElem?_eq_none (by simpa using hc)] at hy; simp at hy
    rw [List.getElem?_range (by omega)] at hx hy
    simp only [Option.map_some, Option.some.injEq] at hx hy
    rw [← hx, ← hy]
    push_cast
    ring

/-- C57: the degenerate sizes. A single sample is the *last* value, even when the initial value is to be included. -/
theorem linspace_small (a b : K) (inc : Bool) : linspace a b 0 inc = [] ∧ linspace a b 1 inc = [b] := ⟨rfl, rfl⟩

/-! ## C58: earth mover distance -/

/-- C58: on arrays of one size, `EMDL1dist` is a metric: non-negative, zero exactly on equal arrays, symmetric, and
obeying the triangle inequality. -/
theorem emd_metric (a b c : List K) (h1 : a.length = b.length) (h2 : b.length = c.length) :
    0 ≤ emd a b ∧ (emd a b = 0 ↔ a = b) ∧ emd a b = emd b a ∧ emd a c ≤ emd a b + emd b c := by
  refine ⟨sum_abs_nonneg _, ⟨fun h => ?_, ?_⟩, emd_comm a b, emd_triangle a b c h1 h2⟩
  · exact cumSum_zip_eq a b 0 h1 (sum_abs_eq_zero _ h)
  · rintro rfl
    unfold emd
    have : ∀ l : List K, ((l.zip l).map fun p => |p.1 - p.2|).sum = 0 := by
      intro l
      induction l with
      | nil => simp
      | cons x l ih => simp [ih]
    exact this _

example : emd [(1 : ℚ), 0, 0] [0, 0, 1] = 2 ∧ emd [(1 : ℚ), 0, 0] [0, 1, 0] = 1 := by
  constructor <;> norm_num [emd, cumSum]

/-- C58: moving mass `t` from bin `i` to the next bin costs exactly `|t|`. -/
theorem emd_unit_move (pre post : List K) (x y t : K) : emd (pre ++ x :: y :: post) (pre ++ (x - t) :: (y + t) :: post) = |t| := by
  have key : ∀ (pre : List K), cumDiff 0 (pre ++ x :: y :: post) (pre ++ (x - t) :: (y + t) :: post) =
      List.replicate pre.length 0 ++ t :: 0 :: List.replicate post.length 0 := by
    have hsame : ∀ l : List K, cumDiff 0 l l = List.replicate l.length 0 := by
      intro l
      induction l with
      | nil => rfl
      | cons z l ih => simp [cumDiff, ih, List.replicate_succ]
    intro pre
    induction pre with
    | nil =>
      simp only [List.nil_append, cumDiff, List.length_nil, List.replicate_zero]
      have e1 : (0 : K) + (x - (x - t)) = t := by ring
      have e2 : t + (y - (y + t)) = 0 := by ring
      rw [e1, e2, hsame]
    | cons z pre ih => simp only [List.cons_append, cumDiff, sub_self, add_zero, ih, List.length_cons, List.replicate_succ]
  rw [emd_eq_cumDiff, key]
  simp

/-! ## C59: circular earth mover distance -/

/-- C59: whatever the outcome of `std::nth_element`, `CEMDL1dist` of two non-empty arrays of one size is the least value,
over all offsets `c`, of the sum of the absolute running differences relative to `c`; in particular it is at most
`EMDL1dist`. -/
theorem cemd_optimal (a b v : List K) (h : a.length = b.length) (hn : 0 < a.length)
    (hv : NthElement (cumDiff 0 a b) (a.length / 2) v) :
    ∃ r, cemdOf v a.length = some r ∧ 0 ≤ r ∧ r ≤ emd a b ∧ (∃ m, r = ((cumDiff 0 a b).map fun d => |d - m|).sum) ∧
      ∀ c, r ≤ ((cumDiff 0 a b).map fun d => |d - c|).sum := by
  obtain ⟨r, hr, ⟨m, hm⟩, hmin⟩ := leastDev_cemdOf _ v a.length (cumDiff_length 0 a b h) hn hv
  refine ⟨r, hr, ?_, ?_, ⟨m, hm⟩, hmin⟩
  · rw [hm]
    have := sum_abs_nonneg ((cumDiff 0 a b).map fun d => (d, m))
    simpa [List.map_map, Function.comp_def] using this
  · have := hmin 0
    simpa [emd_eq_cumDiff] using this

example : NthElement (cumDiff 0 [(1 : ℚ), 0, 0] [0, 0, 1]) ([(1 : ℚ), 0, 0].length / 2) [0, 1, 1] := by
  have e : cumDiff 0 [(1 : ℚ), 0, 0] [0, 0, 1] = [1, 1, 0] := by norm_num [cumDiff]
  rw [e]
  refine ⟨(List.perm_append_comm (l₁ := [(0 : ℚ)]) (l₂ := [1, 1])), fun m hm => ?_⟩
  simp at hm
  subst hm
  simp

/-- C59: `CEMDL1dist` is circular: rotating both histograms (of equal total mass) by any amount does not change it. -/
theorem cemd_rotate (a b v v' : List K) (k : Nat) (h : a.length = b.length) (hn : 0 < a.length) (hs : a.sum = b.sum)
    (hv : NthElement (cumDiff 0 a b) (a.length / 2) v)
    (hv' : NthElement (cumDiff 0 (a.rotate k) (b.rotate k)) (a.length / 2) v') :
    cemdOf v a.length = cemdOf v' a.length := by
  obtain ⟨r, hr, h1⟩ := leastDev_cemdOf _ v a.length (cumDiff_length 0 a b h) hn hv
  obtain ⟨r', hr', h2⟩ := leastDev_cemdOf _ v' a.length
    (by rw [cumDiff_length _ _ _ (by simpa using h)]; simp) hn hv'
  rw [hr, hr', (leastDev_rotate a b k h hs r h1).unique h2]

/-- C59: `CEMDL1dist` is zero only for histograms whose running differences are constant: with equal totals, only for equal
histograms. -/
theorem cemd_zero (a b v : List K) (h : a.length = b.length) (hn : 0 < a.length) (hs : a.sum = b.sum)
    (hv : NthElement (cumDiff 0 a b) (a.length / 2) v) : cemdOf v a.length = some 0 ↔ a = b := by
  obtain ⟨r, hr, h0, hemd, ⟨m, hm⟩, hmin⟩ := cemd_optimal a b v h hn hv
  rw [hr, Option.some.injEq]
  constructor
  · rintro rfl
    have hall : ∀ d ∈ cumDiff 0 a b, d = m := by
      have := sum_abs_eq_zero ((cumDiff 0 a b).map fun d => (d, m)) (by simpa [List.map_map, Function.comp_def] using hm.symm)
      intro d hd
      exact this (d, m) (List.mem_map.2 ⟨d, hd, rfl⟩)
    have hlast : m = 0 := by
      rcases List.eq_nil_or_concat a with rfl | ⟨a', x, rfl⟩
      · simp at hn
      rcases List.eq_nil_or_concat b with rfl | ⟨b', y, rfl⟩
      · simp at h
      have hl : a'.length = b'.length := by simpa using h
      rw [List.concat_eq_append, List.concat_eq_append, cumDiff_append 0 a' b' x y hl] at hall
      have := hall _ (List.mem_append_right _ (List.mem_singleton.2 rfl))
      rw [← this]
      simp at hs
      linarith
    subst hlast
    have hz : emd a b = 0 := by
      rw [emd_eq_cumDiff]; simpa using hm.symm
    exact ((emd_metric a b b h rfl).2.1).1 hz
  · rintro rfl
    have : emd a a = 0 := ((emd_metric a a a rfl rfl).2.1).2 rfl
    linarith

end Field
end Litiv.MathSeq
