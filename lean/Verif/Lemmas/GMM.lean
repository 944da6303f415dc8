import Verif.Model.GMM
import Verif.Spec.GMM
import Verif.Lemmas.Gauss
import Verif.Props.LU

/-!
# Lemmas about the mixture estimator: memory layout, sample sums, estimated parameters
-/

namespace Litiv.GMM

/-! ### Memory -/

theorem blk_lt (B C c k : Nat) (hc : c < C) (hk : k < B) : B * c + k < B * C := by
  have : B * (c + 1) ≤ B * C := Nat.mul_le_mul_left B hc
  have e : B * (c + 1) = B * c + B := by ring
  omega

theorem blk_inj (B c c' k k' : Nat) (hk : k < B) (hk' : k' < B) (h : B * c + k = B * c' + k') : c = c' ∧ k = k' := by
  have h1 : (B * c + k) / B = c := by rw [Nat.mul_add_div (by omega), Nat.div_eq_of_lt hk, add_zero]
  have h2 : (B * c' + k') / B = c' := by rw [Nat.mul_add_div (by omega), Nat.div_eq_of_lt hk', add_zero]
  have hc : c = c' := by rw [← h1, ← h2, h]
  subst hc
  exact ⟨rfl, by omega⟩

/-- The cells of component `c`. -/
inductive Own (C D c : Nat) : Nat → Prop where
  | w : Own C D c c
  | mean (d : Nat) : d < D → Own C D c (oMeans C D + D * c + d)
  | cov (k : Nat) : k < D * D → Own C D c (oCovs C D + D * D * c + k)
  | inv (k : Nat) : k < D * D → Own C D c (oInvs C D + D * D * c + k)
  | det : Own C D c (oDets C D + c)
  | fac : Own C D c (oFacs C D + c)

theorem own_disjoint (C D c c' k : Nat) (hc : c < C) (hc' : c' < C) (hne : c ≠ c') (h : Own C D c k) (h' : Own C D c' k) : False := by
  have hb : ∀ B x j, x < C → j < B → B * x + j < B * C := fun B x j => blk_lt B C x j
  generalize hk : k = kk at h'
  have e1 : oMeans C D = C := rfl
  have e2 : oCovs C D = C + D * C := rfl
  have e3 : oInvs C D = C + D * C + D * D * C := rfl
  have e4 : oDets C D = C + D * C + D * D * C + D * D * C := rfl
  have e5 : oFacs C D = C + D * C + D * D * C + D * D * C + C := rfl
  cases h with
  | w => cases h' <;> omega
  | mean d hd =>
    have i1 := hb D c d hc hd
    cases h' with
    | mean d' hd' => exact hne (blk_inj D c c' d d' hd hd' (by omega)).1
    | _ => omega
  | cov j hj =>
    have i1 := hb (D * D) c j hc hj
    cases h' with
    | mean d' hd' => have := hb D c' d' hc' hd'; omega
    | cov j' hj' => exact hne (blk_inj (D * D) c c' j j' hj hj' (by omega)).1
    | _ => omega
  | inv j hj =>
    have i1 := hb (D * D) c j hc hj
    cases h' with
    | mean d' hd' => have := hb D c' d' hc' hd'; omega
    | cov j' hj' => have := hb (D * D) c' j' hc' hj'; omega
    | inv j' hj' => exact hne (blk_inj (D * D) c c' j j' hj hj' (by omega)).1
    | _ => omega
  | det =>
    cases h' with
    | mean d' hd' => have := hb D c' d' hc' hd'; omega
    | cov j' hj' => have := hb (D * D) c' j' hc' hj'; omega
    | inv j' hj' => have := hb (D * D) c' j' hc' hj'; omega
    | _ => omega
  | fac =>
    cases h' with
    | mean d' hd' => have := hb D c' d' hc' hd'; omega
    | cov j' hj' => have := hb (D * D) c' j' hc' hj'; omega
    | inv j' hj' => have := hb (D * D) c' j' hc' hj'; omega
    | _ => omega

/-- All cells are within the model data. -/
theorem own_bound (C D c k : Nat) (hc : c < C) (h : Own C D c k) : k < modelSize C D := by
  have hb : ∀ B x j, x < C → j < B → B * x + j < B * C := fun B x j => blk_lt B C x j
  have e : modelSize C D = C + D * C + D * D * C + D * D * C + C + C := by unfold modelSize; ring
  have e1 : oMeans C D = C := rfl
  have e2 : oCovs C D = C + D * C := rfl
  have e3 : oInvs C D = C + D * C + D * D * C := rfl
  have e4 : oDets C D = C + D * C + D * D * C + D * D * C := rfl
  have e5 : oFacs C D = C + D * C + D * D * C + D * D * C + C := rfl
  rw [e]
  cases h with
  | w => omega
  | mean d hd => have := hb D c d hc hd; omega
  | cov j hj => have := hb (D * D) c j hc hj; omega
  | inv j hj => have := hb (D * D) c j hc hj; omega
  | det => omega
  | fac => omega

theorem put_same (m : Nat → ℝ) (k : Nat) (v : ℝ) : put m k v k = v := if_pos rfl

theorem put_ne (m : Nat → ℝ) (k j : Nat) (v : ℝ) (h : j ≠ k) : put m k v j = m j := if_neg h

/-- Consecutive stores. -/
theorem put_fold (n a : Nat) (v : Nat → ℝ) (m : Nat → ℝ) (k : Nat) :
    (List.range n).foldl (fun m d => put m (a + d) (v d)) m k = if a ≤ k ∧ k < a + n then v (k - a) else m k := by
  induction n with
  | zero => simp
  | succ n ih =>
    rw [List.range_succ, List.foldl_append, List.foldl_cons, List.foldl_nil]
    unfold put
    by_cases h : k = a + n
    · subst h
      rw [if_pos rfl, if_pos (by omega)]
      congr 1
      omega
    · rw [if_neg h]
      unfold put at ih
      rw [ih]
      by_cases h2 : a ≤ k ∧ k < a + n
      · rw [if_pos h2, if_pos (by omega)]
      · rw [if_neg h2, if_neg (by omega)]

/-- Stores of a matrix whose entries are computed from cells below it. -/
theorem mat_fold (D a : Nat) (f : (Nat → ℝ) → Nat → Nat → ℝ) (m : Nat → ℝ)
    (hf : ∀ m' i j, i < D → j < D → (∀ k, k < a → m' k = m k) → f m' i j = f m i j) (t : Nat) (ht : t ≤ D) (k : Nat) :
    (List.range t).foldl (fun m i => (List.range D).foldl (fun m j => put m (a + (i * D + j)) (f m i j)) m) m k =
      if a ≤ k ∧ k < a + t * D then f m ((k - a) / D) ((k - a) % D) else m k := by
  have inner : ∀ (i n : Nat) (m0 : Nat → ℝ), i < D → n ≤ D → (∀ k, k < a → m0 k = m k) → ∀ k,
      (List.range n).foldl (fun m j => put m (a + (i * D + j)) (f m i j)) m0 k =
        if a + i * D ≤ k ∧ k < a + i * D + n then f m i (k - (a + i * D)) else m0 k := by
    intro i n m0 hi hn h0
    induction n with
    | zero => intro k; simp
    | succ n ih =>
      intro k
      rw [List.range_succ, List.foldl_append, List.foldl_cons, List.foldl_nil]
      have ih' := ih (by omega)
      have hbelow : ∀ k, k < a → (List.range n).foldl (fun m j => put m (a + (i * D + j)) (f m i j)) m0 k = m k := by
        intro k hk
        rw [ih' k, if_neg (by omega)]
        exact h0 k hk
      rw [hf _ i n hi (by omega) hbelow]
      unfold put
      by_cases h : k = a + (i * D + n)
      · subst h
        rw [if_pos rfl, if_pos (by omega)]
        congr 1
        omega
      · rw [if_neg h]
        unfold put at ih'
        rw [ih' k]
        by_cases h2 : a + i * D ≤ k ∧ k < a + i * D + n
        · rw [if_pos h2, if_pos (by omega)]
        · rw [if_neg h2, if_neg (by omega)]
  induction t generalizing k with
  | zero => simp
  | succ t ih =>
    rw [List.range_succ, List.foldl_append, List.foldl_cons, List.foldl_nil]
    rw [inner t D _ (by omega) le_rfl (fun k hk => by rw [ih (by omega) k, if_neg (by omega)]) k, ih (by omega) k]
    have e : (t + 1) * D = t * D + D := by ring
    by_cases h : a + t * D ≤ k ∧ k < a + t * D + D
    · rw [if_pos h, if_pos (by omega)]
      obtain ⟨j, rfl⟩ : ∃ j, k = a + (t * D + j) := ⟨k - (a + t * D), by omega⟩
      have hj : j < D := by omega
      have e1 : (a + (t * D + j) - a) / D = t := by
        rw [Nat.add_sub_cancel_left, mul_comm, Nat.mul_add_div (by omega), Nat.div_eq_of_lt hj, add_zero]
      have e2 : (a + (t * D + j) - a) % D = j := by
        rw [Nat.add_sub_cancel_left, mul_comm, Nat.mul_add_mod, Nat.mod_eq_of_lt hj]
      rw [e1, e2]
      congr 1
      omega
    · rw [if_neg h]
      by_cases h2 : a ≤ k ∧ k < a + t * D
      · rw [if_pos h2, if_pos (by omega)]
      · rw [if_neg h2, if_neg (by omega)]

/-- Additions to the diagonal. -/
theorem diag_fold (D a : Nat) (v : ℝ) (m : Nat → ℝ) (t : Nat) (ht : t ≤ D) (k : Nat) :
    (List.range t).foldl (fun m d => put m (a + (d * D + d)) (m (a + (d * D + d)) + v)) m k =
      if ∃ d, d < t ∧ k = a + (d * D + d) then m k + v else m k := by
  induction t generalizing k with
  | zero => simp
  | succ t ih =>
    rw [List.range_succ, List.foldl_append, List.foldl_cons, List.foldl_nil]
    unfold put
    by_cases h : k = a + (t * D + t)
    · rw [if_pos h, if_pos ⟨t, by omega, h⟩]
      have := ih (by omega) (a + (t * D + t))
      unfold put at this
      rw [this, if_neg, ← h]
      rintro ⟨d, hd, e⟩
      have : D * d + d = D * t + t := by rw [mul_comm D d, mul_comm D t]; omega
      have := (blk_inj D d t d t (by omega) (by omega) this).1
      omega
    · rw [if_neg h]
      have := ih (by omega) k
      unfold put at this
      rw [this]
      by_cases h2 : ∃ d, d < t ∧ k = a + (d * D + d)
      · obtain ⟨d, h3, h4⟩ := h2
        rw [if_pos ⟨d, h3, h4⟩, if_pos ⟨d, by omega, h4⟩]
      · rw [if_neg h2, if_neg]
        rintro ⟨d, h3, h4⟩
        rcases Nat.lt_succ_iff_lt_or_eq.1 h3 with h5 | rfl
        · exact h2 ⟨d, h5, h4⟩
        · exact h h4

/-! ### Sample sums -/

theorem add_fold (D c : Nat) (x : Nat → ℝ) (S : Nat → Nat → ℝ) (P : Nat → Nat → Nat → ℝ) (t : Nat) :
    (List.range t).foldl (fun (a : (Nat → Nat → ℝ) × (Nat → Nat → Nat → ℝ)) i =>
      (add2 a.1 c i (x i), (List.range D).foldl (fun p j => add3 p c i j (x i * x j)) a.2)) (S, P) =
    (fun c' i => if c' = c ∧ i < t then S c' i + x i else S c' i,
     fun c' i j => if c' = c ∧ i < t ∧ j < D then P c' i j + x i * x j else P c' i j) := by
  have inner : ∀ (i n : Nat) (P0 : Nat → Nat → Nat → ℝ), (List.range n).foldl (fun p j => add3 p c i j (x i * x j)) P0 =
      fun c' i' j => if c' = c ∧ i' = i ∧ j < n then P0 c' i' j + x i * x j else P0 c' i' j := by
    intro i n P0
    induction n with
    | zero => funext c' i' j; simp
    | succ n ih =>
      rw [List.range_succ, List.foldl_append, List.foldl_cons, List.foldl_nil, ih]
      funext c' i' j
      unfold add3
      dsimp only
      by_cases h : c' = c ∧ i' = i ∧ j = n
      · rw [if_pos h, if_neg (by omega), if_pos (by omega), h.2.2]
      · rw [if_neg h]
        by_cases h2 : c' = c ∧ i' = i ∧ j < n
        · rw [if_pos h2, if_pos (by omega)]
        · rw [if_neg h2, if_neg (by omega)]
  induction t with
  | zero => simp
  | succ t ih =>
    rw [List.range_succ, List.foldl_append, List.foldl_cons, List.foldl_nil, ih]
    dsimp only
    rw [inner]
    refine Prod.ext ?_ ?_
    · funext c' i
      dsimp only
      unfold add2
      dsimp only
      by_cases h : c' = c ∧ i = t
      · rw [if_pos h, if_neg (by omega), if_pos (by omega), h.2]
      · rw [if_neg h]
        by_cases h2 : c' = c ∧ i < t
        · rw [if_pos h2, if_pos (by omega)]
        · rw [if_neg h2, if_neg (by omega)]
    · funext c' i j
      dsimp only
      by_cases h : c' = c ∧ i = t ∧ j < D
      · rw [if_pos h, if_neg (by omega), if_pos (by omega), h.2.1]
      · rw [if_neg h]
        by_cases h2 : c' = c ∧ i < t ∧ j < D
        · rw [if_pos h2, if_pos (by omega)]
        · rw [if_neg h2, if_neg (by omega)]

theorem addSample_eq (D : Nat) (g : Gmm) (s : Nat × (Nat → ℝ)) :
    addSample D g s = { g with
      sums := fun c d => if c = s.1 ∧ d < D then g.sums c d + s.2 d else g.sums c d
      prods := fun c i j => if c = s.1 ∧ i < D ∧ j < D then g.prods c i j + s.2 i * s.2 j else g.prods c i j
      counts := fun c => if c = s.1 then g.counts c + 1 else g.counts c
      total := g.total + 1 } := by
  unfold addSample
  dsimp only
  rw [add_fold]

/-- The state after some samples. -/
theorem samples_eq (D : Nat) (S : List (Nat × (Nat → ℝ))) (g : Gmm) :
    let g' := S.foldl (addSample D) g
    (∀ c d, d < D → g'.sums c d = g.sums c d + ((Spec.comp S c).map fun x => x d).sum) ∧
    (∀ c i j, i < D → j < D → g'.prods c i j = g.prods c i j + ((Spec.comp S c).map fun x => x i * x j).sum) ∧
    (∀ c, g'.counts c = g.counts c + (Spec.comp S c).length) ∧ g'.total = g.total + S.length ∧ g'.data = g.data := by
  induction S generalizing g with
  | nil => simp [Spec.comp]
  | cons s S ih =>
    dsimp only
    rw [List.foldl_cons]
    obtain ⟨h1, h2, h3, h4, h5⟩ := ih (addSample D g s)
    have hc : ∀ c, Spec.comp (s :: S) c = if s.1 = c then s.2 :: Spec.comp S c else Spec.comp S c := by
      intro c
      unfold Spec.comp
      by_cases h : s.1 = c
      · rw [if_pos h, List.filter_cons_of_pos (by simpa using h), List.map_cons]
      · rw [if_neg h, List.filter_cons_of_neg (by simpa using h)]
    rw [addSample_eq] at h1 h2 h3 h4 h5 ⊢
    refine ⟨fun c d hd => ?_, fun c i j hi hj => ?_, fun c => ?_, ?_, h5⟩
    · rw [h1 c d hd, hc]
      dsimp only
      by_cases h : s.1 = c
      · rw [if_pos h, if_pos ⟨h.symm, hd⟩, List.map_cons, List.sum_cons]; ring
      · rw [if_neg h, if_neg (fun e => h e.1.symm)]
    · rw [h2 c i j hi hj, hc]
      dsimp only
      by_cases h : s.1 = c
      · rw [if_pos h, if_pos ⟨h.symm, hi, hj⟩, List.map_cons, List.sum_cons]; ring
      · rw [if_neg h, if_neg (fun e => h e.1.symm)]
    · rw [h3 c, hc]
      dsimp only
      by_cases h : s.1 = c
      · rw [if_pos h, if_pos h.symm, List.length_cons]; omega
      · rw [if_neg h, if_neg (fun e => h e.symm)]
    · rw [h4, List.length_cons]
      dsimp only
      omega

/-! ### Parameters of one component -/

/-- `a0` is the covariance matrix of component `c` computed from the sums of `g`, `a` the one used, `nu` the value added to the diagonal. -/
structure Params (eps : ℝ) (D : Nat) (g : Gmm) (c : Nat) (a0 a : Nat → ℝ) (nu : ℝ) : Prop where
  base : ∀ i j, i < D → j < D → a0 (i * D + j) = g.prods c i j / g.counts c - g.sums c i / g.counts c * (g.sums c j / g.counts c)
  noise : (nu = 0 ∧ ¬ |LU.determinant eps D a0| < 1 / 10 ^ 6 ∧ a = a0) ∨ (nu = 1 / 100 ∧ |LU.determinant eps D a0| < 1 / 10 ^ 6)
  used : ∀ i j, i < D → j < D → a (i * D + j) = a0 (i * D + j) + if i = j then nu else 0

/-- The parameters of component `c` are stored in `m`. -/
structure Stored (eps : ℝ) (C D : Nat) (g : Gmm) (m : Nat → ℝ) (c : Nat) (a out : Nat → ℝ) : Prop where
  w : m c = g.counts c / g.total
  mean : ∀ d, d < D → m (oMeans C D + D * c + d) = g.sums c d / g.counts c
  cov : ∀ k, k < D * D → m (oCovs C D + D * D * c + k) = a k
  inv : ∀ k, k < D * D → m (oInvs C D + D * D * c + k) = out k
  det : m (oDets C D + c) = LU.determinant eps D a
  fac : m (oFacs C D + c) = 1 / Real.sqrt ((2 * Real.pi) ^ D * LU.determinant eps D a)

theorem mat_idx (D i j : Nat) (hi : i < D) (hj : j < D) : i * D + j < D * D ∧ (i * D + j) / D = i ∧ (i * D + j) % D = j := by
  refine ⟨?_, ?_, ?_⟩
  · have := blk_lt D D i j hi hj
    rw [mul_comm i D]; exact this
  · rw [mul_comm, Nat.mul_add_div (by omega), Nat.div_eq_of_lt hj, add_zero]
  · rw [mul_comm, Nat.mul_add_mod, Nat.mod_eq_of_lt hj]

theorem learnComp_spec (eps : ℝ) (C D : Nat) (g : Gmm) (m : Nat → ℝ) (c : Nat) (hc : c < C) (hn : g.counts c ≠ 0) :
    ∃ a0 a nu, Params eps D g c a0 a nu ∧
      match LU.invert eps D a with
      | none => learnComp eps C D g m c = none
      | some out => ∃ m', learnComp eps C D g m c = some m' ∧ Stored eps C D g m' c a out ∧ ∀ k, ¬ Own C D c k → m' k = m k := by
  have e1 : oMeans C D = C := rfl
  have e2 : oCovs C D = C + D * C := rfl
  have e3 : oInvs C D = C + D * C + D * D * C := rfl
  have e4 : oDets C D = C + D * C + D * D * C + D * D * C := rfl
  have e5 : oFacs C D = C + D * C + D * D * C + D * D * C + C := rfl
  have bM : ∀ d, d < D → D * c + d < D * C := fun d hd => blk_lt D C c d hc hd
  have bK : ∀ k, k < D * D → D * D * c + k < D * D * C := fun k hk => blk_lt (D * D) C c k hc hk
  have bM' : D * c + D ≤ D * C := by have := Nat.mul_le_mul_left D hc; rw [Nat.mul_succ] at this; exact this
  have bK' : D * D * c + D * D ≤ D * D * C := by have := Nat.mul_le_mul_left (D * D) hc; rw [Nat.mul_succ] at this; exact this
  unfold learnComp
  rw [if_neg hn]
  dsimp only
  -- the memory after the means
  generalize hm1 : (List.range D).foldl (fun m d => put m (oMeans C D + D * c + d) (g.sums c d / g.counts c)) (put m c (g.counts c / g.total)) = m1
  have h1 : ∀ k, m1 k = if oMeans C D + D * c ≤ k ∧ k < oMeans C D + D * c + D then g.sums c (k - (oMeans C D + D * c)) / g.counts c
      else if k = c then g.counts c / g.total else m k := by
    intro k; rw [← hm1, put_fold]; rfl
  have h1m : ∀ d, d < D → m1 (oMeans C D + D * c + d) = g.sums c d / g.counts c := by
    intro d hd; rw [h1, if_pos (by omega), Nat.add_sub_cancel_left]
  -- the memory after the covariances
  generalize hm2 : (List.range D).foldl (fun m i => (List.range D).foldl (fun m j =>
      put m (oCovs C D + D * D * c + (i * D + j)) (g.prods c i j / g.counts c - m (oMeans C D + D * c + i) * m (oMeans C D + D * c + j))) m) m1 = m2
  have hle : oMeans C D + D * c + D ≤ oCovs C D + D * D * c := by omega
  have h2 : ∀ k, m2 k = if oCovs C D + D * D * c ≤ k ∧ k < oCovs C D + D * D * c + D * D then
      g.prods c ((k - (oCovs C D + D * D * c)) / D) ((k - (oCovs C D + D * D * c)) % D) / g.counts c -
        m1 (oMeans C D + D * c + (k - (oCovs C D + D * D * c)) / D) * m1 (oMeans C D + D * c + (k - (oCovs C D + D * D * c)) % D)
      else m1 k := by
    intro k
    rw [← hm2]
    exact mat_fold D (oCovs C D + D * D * c)
      (fun m i j => g.prods c i j / g.counts c - m (oMeans C D + D * c + i) * m (oMeans C D + D * c + j)) m1
      (fun m' i j hi hj h => by rw [h _ (by omega), h _ (by omega)]) D le_rfl k
  have h2m : ∀ d, d < D → m2 (oMeans C D + D * c + d) = g.sums c d / g.counts c := by
    intro d hd; rw [h2, if_neg (by omega), h1m d hd]
  have h2w : m2 c = g.counts c / g.total := by
    rw [h2, if_neg (by omega), h1, if_neg (by omega), if_pos rfl]
  have h2f : ∀ k, ¬ Own C D c k → m2 k = m k := by
    intro k hk
    rw [h2, if_neg, h1, if_neg, if_neg]
    · rintro rfl; exact hk .w
    · intro h
      obtain ⟨d, rfl⟩ := Nat.exists_eq_add_of_le h.1
      exact hk (.mean d (by omega))
    · intro h
      obtain ⟨d, rfl⟩ := Nat.exists_eq_add_of_le h.1
      exact hk (.cov d (by omega))
  clear hm1 hm2
  -- the memory after the noise and the determinant
  generalize ha0 : cells (D * D) (oCovs C D + D * D * c) m2 = a0
  have hbase : ∀ i j, i < D → j < D → a0 (i * D + j) = g.prods c i j / g.counts c - g.sums c i / g.counts c * (g.sums c j / g.counts c) := by
    intro i j hi hj
    obtain ⟨q1, q2, q3⟩ := mat_idx D i j hi hj
    rw [← ha0]
    unfold cells
    rw [if_pos q1, h2, if_pos (by omega), Nat.add_sub_cancel_left, q2, q3, h1m i hi, h1m j hj]
  obtain ⟨m3, a, nu, hm3, hnoise, hused, hcov, hdet, h3⟩ : ∃ m3 a nu,
      (if |LU.determinant eps D a0| < 1 / 10 ^ 6 then
        put ((List.range D).foldl (fun m d => put m (oCovs C D + D * D * c + (d * D + d)) (m (oCovs C D + D * D * c + (d * D + d)) + 1 / 100)) m2)
          (oDets C D + c) (LU.determinant eps D (cells (D * D) (oCovs C D + D * D * c)
            ((List.range D).foldl (fun m d => put m (oCovs C D + D * D * c + (d * D + d)) (m (oCovs C D + D * D * c + (d * D + d)) + 1 / 100)) m2)))
      else put m2 (oDets C D + c) (LU.determinant eps D a0)) = m3 ∧
      ((nu = 0 ∧ ¬ |LU.determinant eps D a0| < 1 / 10 ^ 6 ∧ a = a0) ∨ (nu = 1 / 100 ∧ |LU.determinant eps D a0| < 1 / 10 ^ 6)) ∧
      (∀ i j, i < D → j < D → a (i * D + j) = a0 (i * D + j) + if i = j then nu else 0) ∧
      cells (D * D) (oCovs C D + D * D * c) m3 = a ∧ m3 (oDets C D + c) = LU.determinant eps D a ∧
      ∀ k, (k < oCovs C D + D * D * c ∨ oCovs C D + D * D * c + D * D ≤ k) → k ≠ oDets C D + c → m3 k = m2 k := by
    have hput : ∀ (mm : Nat → ℝ) v, cells (D * D) (oCovs C D + D * D * c) (put mm (oDets C D + c) v) = cells (D * D) (oCovs C D + D * D * c) mm := by
      intro mm v
      funext k
      unfold cells
      by_cases hk : k < D * D
      · rw [if_pos hk, if_pos hk, put_ne _ _ _ _ (by have := bK k hk; omega)]
      · rw [if_neg hk, if_neg hk]
    by_cases hlt : |LU.determinant eps D a0| < 1 / 10 ^ 6
    · rw [if_pos hlt]
      generalize hm' : (List.range D).foldl (fun m d => put m (oCovs C D + D * D * c + (d * D + d)) (m (oCovs C D + D * D * c + (d * D + d)) + 1 / 100)) m2 = m'
      have hd : ∀ k, m' k = if ∃ d, d < D ∧ k = oCovs C D + D * D * c + (d * D + d) then m2 k + 1 / 100 else m2 k := by
        intro k; rw [← hm']; exact diag_fold D _ _ m2 D le_rfl k
      refine ⟨_, _, 1 / 100, rfl, Or.inr ⟨rfl, hlt⟩, ?_, rfl, ?_, ?_⟩
      · intro i j hi hj
        obtain ⟨q1, q2, q3⟩ := mat_idx D i j hi hj
        rw [hput, ← ha0]
        unfold cells
        rw [if_pos q1, if_pos q1, hd]
        by_cases hij : i = j
        · subst hij
          rw [if_pos ⟨i, hi, rfl⟩, if_pos rfl]
        · rw [if_neg hij, if_neg, add_zero]
          rintro ⟨d, hd, e⟩
          obtain ⟨p1, p2, p3⟩ := mat_idx D d d hd hd
          have e' : i * D + j = d * D + d := by omega
          rw [e'] at q2 q3
          omega
      · rw [put_same, hput]
      · intro k hk hne
        rw [put_ne _ _ _ _ hne, hd, if_neg]
        rintro ⟨d, hd, e⟩
        have := (mat_idx D d d hd hd).1
        omega
    · rw [if_neg hlt]
      refine ⟨_, a0, 0, rfl, Or.inl ⟨rfl, hlt, rfl⟩, ?_, ?_, ?_, ?_⟩
      · intro i j _ _; simp
      · rw [hput, ha0]
      · rw [put_same]
      · intro k hk hne
        rw [put_ne _ _ _ _ hne]
  refine ⟨a0, a, nu, ⟨hbase, hnoise, hused⟩, ?_⟩
  rw [hm3, hcov]
  cases hinv : LU.invert eps D a with
  | none => rfl
  | some out =>
    simp only [Option.map_some]
    generalize hm4 : (List.range (D * D)).foldl (fun m k => put m (oInvs C D + c * D * D + k) (out k)) m3 = m4
    have eb : c * D * D = D * D * c := by ring
    have h4 : ∀ k, m4 k = if oInvs C D + D * D * c ≤ k ∧ k < oInvs C D + D * D * c + D * D then out (k - (oInvs C D + D * D * c)) else m3 k := by
      intro k
      rw [← hm4, put_fold, eb]
    have h4d : m4 (oDets C D + c) = LU.determinant eps D a := by
      rw [h4, if_neg (by omega), hdet]
    refine ⟨_, rfl, ?_, ?_⟩
    · refine ⟨?_, ?_, ?_, ?_, ?_, ?_⟩
      · rw [put_ne _ _ _ _ (by omega), h4, if_neg (by omega), h3 _ (by omega) (by omega), h2w]
      · intro d hd
        have := bM d hd
        rw [put_ne _ _ _ _ (by omega), h4, if_neg (by omega), h3 _ (by omega) (by omega), h2m d hd]
      · intro k hk
        have := bK k hk
        rw [put_ne _ _ _ _ (by omega), h4, if_neg (by omega), ← hcov]
        unfold cells
        rw [if_pos hk]
      · intro k hk
        have := bK k hk
        rw [put_ne _ _ _ _ (by omega), h4, if_pos (by omega), Nat.add_sub_cancel_left]
      · rw [put_ne _ _ _ _ (by omega), h4d]
      · rw [put_same, h4d]
    · intro k hk
      have k1 : k ≠ oFacs C D + c := by rintro rfl; exact hk .fac
      have k2 : k ≠ oDets C D + c := by rintro rfl; exact hk .det
      rw [put_ne _ _ _ _ k1, h4, if_neg, h3 k _ k2, h2f k hk]
      · by_contra h
        obtain ⟨d, rfl⟩ := Nat.exists_eq_add_of_le (show oCovs C D + D * D * c ≤ k by omega)
        exact hk (.cov d (by omega))
      · intro h
        obtain ⟨d, rfl⟩ := Nat.exists_eq_add_of_le h.1
        exact hk (.inv d (by omega))

/-- All components. -/
theorem learn_fold (eps : ℝ) (C D : Nat) (g : Gmm)
    (hinv : ∀ c, c < C → g.counts c ≠ 0 → ∀ a0 a nu, Params eps D g c a0 a nu → (LU.invert eps D a).isSome) (t : Nat) (ht : t ≤ C) (m : Nat → ℝ) :
    ∃ m', (List.range t).foldlM (learnComp eps C D g) m = some m' ∧
      (∀ k, (∀ c, c < t → ¬ Own C D c k) → m' k = m k) ∧
      ∀ c, c < t →
        (g.counts c = 0 → m' c = 0 ∧ ∀ k, Own C D c k → k ≠ c → m' k = m k) ∧
        (g.counts c ≠ 0 → ∃ a0 a nu out, Params eps D g c a0 a nu ∧ LU.invert eps D a = some out ∧ Stored eps C D g m' c a out) := by
  induction t with
  | zero => exact ⟨m, rfl, fun _ _ => rfl, fun c h => absurd h (by omega)⟩
  | succ t ih =>
    obtain ⟨m', r, fr, st⟩ := ih (by omega)
    obtain ⟨m2, r2, fr2, st2⟩ : ∃ m2, learnComp eps C D g m' t = some m2 ∧ (∀ k, ¬ Own C D t k → m2 k = m' k) ∧
        (g.counts t = 0 → m2 t = 0 ∧ ∀ k, k ≠ t → m2 k = m' k) ∧
        (g.counts t ≠ 0 → ∃ a0 a nu out, Params eps D g t a0 a nu ∧ LU.invert eps D a = some out ∧ Stored eps C D g m2 t a out) := by
      by_cases h0 : g.counts t = 0
      · refine ⟨put m' t 0, ?_, ?_, fun _ => ⟨put_same _ _ _, fun k hk => put_ne _ _ _ _ hk⟩, fun h => absurd h0 h⟩
        · unfold learnComp; rw [if_pos h0]
        · intro k hk
          exact put_ne _ _ _ _ (by rintro rfl; exact hk .w)
      · obtain ⟨a0, a, nu, p, q⟩ := learnComp_spec eps C D g m' t (by omega) h0
        have := hinv t (by omega) h0 a0 a nu p
        cases hi : LU.invert eps D a with
        | none => rw [hi] at this; exact absurd this (by simp)
        | some out =>
          rw [hi] at q
          obtain ⟨m2, r2, s2, f2⟩ := q
          exact ⟨m2, r2, f2, fun h => absurd h h0, fun _ => ⟨a0, a, nu, out, p, hi, s2⟩⟩
    refine ⟨m2, ?_, ?_, ?_⟩
    · rw [List.range_succ, List.foldlM_append, r]
      simp [r2]
    · intro k hk
      rw [fr2 k (hk t (by omega)), fr k fun c hc => hk c (by omega)]
    · intro c hc
      rcases Nat.lt_succ_iff_lt_or_eq.1 hc with hlt | rfl
      · have hf : ∀ k, Own C D c k → m2 k = m' k := fun k hk =>
          fr2 k fun h => own_disjoint C D c t k (by omega) (by omega) (by omega) hk h
        obtain ⟨s1, s2⟩ := st c hlt
        refine ⟨fun h => ⟨by rw [hf _ .w, (s1 h).1], fun k hk hne => by rw [hf k hk, (s1 h).2 k hk hne]⟩, fun h => ?_⟩
        obtain ⟨a0, a, nu, out, p, hi, st⟩ := s2 h
        refine ⟨a0, a, nu, out, p, hi, ⟨?_, ?_, ?_, ?_, ?_, ?_⟩⟩
        · rw [hf _ .w, st.w]
        · intro d hd; rw [hf _ (.mean d hd), st.mean d hd]
        · intro k hk; rw [hf _ (.cov k hk), st.cov k hk]
        · intro k hk; rw [hf _ (.inv k hk), st.inv k hk]
        · rw [hf _ .det, st.det]
        · rw [hf _ .fac, st.fac]
      · refine ⟨fun h => ⟨(st2.1 h).1, fun k hk hne => ?_⟩, st2.2⟩
        rw [(st2.1 h).2 k hne, fr k fun c' hc' h' => own_disjoint C D c' c k (by omega) (by omega) (by omega) h' hk]

/-! ### Covariance matrices -/

open Matrix in
theorem psd_noise_bound {D : Nat} (A : Matrix (Fin D) (Fin D) ℝ) (nu : ℝ) (hnu : 0 ≤ nu) (h : (A - nu • (1 : Matrix (Fin D) (Fin D) ℝ)).PosSemidef)
    (x : Fin D → ℝ) : nu ^ 2 * ∑ c, x c ^ 2 ≤ ∑ r, (A.mulVec x r) ^ 2 := by
  have h1 : 0 ≤ dotProduct x ((A - nu • (1 : Matrix (Fin D) (Fin D) ℝ)).mulVec x) := by
    have := h.dotProduct_mulVec_nonneg x
    simpa using this
  rw [Matrix.sub_mulVec, dotProduct_sub, Matrix.smul_mulVec, Matrix.one_mulVec, dotProduct_smul, smul_eq_mul] at h1
  have h2 : dotProduct x x = ∑ c, x c ^ 2 := by
    unfold dotProduct
    exact Finset.sum_congr rfl fun i _ => by ring
  rw [h2] at h1
  have h3 : (dotProduct x (A.mulVec x)) ^ 2 ≤ (∑ c, x c ^ 2) * ∑ r, (A.mulVec x r) ^ 2 := by
    unfold dotProduct
    exact Finset.sum_mul_sq_le_sq_mul_sq _ _ _
  set q := ∑ c, x c ^ 2 with hq
  set p := ∑ r, (A.mulVec x r) ^ 2 with hp
  have q0 : 0 ≤ q := Finset.sum_nonneg fun i _ => sq_nonneg _
  have p0 : 0 ≤ p := Finset.sum_nonneg fun i _ => sq_nonneg _
  rcases q0.eq_or_lt with h0 | h0
  · rw [← h0, mul_zero]; exact p0
  · have h4 : (nu * q) ^ 2 ≤ q * p := le_trans (by
      apply pow_le_pow_left₀ (mul_nonneg hnu q0)
      linarith) h3
    have h5 : q * (nu ^ 2 * q) ≤ q * p := by nlinarith
    exact le_of_mul_le_mul_left h5 h0

/-- Determinant of a covariance matrix with noise. -/
theorem psd_noise_det {D : Nat} (A : Matrix (Fin D) (Fin D) ℝ) (nu : ℝ) (hnu : 0 ≤ nu) (h : (A - nu • (1 : Matrix (Fin D) (Fin D) ℝ)).PosSemidef) :
    nu ^ D ≤ A.det := by
  have hH : A.IsHermitian := by
    have h1 := h.isHermitian
    have h2 : (nu • (1 : Matrix (Fin D) (Fin D) ℝ)).IsHermitian := by
      unfold Matrix.IsHermitian
      rw [Matrix.conjTranspose_smul, Matrix.conjTranspose_one]; simp
    have := h1.add h2
    rwa [sub_add_cancel] at this
  rw [hH.det_eq_prod_eigenvalues]
  have : nu ^ D = ∏ _i : Fin D, nu := by simp
  rw [this]
  apply Finset.prod_le_prod
  · intro i _; exact hnu
  · intro i _
    have e := hH.eigenvalues_eq i
    set v : Fin D → ℝ := ⇑(hH.eigenvectorBasis i) with hv
    have h1 : 0 ≤ dotProduct v ((A - nu • (1 : Matrix (Fin D) (Fin D) ℝ)).mulVec v) := by
      have := h.dotProduct_mulVec_nonneg v
      simpa using this
    rw [Matrix.sub_mulVec, dotProduct_sub, Matrix.smul_mulVec, Matrix.one_mulVec, dotProduct_smul, smul_eq_mul] at h1
    have hn : dotProduct v v = 1 := by
      have := hH.eigenvectorBasis.orthonormal.1 i
      have h2 : inner ℝ (hH.eigenvectorBasis i) (hH.eigenvectorBasis i) = (1 : ℝ) := by
        rw [real_inner_self_eq_norm_sq, this]; norm_num
      rw [← h2, PiLp.inner_apply]
      unfold dotProduct
      exact Finset.sum_congr rfl fun i _ => by simp [hv]; ring
    have e' : hH.eigenvalues i = dotProduct v (A.mulVec v) := by
      rw [e]; simp
    rw [hn, mul_one] at h1
    simp only [RCLike.ofReal_real_eq_id, id_eq]
    linarith

/-- What the estimation of a component needs. -/
theorem params_good (eps : ℝ) (heps : 0 < eps) (D : Nat) (hD : 0 < D) (hsmall : (D : ℝ) * eps ^ 2 ≤ (1 / 100) ^ 2) (g : Gmm) (c : Nat)
    (a0 a : Nat → ℝ) (nu : ℝ) (hp : Params eps D g c a0 a nu) (hpsd : (LU.ofFlat D a0).PosSemidef) :
    (LU.invert eps D a).isSome ∧ LU.determinant eps D a = (LU.ofFlat D a).det ∧ (LU.ofFlat D a).PosDef ∧
      LU.ofFlat D a = LU.ofFlat D a0 + nu • (1 : Matrix (Fin D) (Fin D) ℝ) ∧ (nu = 0 → 1 / 10 ^ 6 ≤ (LU.ofFlat D a).det) ∧
      (nu = 1 / 100 → (1 / 100) ^ D ≤ (LU.ofFlat D a).det) ∧ (nu = 0 ∨ nu = 1 / 100) ∧
      ((LU.ofFlat D a0).det < 1 / 10 ^ 6 → nu = 1 / 100) ∧ (D ≤ 3 → nu = 1 / 100 → (LU.ofFlat D a0).det < 1 / 10 ^ 6) := by
  have hA : LU.ofFlat D a = LU.ofFlat D a0 + nu • (1 : Matrix (Fin D) (Fin D) ℝ) := by
    ext i j
    rw [Matrix.add_apply, Matrix.smul_apply, Matrix.one_apply]
    unfold LU.ofFlat
    rw [hp.used i j i.2 j.2]
    congr 1
    by_cases h : i = j
    · rw [if_pos h, if_pos (by rw [h]), smul_eq_mul, mul_one]
    · rw [if_neg h, if_neg (by omega), smul_eq_mul, mul_zero]
  have hdet0 := hpsd.det_nonneg
  have hle : |LU.determinant eps D a0| ≤ (LU.ofFlat D a0).det := by
    rcases LU.determinant_spec_partial eps heps D hD a0 with h | h
    · rw [h, abs_of_nonneg hdet0]
    · rw [h.1, abs_zero]; exact hdet0
  have himp : (LU.ofFlat D a0).det < 1 / 10 ^ 6 → nu = 1 / 100 := by
    intro h
    rcases hp.noise with ⟨_, h2, _⟩ | ⟨h2, _⟩
    · exact absurd (lt_of_le_of_lt hle h) h2
    · exact h2
  have hiff : D ≤ 3 → nu = 1 / 100 → (LU.ofFlat D a0).det < 1 / 10 ^ 6 := by
    intro h3 hn
    rcases hp.noise with ⟨h1, _⟩ | ⟨_, h2⟩
    · rw [hn] at h1; norm_num at h1
    · rw [(LU.small_complete eps D (by omega) a0).1, abs_of_nonneg hdet0] at h2
      exact h2
  rcases hp.noise with ⟨h0, hn, rfl⟩ | ⟨h1, hlt⟩
  · have hne : LU.determinant eps D a ≠ 0 := by
      intro h; rw [h, abs_zero] at hn; exact hn (by positivity)
    have hd : LU.determinant eps D a = (LU.ofFlat D a).det := by
      rcases LU.determinant_spec_partial eps heps D hD a with h | h
      · exact h
      · exact absurd h.1 hne
    refine ⟨?_, hd, ?_, hA, ?_, ?_, Or.inl h0, himp, hiff⟩
    · rcases Nat.lt_or_ge D 4 with h4 | h4
      · rw [Option.isSome_iff_ne_none, Ne, (LU.small_complete eps D (by omega) a).2, ← hd]
        exact hne
      · have hs : (LU.lu eps D 0 (fun r c => a (r * D + c)) (fun _ _ => 0)).isSome := by
          rw [Option.isSome_iff_ne_none]
          intro h
          apply hne
          unfold LU.determinant
          rw [if_neg (by omega), if_neg (by omega), if_neg (by omega), h]
        unfold LU.invert
        rw [if_neg (by omega), if_neg (by omega), if_neg (by omega), Option.isSome_map]
        exact LU.lu_indep eps D 0 D _ _ _ hs
    · exact hpsd.posDef_iff_det_ne_zero.2 (by rw [← hd]; exact hne)
    · intro _
      rw [← hd]
      have : |LU.determinant eps D a| = LU.determinant eps D a := abs_of_nonneg (by rw [hd]; exact hdet0)
      rw [this] at hn
      exact not_lt.1 hn
    · intro h; rw [h0] at h; norm_num at h
  · have hs : (LU.ofFlat D a - nu • (1 : Matrix (Fin D) (Fin D) ℝ)).PosSemidef := by rw [hA, add_sub_cancel_right]; exact hpsd
    have hnu : 0 ≤ nu := by rw [h1]; norm_num
    have hc := LU.well_conditioned eps heps D hD a fun x => by
      refine le_trans ?_ (psd_noise_bound _ nu hnu hs x)
      have : 0 ≤ ∑ c, x c ^ 2 := Finset.sum_nonneg fun i _ => sq_nonneg _
      rw [h1]
      exact mul_le_mul_of_nonneg_right hsmall this
    have hdn := psd_noise_det _ nu hnu hs
    refine ⟨hc.1, hc.2, ?_, hA, ?_, ?_, Or.inr h1, himp, hiff⟩
    · have hpsd2 : (LU.ofFlat D a).PosSemidef := by
        rw [hA]
        apply hpsd.add
        exact Matrix.PosSemidef.one.smul hnu
      refine hpsd2.posDef_iff_det_ne_zero.2 (ne_of_gt (lt_of_lt_of_le ?_ hdn))
      rw [h1]; positivity
    · intro h; rw [h1] at h; norm_num at h
    · intro _; rw [h1] at hdn; exact hdn

theorem centred_sum (l : List (Nat → ℝ)) (i j : Nat) (a b : ℝ) :
    (l.map fun x => (x i - a) * (x j - b)).sum =
      (l.map fun x => x i * x j).sum - b * (l.map fun x => x i).sum - a * (l.map fun x => x j).sum + l.length * (a * b) := by
  induction l with
  | nil => simp
  | cons x l ih =>
    rw [List.map_cons, List.sum_cons, ih]
    simp only [List.map_cons, List.sum_cons, List.length_cons]
    push_cast
    ring

/-- Mean of products minus product of means. -/
theorem cov_moments (l : List (Nat → ℝ)) (hl : l ≠ []) (D : Nat) (i j : Fin D) :
    (l.map fun x => x i * x j).sum / l.length - Spec.mean l i * Spec.mean l j = Spec.cov D l i j := by
  have hn : (l.length : ℝ) ≠ 0 := by
    have := List.length_pos_iff.2 hl
    positivity
  unfold Spec.cov
  rw [centred_sum]
  unfold Spec.mean
  field_simp
  ring

theorem quad_sum (D : Nat) (l : List (Nat → ℝ)) (mu : Nat → ℝ) (x : Fin D → ℝ) :
    ∑ i : Fin D, x i * ∑ j : Fin D, (l.map fun s => (s i - mu i) * (s j - mu j)).sum * x j =
      (l.map fun s => (∑ i : Fin D, x i * (s i - mu i)) ^ 2).sum := by
  induction l with
  | nil => simp
  | cons s l ih =>
    simp only [List.map_cons, List.sum_cons]
    rw [← ih, pow_two, Finset.sum_mul, ← Finset.sum_add_distrib]
    apply Finset.sum_congr rfl
    intro i _
    rw [Finset.mul_sum, Finset.mul_sum, Finset.mul_sum, ← Finset.sum_add_distrib]
    apply Finset.sum_congr rfl
    intro j _
    ring

theorem cov_psd (D : Nat) (l : List (Nat → ℝ)) : (Spec.cov D l).PosSemidef := by
  apply Matrix.PosSemidef.of_dotProduct_mulVec_nonneg
  · ext i j
    rw [Matrix.conjTranspose_apply]
    unfold Spec.cov
    simp [mul_comm]
  · intro x
    have e : dotProduct (star x) ((Spec.cov D l).mulVec x) =
        (l.map fun s => (∑ i : Fin D, x i * (s i - Spec.mean l i)) ^ 2).sum / l.length := by
      rw [← quad_sum, Finset.sum_div]
      unfold dotProduct
      apply Finset.sum_congr rfl
      intro i _
      unfold Matrix.mulVec dotProduct Spec.cov
      rw [mul_div_assoc, Finset.sum_div]
      simp only [star_trivial, Pi.star_apply]
      congr 1
      apply Finset.sum_congr rfl
      intro j _
      ring
    rw [e]
    apply div_nonneg _ (Nat.cast_nonneg _)
    apply List.sum_nonneg
    intro y hy
    obtain ⟨s, _, rfl⟩ := List.mem_map.1 hy
    exact sq_nonneg _

/-! ### A learning session -/

theorem luEps_pos : 0 < luEps := by unfold luEps; positivity

theorem luEps_small (D : Nat) (h : D ≤ 10 ^ 20) : (D : ℝ) * luEps ^ 2 ≤ (1 / 100) ^ 2 := by
  have h1 : (D : ℝ) ≤ 10 ^ 20 := by exact_mod_cast h
  have h2 : (D : ℝ) * luEps ^ 2 ≤ 10 ^ 20 * luEps ^ 2 := mul_le_mul_of_nonneg_right h1 (sq_nonneg _)
  refine le_trans h2 ?_
  unfold luEps
  norm_num

/-- What a session leaves in the model. -/
theorem learn_main (C D : Nat) (hD : 0 < D) (hD2 : D ≤ 10 ^ 20) (g : Gmm) (S : List (Nat × (Nat → ℝ))) :
    ∃ g', learn luEps C D g S = some g' ∧ g'.learning = false ∧ (∀ k, modelSize C D ≤ k → g'.data k = g.data k) ∧
      ∀ c, c < C →
        (Spec.comp S c = [] → g'.data c = 0 ∧ ∀ k, Own C D c k → k ≠ c → g'.data k = g.data k) ∧
        (Spec.comp S c ≠ [] → ∃ (a out : Nat → ℝ) (nu : ℝ),
          g'.data c = (Spec.comp S c).length / S.length ∧
          (∀ d, d < D → g'.data (oMeans C D + D * c + d) = Spec.mean (Spec.comp S c) d) ∧
          (∀ k, k < D * D → g'.data (oCovs C D + D * D * c + k) = a k) ∧
          (∀ k, k < D * D → g'.data (oInvs C D + D * D * c + k) = out k) ∧
          g'.data (oDets C D + c) = (LU.ofFlat D a).det ∧
          g'.data (oFacs C D + c) = 1 / Real.sqrt ((2 * Real.pi) ^ D * (LU.ofFlat D a).det) ∧
          LU.ofFlat D a * LU.ofFlat D out = 1 ∧ (LU.ofFlat D a).PosDef ∧
          LU.ofFlat D a = Spec.cov D (Spec.comp S c) + nu • (1 : Matrix (Fin D) (Fin D) ℝ) ∧
          (nu = 0 → 1 / 10 ^ 6 ≤ (LU.ofFlat D a).det) ∧ (nu = 1 / 100 → (1 / 100) ^ D ≤ (LU.ofFlat D a).det) ∧ (nu = 0 ∨ nu = 1 / 100) ∧
          ((Spec.cov D (Spec.comp S c)).det < 1 / 10 ^ 6 → nu = 1 / 100) ∧
          (D ≤ 3 → nu = 1 / 100 → (Spec.cov D (Spec.comp S c)).det < 1 / 10 ^ 6)) := by
  unfold learn endLearning
  obtain ⟨s1, s2, s3, s4, s5⟩ := samples_eq D S (initLearning C D g)
  generalize S.foldl (addSample D) (initLearning C D g) = g1 at s1 s2 s3 s4 s5 ⊢
  have i1 : ∀ c d, c < C → d < D → g1.sums c d = ((Spec.comp S c).map fun x => x d).sum := by
    intro c d hc hd
    rw [s1 c d hd]
    show (if c < C ∧ d < D then 0 else g.sums c d) + _ = _
    rw [if_pos ⟨hc, hd⟩, zero_add]
  have i2 : ∀ c i j, c < C → i < D → j < D → g1.prods c i j = ((Spec.comp S c).map fun x => x i * x j).sum := by
    intro c i j hc hi hj
    rw [s2 c i j hi hj]
    show (if c < C ∧ i < D ∧ j < D then 0 else g.prods c i j) + _ = _
    rw [if_pos ⟨hc, hi, hj⟩, zero_add]
  have i3 : ∀ c, c < C → g1.counts c = (Spec.comp S c).length := by
    intro c hc
    rw [s3 c]
    show (if c < C then 0 else g.counts c) + _ = _
    rw [if_pos hc, zero_add]
  have i4 : g1.total = S.length := by
    rw [s4]
    show 0 + _ = _
    rw [zero_add]
  have i5 : g1.data = g.data := s5
  have hbase : ∀ c, c < C → g1.counts c ≠ 0 → ∀ a0 a nu, Params luEps D g1 c a0 a nu → LU.ofFlat D a0 = Spec.cov D (Spec.comp S c) := by
    intro c hc hn a0 a nu hp
    ext i j
    unfold LU.ofFlat
    have hl : Spec.comp S c ≠ [] := by
      intro h; rw [i3 c hc, h] at hn; exact hn rfl
    rw [hp.base i j i.2 j.2, i1 c i hc i.2, i1 c j hc j.2, i2 c i j hc i.2 j.2, i3 c hc]
    exact cov_moments _ hl D i j
  have hgood : ∀ c, c < C → g1.counts c ≠ 0 → ∀ a0 a nu, Params luEps D g1 c a0 a nu → _ := fun c hc hn a0 a nu hp =>
    params_good luEps luEps_pos D hD (luEps_small D hD2) g1 c a0 a nu hp (by rw [hbase c hc hn a0 a nu hp]; exact cov_psd D _)
  obtain ⟨m', r, fr, st⟩ := learn_fold luEps C D g1 (fun c hc hn a0 a nu hp => (hgood c hc hn a0 a nu hp).1) C le_rfl g1.data
  refine ⟨{ g1 with data := m', learning := false }, by rw [r]; rfl, rfl, ?_, ?_⟩
  · intro k hk
    show m' k = g.data k
    rw [fr k fun c hc h => absurd (own_bound C D c k hc h) (by omega), i5]
  · intro c hc
    obtain ⟨t1, t2⟩ := st c hc
    constructor
    · intro he
      have h0 : g1.counts c = 0 := by rw [i3 c hc, he]; rfl
      refine ⟨(t1 h0).1, fun k hk hne => ?_⟩
      show m' k = g.data k
      rw [(t1 h0).2 k hk hne, i5]
    · intro he
      have h0 : g1.counts c ≠ 0 := by
        rw [i3 c hc]
        have := List.length_pos_iff.2 he
        omega
      obtain ⟨a0, a, nu, out, hp, hi, hst⟩ := t2 h0
      obtain ⟨q1, q2, q3, q4, q5, q6, q7, q8, q9⟩ := hgood c hc h0 a0 a nu hp
      have hb := hbase c hc h0 a0 a nu hp
      rw [hb] at q4 q8 q9
      refine ⟨a, out, nu, ?_, ?_, hst.cov, hst.inv, ?_, ?_, (LU.invert_spec luEps luEps_pos D a out hi).1, q3, q4, q5, q6, q7, q8, q9⟩
      · show m' c = _
        rw [hst.w, i3 c hc, i4]
      · intro d hd
        show m' _ = _
        rw [hst.mean d hd, i1 c d hc hd, i3 c hc]
        rfl
      · show m' _ = _
        rw [hst.det, q2]
      · show m' _ = _
        rw [hst.fac, q2]

theorem range_fold_sum (f : Nat → ℝ) (v : ℝ) (n : Nat) : (List.range n).foldl (fun s i => s + f i) v = v + ∑ i : Fin n, f i := by
  induction n with
  | zero => simp
  | succ n ih =>
    rw [List.range_succ, List.foldl_append, List.foldl_cons, List.foldl_nil, ih, Fin.sum_univ_castSucc]
    simp only [Fin.val_castSucc, Fin.val_last]
    ring

/-- Density of a component with given stored parameters. -/
theorem density_stored (C D : Nat) (hD : 0 < D) (g : Gmm) (c : Nat) (hw : 0 < g.data c) (a out : Nat → ℝ)
    (hi : ∀ k, k < D * D → g.data (oInvs C D + D * D * c + k) = out k)
    (hf : g.data (oFacs C D + c) = 1 / Real.sqrt ((2 * Real.pi) ^ D * (LU.ofFlat D a).det))
    (h1 : LU.ofFlat D a * LU.ofFlat D out = 1) (x : Nat → ℝ) :
    density C D g c x = Spec.gauss D (fun d => g.data (oMeans C D + D * c + d)) (LU.ofFlat D a) (fun d => x d) := by
  unfold density
  rw [if_pos hw]
  dsimp only
  unfold Spec.gauss
  rw [hf, one_div, Matrix.inv_eq_right_inv h1]
  congr 2
  congr 1
  rw [range_fold_sum, zero_add]
  have e2 : ∀ i : Fin D, (List.range (D - 1)).foldl (fun s j => s + (x j - g.data (oMeans C D + D * c + j)) * g.data (oInvs C D + c * D * D + (j * D + i)))
      ((x (D - 1) - g.data (oMeans C D + D * c + (D - 1))) * g.data (oInvs C D + c * D * D + ((D - 1) * D + i))) =
      ∑ j : Fin D, (x j - g.data (oMeans C D + D * c + j)) * out (j * D + i) := by
    intro i
    rw [range_fold_sum (fun j => (x j - g.data (oMeans C D + D * c + j)) * g.data (oInvs C D + c * D * D + (j * D + i)))]
    obtain ⟨n, rfl⟩ : ∃ n, D = n + 1 := ⟨D - 1, by omega⟩
    have eb : c * (n + 1) * (n + 1) = (n + 1) * (n + 1) * c := by ring
    rw [Fin.sum_univ_castSucc, add_comm]
    simp only [Fin.val_castSucc, Fin.val_last, Nat.add_sub_cancel, eb]
    congr 1
    · apply Finset.sum_congr rfl
      intro j _
      rw [hi _ (mat_idx (n + 1) j i (by omega) i.2).1]
    · rw [hi _ (mat_idx (n + 1) n i (by omega) i.2).1]
  simp only [dotProduct, Matrix.mulVec, Pi.sub_apply, LU.ofFlat]
  calc ∑ i : Fin D, (x i - g.data (oMeans C D + D * c + i)) *
        (List.range (D - 1)).foldl (fun s j => s + (x j - g.data (oMeans C D + D * c + j)) * g.data (oInvs C D + c * D * D + (j * D + i)))
          ((x (D - 1) - g.data (oMeans C D + D * c + (D - 1))) * g.data (oInvs C D + c * D * D + ((D - 1) * D + i)))
      = ∑ i : Fin D, (x i - g.data (oMeans C D + D * c + i)) * ∑ j : Fin D, (x j - g.data (oMeans C D + D * c + j)) * out (j * D + i) :=
        Finset.sum_congr rfl fun i _ => by rw [e2 i]
    _ = ∑ i : Fin D, ∑ j : Fin D, (x i - g.data (oMeans C D + D * c + i)) * ((x j - g.data (oMeans C D + D * c + j)) * out (j * D + i)) :=
        Finset.sum_congr rfl fun i _ => by rw [Finset.mul_sum]
    _ = ∑ j : Fin D, ∑ i : Fin D, (x i - g.data (oMeans C D + D * c + i)) * ((x j - g.data (oMeans C D + D * c + j)) * out (j * D + i)) :=
        Finset.sum_comm
    _ = _ := Finset.sum_congr rfl fun j _ => by
        rw [Finset.mul_sum]
        exact Finset.sum_congr rfl fun i _ => by ring

theorem comp_length_sum (C : Nat) (S : List (Nat × (Nat → ℝ))) (hS : ∀ s ∈ S, s.1 < C) :
    ∑ c : Fin C, (Spec.comp S c).length = S.length := by
  induction S with
  | nil => simp [Spec.comp]
  | cons s S ih =>
    have hc : ∀ c, (Spec.comp (s :: S) c).length = (Spec.comp S c).length + if c = s.1 then 1 else 0 := by
      intro c
      unfold Spec.comp
      by_cases h : s.1 = c
      · rw [List.filter_cons_of_pos (by simpa using h), if_pos h.symm]; simp
      · rw [List.filter_cons_of_neg (by simpa using h), if_neg (fun e => h e.symm)]; rfl
    simp only [hc]
    rw [Finset.sum_add_distrib, ih fun t ht => hS t (List.mem_cons_of_mem _ ht), List.length_cons]
    congr 1
    have h1 := hS s (List.mem_cons_self)
    rw [Finset.sum_eq_single (⟨s.1, h1⟩ : Fin C)]
    · simp
    · intro b _ hb
      rw [if_neg]
      intro e
      exact hb (Fin.ext e)
    · intro h; exact absurd (Finset.mem_univ _) h

theorem addSample_comm (D : Nat) (g : Gmm) (s t : Nat × (Nat → ℝ)) : addSample D (addSample D g s) t = addSample D (addSample D g t) s := by
  simp only [addSample_eq]
  congr 1
  · funext c d
    split_ifs <;> ring
  · funext c i j
    split_ifs <;> ring
  · funext c
    split_ifs <;> rfl

/-- Invariant of the search for the best component. -/
theorem best_fold (f : Nat → ℝ) (L n : Nat) :
    let b := (List.range n).foldl (fun (b : Nat × ℝ) c => if b.2 < f c then (c, f c) else b) (L, f L)
    b.2 = f b.1 ∧ (b.1 = L ∨ b.1 < n) ∧ f L ≤ b.2 ∧ (∀ c, c < n → f c ≤ b.2) ∧
      (b.1 = L ∨ (f L < b.2 ∧ ∀ c, c < b.1 → f c < b.2)) := by
  induction n with
  | zero => exact ⟨rfl, Or.inl rfl, le_rfl, fun c h => absurd h (by omega), Or.inl rfl⟩
  | succ n ih =>
    dsimp only at ih ⊢
    rw [List.range_succ, List.foldl_append, List.foldl_cons, List.foldl_nil]
    generalize (List.range n).foldl (fun (b : Nat × ℝ) c => if b.2 < f c then (c, f c) else b) (L, f L) = b at ih
    obtain ⟨h1, h2, h3, h4, h5⟩ := ih
    by_cases h : b.2 < f n
    · rw [if_pos h]
      refine ⟨rfl, Or.inr (by simp), by dsimp only; linarith, ?_, Or.inr ⟨by dsimp only; linarith, ?_⟩⟩
      · intro c hc
        rcases Nat.lt_succ_iff_lt_or_eq.1 hc with hl | rfl
        · have := h4 c hl; dsimp only; linarith
        · exact le_rfl
      · intro c hc
        have := h4 c hc
        dsimp only; linarith
    · rw [if_neg h]
      refine ⟨h1, by omega, h3, ?_, h5⟩
      intro c hc
      rcases Nat.lt_succ_iff_lt_or_eq.1 hc with hl | rfl
      · exact h4 c hl
      · exact not_lt.1 h

end Litiv.GMM
