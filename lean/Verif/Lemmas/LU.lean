import Verif.Model.LU
import Mathlib.LinearAlgebra.Matrix.Determinant.Basic
import Mathlib.LinearAlgebra.Matrix.Block
import Mathlib.LinearAlgebra.Matrix.NonsingularInverse
import Mathlib.LinearAlgebra.Matrix.ToLinearEquiv
import Mathlib.Tactic.Ring
import Mathlib.Tactic.Linarith
import Mathlib.Tactic.FieldSimp

set_option linter.unusedSectionVars false

namespace Litiv.LU

variable {K : Type} [Field K] [LinearOrder K] [IsStrictOrderedRing K]

theorem pivotRow_range (m : Nat) (A : Nat → Nat → K) (i : Nat) (hi : i < m) : i ≤ pivotRow m A i ∧ pivotRow m A i < m := by
  have : ∀ (l : List Nat) (k : Nat), (∀ j ∈ l, i ≤ j ∧ j < m) → i ≤ k ∧ k < m →
      i ≤ l.foldl (fun k j => if |A k i| < |A j i| then j else k) k ∧
        l.foldl (fun k j => if |A k i| < |A j i| then j else k) k < m := by
    intro l
    induction l with
    | nil => intro k _ h; exact h
    | cons j l ih =>
      intro k hl hk
      rw [List.foldl_cons]
      apply ih _ fun j hj => hl j (List.mem_cons_of_mem _ hj)
      split
      · exact hl j List.mem_cons_self
      · exact hk
  apply this _ _ _ ⟨le_refl i, hi⟩
  intro j hj
  rw [List.mem_range'_1] at hj
  omega

/-- The matrix represented by `A` after `i` iterations: rows above `i` are final (their diagonal holds a reciprocal), the
columns left of the diagonal (or of `i`) are implicitly zero. -/
def eff (i : Nat) (A : Nat → Nat → K) : Nat → Nat → K := fun r c =>
  if r < i then (if c < r then 0 else if c = r then (A r r)⁻¹ else A r c)
  else (if c < i then 0 else A r c)

/-- The `m × m` matrix of a function. -/
def toM (m : Nat) (A : Nat → Nat → K) : Matrix (Fin m) (Fin m) K := fun r c => A r c

/-- `A X = B` for column `j` of `B`. -/
def Solves (m : Nat) (A B : Nat → Nat → K) (j : Nat) (X : Nat → K) : Prop :=
  ∀ r, r < m → ∑ c : Fin m, A r c * X c = B r j

/-- What one iteration does to the represented matrix. -/
theorem luStep_spec (eps : K) (heps : 0 < eps) (m n : Nat) (s s' : St K) (i : Nat) (hi : i < m)
    (h : luStep eps m n s i = some s') :
    (∀ j X, j < n → Solves m (eff (i + 1) s'.A) s'.B j X → Solves m (eff i s.A) s.B j X) ∧
    (s'.p : K) * (toM m (eff (i + 1) s'.A)).det = (s.p : K) * (toM m (eff i s.A)).det ∧ s'.A i i ≠ 0 := by
  unfold luStep at h
  dsimp only at h
  obtain ⟨hk1, hk2⟩ := pivotRow_range m s.A i hi
  generalize hk : pivotRow m s.A i = k at *
  split at h
  · exact absurd h (by simp)
  rename_i hpiv
  have hpne : s.A k i ≠ 0 := by
    intro h0; rw [h0] at hpiv; simp at hpiv; exact absurd heps (not_lt.2 hpiv)
  -- the state after the swap
  generalize hs1 : (if k ≠ i then (⟨swapRows i m s.A i k, swapRows 0 n s.B i k, -s.p⟩ : St K) else s) = s1 at h
  injection h with h
  subst h
  have hsw : (∀ r c, i ≤ c → c < m → s1.A r c = s.A (Equiv.swap i k r) c) ∧ (∀ r c, c < i → s1.A r c = s.A r c) ∧
      (∀ r c, c < n → s1.B r c = s.B (Equiv.swap i k r) c) ∧
      ((s1.p : K) = (s.p : K) * (if i = k then 1 else -1)) := by
    by_cases hki : k = i
    · rw [if_neg (by simpa using hki)] at hs1
      subst hs1; subst hki
      simp
    · rw [if_pos hki] at hs1
      subst hs1
      refine ⟨?_, ?_, ?_, ?_⟩
      · intro r c h1 h2
        simp only [swapRows, h1, h2, and_self, if_true, Equiv.swap_apply_def]
        split
        · rfl
        · split <;> rfl
      · intro r c h1
        simp only [swapRows]
        rw [if_neg (by omega)]
      · intro r c h1
        simp only [swapRows, Nat.zero_le, h1, and_self, if_true, Equiv.swap_apply_def]
        split
        · rfl
        · split <;> rfl
      · rw [if_neg (fun h => hki h.symm)]
        push_cast; ring
  obtain ⟨hA, hAlow, hB, hp⟩ := hsw
  have hpne1 : s1.A i i ≠ 0 := by
    rw [hA i i (le_refl i) hi, Equiv.swap_apply_left]; exact hpne
  -- rows of eff i s1 are the swapped rows of eff i s
  have hperm : ∀ r c, r < m → c < m → eff i s1.A r c = eff i s.A (Equiv.swap i k r) c := by
    intro r c hr hc
    unfold eff
    by_cases hri : r < i
    · have h1 : Equiv.swap i k r = r := Equiv.swap_apply_of_ne_of_ne (by omega) (by omega)
      rw [h1]
      simp only [hri, if_true]
      by_cases hcr : c < r
      · simp [hcr]
      · simp only [hcr, if_false]
        by_cases hce : c = r
        · subst hce
          simp only [if_true]
          rw [hAlow c c hri]
        · simp only [hce, if_false]
          by_cases hci : c < i
          · rw [hAlow r c hci]
          · rw [hA r c (by omega) hc, h1]
    · have h1 : ¬ Equiv.swap i k r < i := by
        rw [Equiv.swap_apply_def]
        split
        · omega
        · split <;> omega
      simp only [hri, h1, if_false]
      by_cases hci : c < i
      · simp [hci]
      · simp only [hci, if_false]
        exact hA r c (by omega) hc
  -- elimination
  set d := -1 / s1.A i i with hd
  have hdd : -d ≠ 0 := by rw [hd]; simp [hpne1]
  have hinv : (-d)⁻¹ = s1.A i i := by rw [hd]; simp [neg_div]
  set f : Nat → K := fun r => if i < r ∧ r < m then s1.A r i * d else 0 with hf
  have helim : ∀ r c, r < m → c < m →
      eff (i + 1) (setDiag (elimA m s1.A i d) i (-d)) r c = eff i s1.A r c + f r * eff i s1.A i c := by
    intro r c hr hc
    rcases lt_trichotomy r i with hri | hri | hri
    · -- row already final
      have h1 : r < i + 1 := by omega
      have hf0 : f r = 0 := by rw [hf]; dsimp only; rw [if_neg (by omega)]
      rw [hf0, zero_mul, add_zero]
      unfold eff
      simp only [h1, hri, if_true]
      have e : ∀ c, setDiag (elimA m s1.A i d) i (-d) r c = s1.A r c := by
        intro c
        unfold setDiag elimA
        rw [if_neg (by omega), if_neg (by omega)]
      rw [e, e]
    · subst hri
      have hf0 : f r = 0 := by rw [hf]; dsimp only; rw [if_neg (by omega)]
      rw [hf0, zero_mul, add_zero]
      unfold eff
      simp only [Nat.lt_succ_self, if_true, lt_irrefl, if_false]
      by_cases hcr : c < r
      · simp [hcr]
      · simp only [hcr, if_false]
        by_cases hce : c = r
        · subst hce
          simp only [if_true]
          unfold setDiag
          rw [if_pos ⟨rfl, rfl⟩, hinv]
        · simp only [hce, if_false]
          unfold setDiag elimA
          rw [if_neg (by omega), if_neg (by omega)]
    · have h1 : ¬ r < i + 1 := by omega
      have h2 : ¬ r < i := by omega
      have hfr : f r = s1.A r i * d := by rw [hf]; dsimp only; rw [if_pos ⟨hri, hr⟩]
      rw [hfr]
      unfold eff
      simp only [h1, h2, lt_irrefl, if_false]
      by_cases hci : c < i
      · rw [if_pos (by omega), if_pos hci, if_pos hci]; ring
      · simp only [hci, if_false]
        by_cases hce : c = i
        · subst hce
          rw [if_pos (by omega), hd]
          field_simp
          ring
        · rw [if_neg (by omega)]
          unfold setDiag elimA
          rw [if_neg (by omega), if_pos (by omega)]
  have hBel : ∀ r j, r < m → j < n → elimB m n s1.A s1.B i d r j = s1.B r j + f r * s1.B i j := by
    intro r j hr hj
    unfold elimB
    rw [hf]
    dsimp only
    by_cases hri : i < r
    · rw [if_pos ⟨hri, hr, hj⟩, if_pos ⟨hri, hr⟩]
    · rw [if_neg (by omega), if_neg (by omega)]; ring
  refine ⟨?_, ?_, ?_⟩
  · intro j X hj hS
    -- first for s1
    have hS1 : ∀ r, r < m → ∑ c : Fin m, eff i s1.A r c * X c = s1.B r j := by
      have hrow : ∀ r, r < m → ∑ c : Fin m, eff i s1.A r c * X c + f r * ∑ c : Fin m, eff i s1.A i c * X c =
          s1.B r j + f r * s1.B i j := by
        intro r hr
        have := hS r hr
        dsimp only at this
        rw [hBel r j hr hj] at this
        rw [← this, Finset.mul_sum, ← Finset.sum_add_distrib]
        apply Finset.sum_congr rfl
        intro c _
        rw [helim r c hr c.2]; ring
      have hfi : f i = 0 := by rw [hf]; dsimp only; rw [if_neg (by omega)]
      have hi0 := hrow i hi
      rw [hfi, zero_mul, zero_mul, add_zero, add_zero] at hi0
      intro r hr
      have := hrow r hr
      rw [hi0] at this
      exact add_right_cancel this
    intro r hr
    have hr' : Equiv.swap i k r < m := by
      rw [Equiv.swap_apply_def]
      split
      · exact hk2
      · split
        · exact hi
        · exact hr
    have := hS1 (Equiv.swap i k r) hr'
    rw [hB _ j hj, Equiv.swap_apply_self] at this
    rw [← this]
    apply Finset.sum_congr rfl
    intro c _
    rw [hperm _ c hr' c.2, Equiv.swap_apply_self]
  · dsimp only
    have h1 : (toM m (eff (i + 1) (setDiag (elimA m s1.A i d) i (-d)))).det = (toM m (eff i s1.A)).det := by
      apply Matrix.det_eq_of_forall_row_eq_smul_add_const (fun r : Fin m => f r) ⟨i, hi⟩
      · show f i = 0
        rw [hf]; dsimp only; rw [if_neg (by omega)]
      · intro r c
        exact helim r c r.2 c.2
    have h2 : (toM m (eff i s1.A)) = (toM m (eff i s.A)).submatrix (Equiv.swap (⟨i, hi⟩ : Fin m) ⟨k, hk2⟩) id := by
      ext r c
      rw [Matrix.submatrix_apply]
      show eff i s1.A r c = eff i s.A (Equiv.swap (⟨i, hi⟩ : Fin m) ⟨k, hk2⟩ r : Fin m) c
      rw [hperm r c r.2 c.2]
      congr 1
      rw [Equiv.swap_apply_def, Equiv.swap_apply_def]
      simp only [Fin.ext_iff]
      split
      · rfl
      · split <;> rfl
    rw [h1, h2, Matrix.det_permute, hp]
    by_cases hik : i = k
    · subst hik; simp
    · have : (⟨i, hi⟩ : Fin m) ≠ ⟨k, hk2⟩ := by simpa [Fin.ext_iff] using hik
      rw [Equiv.Perm.sign_swap this, if_neg hik]
      push_cast
      ring
  · dsimp only
    unfold setDiag
    rw [if_pos ⟨rfl, rfl⟩]; exact hdd

theorem luStep_diag (eps : K) (m n : Nat) (s s' : St K) (i : Nat) (_ : i < m) (h : luStep eps m n s i = some s') (r : Nat)
    (hr : r < i) : s'.A r r = s.A r r := by
  unfold luStep at h
  dsimp only at h
  split at h
  · exact absurd h (by simp)
  injection h with h
  subst h
  dsimp only
  unfold setDiag elimA
  rw [if_neg (by omega), if_neg (by omega)]
  split
  · dsimp only; unfold swapRows; rw [if_neg (by omega)]
  · rfl

theorem luForward_spec (eps : K) (heps : 0 < eps) (m n : Nat) (A B : Nat → Nat → K) (t : Nat) (ht : t ≤ m) (s : St K)
    (h : (List.range t).foldlM (luStep eps m n) ⟨A, B, 1⟩ = some s) :
    (∀ j X, j < n → Solves m (eff t s.A) s.B j X → Solves m A B j X) ∧
    (s.p : K) * (toM m (eff t s.A)).det = (toM m A).det ∧ (∀ r, r < t → s.A r r ≠ 0) ∧ (s.p = 1 ∨ s.p = -1) := by
  induction t generalizing s with
  | zero =>
    simp only [List.range_zero, List.foldlM_nil] at h
    injection h with h
    subst h
    have e : eff 0 A = A := by funext r c; simp [eff]
    refine ⟨fun j X _ hS => by rw [e] at hS; exact hS, by rw [e]; simp, fun r hr => by omega, Or.inl rfl⟩
  | succ t ih =>
    rw [List.range_succ, List.foldlM_append] at h
    cases h1 : (List.range t).foldlM (luStep eps m n) ⟨A, B, 1⟩ with
    | none => rw [h1] at h; exact absurd h (by simp)
    | some s1 =>
      rw [h1] at h
      simp only [Option.bind_eq_bind, Option.bind_some, List.foldlM_cons, List.foldlM_nil] at h
      cases h2 : luStep eps m n s1 t with
      | none => rw [h2] at h; exact absurd h (by simp)
      | some s2 =>
        rw [h2] at h
        simp only [Option.bind_some] at h
        injection h with h
        subst h
        obtain ⟨a1, a2, a3, a4⟩ := ih (by omega) s1 h1
        obtain ⟨b1, b2, b3⟩ := luStep_spec eps heps m n s1 s2 t (by omega) h2
        refine ⟨fun j X hj hS => a1 j X hj (b1 j X hj hS), by rw [b2, a2], ?_, ?_⟩
        · intro r hr
          rcases Nat.lt_succ_iff_lt_or_eq.1 hr with hr | rfl
          · rw [luStep_diag eps m n s1 s2 t (by omega) h2 r hr]; exact a3 r hr
          · exact b3
        · unfold luStep at h2
          dsimp only at h2
          split at h2
          · exact absurd h2 (by simp)
          injection h2 with h2
          subst h2
          dsimp only
          split
          · rcases a4 with h | h <;> simp [h]
          · exact a4

/-! ### Back substitution -/

theorem foldl_sub (l : List Nat) (g : Nat → K) (s : K) : l.foldl (fun s k => s - g k) s = s - (l.map g).sum := by
  induction l generalizing s with
  | nil => simp
  | cons a l ih => rw [List.foldl_cons, ih, List.map_cons, List.sum_cons]; ring

theorem range'_sum (m i : Nat) (g : Nat → K) :
    ((List.range' (i + 1) (m - (i + 1))).map g).sum = ∑ c : Fin m, if i < (c : Nat) then g c else 0 := by
  rw [Fin.sum_univ_eq_sum_range (fun c => if i < c then g c else 0) m, ← Finset.sum_filter]
  have : (Finset.range m).filter (fun c => i < c) = (List.range' (i + 1) (m - (i + 1))).toFinset := by
    ext c
    simp only [Finset.mem_filter, Finset.mem_range, List.mem_toFinset, List.mem_range'_1]
    omega
  rw [this, List.sum_toFinset _ List.nodup_range']

theorem backSub_spec (m n : Nat) (A B0 : Nat → Nat → K) (hd : ∀ r, r < m → A r r ≠ 0) (t : Nat) (ht : t ≤ m) :
    let B := (List.range' t (m - t)).reverse.foldl (backRow m n A) B0
    (∀ r j, r < t → B r j = B0 r j) ∧
    ∀ r j, t ≤ r → r < m → j < n → ∑ c : Fin m, eff m A r c * B c j = B0 r j := by
  induction h : m - t generalizing t with
  | zero =>
    intro B
    refine ⟨fun r j _ => ?_, fun r j h1 h2 _ => by omega⟩
    simp [B, List.range'_zero]
  | succ q ih =>
    intro B
    have hq : m - (t + 1) = q := by omega
    obtain ⟨i1, i2⟩ := ih (t + 1) (by omega) hq
    have hB : B = backRow m n A ((List.range' (t + 1) q).reverse.foldl (backRow m n A) B0) t := by
      simp only [B]
      rw [List.range'_succ, List.reverse_cons, List.foldl_append]
      rfl
    generalize hB1 : (List.range' (t + 1) q).reverse.foldl (backRow m n A) B0 = B1 at *
    have hother : ∀ r j, r ≠ t → B r j = B1 r j := by
      intro r j hr
      rw [hB]; unfold backRow; rw [if_neg (by omega)]
    refine ⟨?_, ?_⟩
    · intro r j hr
      rw [hother r j (by omega), i1 r j (by omega)]
    · intro r j h1 h2 hj
      by_cases hrt : r = t
      · subst hrt
        have hrow : B r j = (B1 r j - ∑ c : Fin m, if r < (c : Nat) then A r c * B1 c j else 0) * A r r := by
          rw [hB]; unfold backRow
          rw [if_pos ⟨rfl, hj⟩, foldl_sub, range'_sum m r (fun k => A r k * B1 k j)]
        have hsum : ∑ c : Fin m, eff m A r c * B c j =
            (A r r)⁻¹ * B r j + ∑ c : Fin m, if r < (c : Nat) then A r c * B1 c j else 0 := by
          have : ∀ c : Fin m, eff m A r c * B c j =
              (if (⟨r, h2⟩ : Fin m) = c then (A r r)⁻¹ * B r j else 0) + if r < (c : Nat) then A r c * B1 c j else 0 := by
            intro c
            unfold eff
            rw [if_pos h2]
            rcases lt_trichotomy (c : Nat) r with hc | hc | hc
            · rw [if_pos hc, if_neg (by intro he; rw [← he] at hc; exact absurd hc (lt_irrefl _)), if_neg (by omega)]
              ring
            · have hce : (⟨r, h2⟩ : Fin m) = c := by ext; exact hc.symm
              rw [if_neg (by omega), if_pos hc, if_pos hce, if_neg (by omega), hc]
              ring
            · rw [if_neg (by omega), if_neg (by omega), if_neg (by intro he; rw [← he] at hc; exact absurd hc (lt_irrefl _)),
                if_pos hc, hother c j (by omega)]
              ring
          rw [Finset.sum_congr rfl (fun c _ => this c), Finset.sum_add_distrib]
          simp
        rw [hsum, hrow, i1 r j (by omega)]
        have := hd r h2
        field_simp
        ring
      · rw [← i2 r j (by omega) h2 hj]
        apply Finset.sum_congr rfl
        intro c _
        by_cases hct : (c : Nat) = t
        · have : eff m A r c = 0 := by
            unfold eff
            rw [if_pos h2, if_pos (by omega)]
          rw [this]; ring
        · rw [hother c j hct]

theorem lu_solves (eps : K) (heps : 0 < eps) (m n : Nat) (A B : Nat → Nat → K) (s : St K) (h : lu eps m n A B = some s) :
    ∀ r j, r < m → j < n → ∑ c : Fin m, A r c * s.B c j = B r j := by
  unfold lu at h
  cases h1 : luForward eps m n A B with
  | none => rw [h1] at h; exact absurd h (by simp)
  | some s1 =>
    rw [h1] at h
    simp only [Option.map_some] at h
    injection h with h
    subst h
    obtain ⟨a1, _, a3, _⟩ := luForward_spec eps heps m n A B m (le_refl m) s1 h1
    obtain ⟨_, b2⟩ := backSub_spec m n s1.A s1.B a3 0 (Nat.zero_le m)
    intro r j hr hj
    apply a1 j (fun c => (List.range m).reverse.foldl (backRow m n s1.A) s1.B c j) hj _ r hr
    intro r hr
    have := b2 r j (Nat.zero_le r) hr hj
    rw [Nat.sub_zero, ← List.range_eq_range'] at this
    exact this

theorem foldl_mul_diag (l : List Nat) (g : Nat → K) (p : K) : l.foldl (fun p n => p * g n) p = p * (l.map g).prod := by
  induction l generalizing p with
  | nil => simp
  | cons a l ih => rw [List.foldl_cons, ih, List.map_cons, List.prod_cons]; ring

theorem lu_det (eps : K) (heps : 0 < eps) (m n : Nat) (A B : Nat → Nat → K) (s : St K) (h : lu eps m n A B = some s) :
    1 / (List.range m).foldl (fun p n => p * s.A n n) ((s.p : Int) : K) = (toM m A).det ∧ (toM m A).det ≠ 0 := by
  unfold lu at h
  cases h1 : luForward eps m n A B with
  | none => rw [h1] at h; exact absurd h (by simp)
  | some s1 =>
    rw [h1] at h
    simp only [Option.map_some] at h
    injection h with h
    subst h
    obtain ⟨_, a2, a3, a4⟩ := luForward_spec eps heps m n A B m (le_refl m) s1 h1
    dsimp only
    have hdet : (toM m (eff m s1.A)).det = ∏ r : Fin m, (s1.A r r)⁻¹ := by
      rw [Matrix.det_of_isUpperTriangular]
      · apply Finset.prod_congr rfl
        intro r _
        show eff m s1.A r r = _
        unfold eff
        rw [if_pos r.2, if_neg (lt_irrefl _), if_pos rfl]
      · intro r c hrc
        show eff m s1.A r c = 0
        unfold eff
        rw [if_pos r.2, if_pos (by simpa using hrc)]
    have hprod : ∏ r : Fin m, s1.A r r ≠ 0 := Finset.prod_ne_zero_iff.2 fun r _ => a3 r r.2
    have hp1 : (s1.p : K) * (s1.p : K) = 1 := by
      rcases a4 with h | h <;> rw [h] <;> norm_num
    have hp : (s1.p : K) ≠ 0 := by
      intro h0; rw [h0] at hp1; norm_num at hp1
    rw [foldl_mul_diag]
    have e : ((List.range m).map fun n => s1.A n n).prod = ∏ r : Fin m, s1.A r r := by
      rw [Fin.prod_univ_eq_prod_range (fun r => s1.A r r) m, Finset.prod_range]
      rw [← List.prod_toFinset _ List.nodup_range]
      rw [List.toFinset_range, Finset.prod_range]
    rw [e, ← a2, hdet, Finset.prod_inv_distrib]
    refine ⟨?_, mul_ne_zero hp (inv_ne_zero hprod)⟩
    rw [div_eq_iff (mul_ne_zero hp hprod)]
    rw [show (s1.p : K) * (∏ r : Fin m, s1.A r r)⁻¹ * ((s1.p : K) * ∏ r : Fin m, s1.A r r) =
      ((s1.p : K) * (s1.p : K)) * ((∏ r : Fin m, s1.A r r)⁻¹ * ∏ r : Fin m, s1.A r r) by ring]
    rw [hp1, inv_mul_cancel₀ hprod, one_mul]

theorem pivotRow_largest (m : Nat) (A : Nat → Nat → K) (i j : Nat) (hij : i ≤ j) (hj : j < m) :
    |A j i| ≤ |A (pivotRow m A i) i| := by
  have : ∀ (l : List Nat) (k : Nat), (∀ j, j = k ∨ j ∈ l →
      |A j i| ≤ |A (l.foldl (fun k j => if |A k i| < |A j i| then j else k) k) i|) := by
    intro l
    induction l with
    | nil => rintro k j (rfl | h)
             · exact le_refl _
             · simp at h
    | cons b l ih =>
      rintro k j hjl
      rw [List.foldl_cons]
      split
      · rename_i hlt
        rcases hjl with rfl | hjl
        · exact le_trans (le_of_lt hlt) (ih b b (Or.inl rfl))
        · exact ih b j (List.mem_cons.1 hjl)
      · rename_i hlt
        rcases hjl with rfl | hjl
        · exact ih j j (Or.inl rfl)
        · rcases List.mem_cons.1 hjl with rfl | hjl
          · exact le_trans (not_lt.1 hlt) (ih k k (Or.inl rfl))
          · exact ih k j (Or.inr hjl)
  apply this
  rcases Nat.eq_or_lt_of_le hij with rfl | h
  · exact Or.inl rfl
  · right; rw [List.mem_range'_1]; omega

/-! ### Completeness for small tolerances -/

theorem eff_det_zero (m : Nat) (A : Nat → Nat → K) (i : Nat) (hi : i < m) (h : ∀ r, i ≤ r → r < m → A r i = 0) :
    (toM m (eff i A)).det = 0 := by
  rw [Matrix.det_apply]
  apply Finset.sum_eq_zero
  intro σ _
  have : ∃ c : Fin m, (c : Nat) ≤ i ∧ i ≤ (σ c : Nat) := by
    by_contra hn
    push Not at hn
    have hcard := Finset.card_le_card_of_injOn (s := Finset.univ.filter fun c : Fin m => (c : Nat) ≤ i)
      (t := Finset.univ.filter fun c : Fin m => (c : Nat) < i) σ
      (fun c hc => by simp only [Finset.coe_filter, Finset.mem_univ, true_and, Set.mem_ofPred_eq] at hc ⊢; exact hn c hc)
      (σ.injective.injOn)
    have hlt : (Finset.univ.filter fun c : Fin m => (c : Nat) < i) ⊂ (Finset.univ.filter fun c : Fin m => (c : Nat) ≤ i) := by
      rw [Finset.ssubset_iff_of_subset]
      · exact ⟨⟨i, hi⟩, by simp, by simp⟩
      · intro c hc
        simp only [Finset.mem_filter, Finset.mem_univ, true_and] at hc ⊢
        omega
    have := Finset.card_lt_card hlt
    omega
  obtain ⟨c, hc1, hc2⟩ := this
  have hz : toM m (eff i A) (σ c) c = 0 := by
    show eff i A (σ c) c = 0
    unfold eff
    rw [if_neg (by omega)]
    by_cases hci : (c : Nat) < i
    · rw [if_pos hci]
    · rw [if_neg hci]
      have : (c : Nat) = i := by omega
      rw [this]
      exact h _ hc2 (σ c).2
  have hprod : ∏ r : Fin m, toM m (eff i A) (σ r) r = 0 :=
    Finset.prod_eq_zero (f := fun r => toM m (eff i A) (σ r) r) (Finset.mem_univ c) hz
  rw [hprod, smul_zero]

theorem luStep_eps (eps eps' : K) (m n : Nat) (s s' : St K) (i : Nat) (hle : eps' ≤ eps)
    (h : luStep eps m n s i = some s') : luStep eps' m n s i = some s' := by
  unfold luStep at h ⊢
  dsimp only at h ⊢
  split at h
  · exact absurd h (by simp)
  · rename_i hp
    rw [if_neg fun h' => hp (lt_of_lt_of_le h' hle)]
    exact h

theorem luPrefix_eps (eps eps' : K) (m n : Nat) (l : List Nat) (s s' : St K) (hle : eps' ≤ eps)
    (h : l.foldlM (luStep eps m n) s = some s') : l.foldlM (luStep eps' m n) s = some s' := by
  induction l generalizing s with
  | nil => exact h
  | cons i l ih =>
    rw [List.foldlM_cons] at h ⊢
    cases h1 : luStep eps m n s i with
    | none => rw [h1] at h; exact absurd h (by simp)
    | some s1 =>
      rw [h1] at h
      rw [luStep_eps eps eps' m n s s1 i hle h1]
      exact ih s1 h

theorem luForward_complete (m n : Nat) (A B : Nat → Nat → K) (hdet : (toM m A).det ≠ 0) (t : Nat) (ht : t ≤ m) :
    ∃ eps : K, 0 < eps ∧ ((List.range t).foldlM (luStep eps m n) ⟨A, B, 1⟩).isSome = true := by
  induction t with
  | zero => exact ⟨1, one_pos, by simp⟩
  | succ t ih =>
    obtain ⟨eps, heps, hs⟩ := ih (by omega)
    obtain ⟨s, hs⟩ := Option.isSome_iff_exists.1 hs
    obtain ⟨_, a2, _, _⟩ := luForward_spec eps heps m n A B t (by omega) s hs
    have hpiv : s.A (pivotRow m s.A t) t ≠ 0 := by
      intro h0
      have hmax : ∀ r, t ≤ r → r < m → s.A r t = 0 := by
        intro r h1 h2
        have := pivotRow_largest m s.A t r h1 h2
        rw [h0, abs_zero] at this
        exact abs_eq_zero.1 (le_antisymm this (abs_nonneg _))
      rw [eff_det_zero m s.A t (by omega) hmax, mul_zero] at a2
      exact hdet a2.symm
    refine ⟨min eps |s.A (pivotRow m s.A t) t|, lt_min heps (abs_pos.2 hpiv), ?_⟩
    rw [List.range_succ, List.foldlM_append, luPrefix_eps eps _ m n _ _ s (min_le_left _ _) hs]
    simp only [Option.bind_eq_bind, Option.bind_some, List.foldlM_cons, List.foldlM_nil]
    have : (luStep (min eps |s.A (pivotRow m s.A t) t|) m n s t).isSome = true := by
      unfold luStep
      dsimp only
      rw [if_neg (not_lt.2 (min_le_right _ _))]
      rfl
    obtain ⟨s', h'⟩ := Option.isSome_iff_exists.1 this
    rw [h']; rfl

theorem lu_complete (m n : Nat) (A B : Nat → Nat → K) (hdet : (toM m A).det ≠ 0) :
    ∃ d : K, 0 < d ∧ ∀ eps, eps ≤ d → (lu eps m n A B).isSome = true := by
  obtain ⟨d, hd, hs⟩ := luForward_complete m n A B hdet m (le_refl m)
  refine ⟨d, hd, fun eps hle => ?_⟩
  obtain ⟨s, hs⟩ := Option.isSome_iff_exists.1 hs
  unfold lu luForward
  rw [luPrefix_eps d eps m n _ _ s hle hs]
  rfl

/-! ### Pivots of well-conditioned matrices -/

/-- The evolution of `A` and `p` does not depend on the right-hand sides. -/
theorem luStep_indep (eps : K) (m n n' : Nat) (s s1 : St K) (B' : Nat → Nat → K) (i : Nat) (h : luStep eps m n s i = some s1) :
    ∃ s2, luStep eps m n' ⟨s.A, B', s.p⟩ i = some s2 ∧ s2.A = s1.A ∧ s2.p = s1.p := by
  unfold luStep at h ⊢
  dsimp only at h ⊢
  split at h
  · exact absurd h (by simp)
  rename_i hp
  rw [if_neg hp]
  injection h with h
  subst h
  refine ⟨_, rfl, ?_⟩
  split <;> exact ⟨rfl, rfl⟩

theorem luPrefix_indep (eps : K) (m n n' : Nat) (l : List Nat) (s s1 : St K) (B' : Nat → Nat → K) (h : l.foldlM (luStep eps m n) s = some s1) :
    ∃ s2, l.foldlM (luStep eps m n') ⟨s.A, B', s.p⟩ = some s2 ∧ s2.A = s1.A ∧ s2.p = s1.p := by
  induction l generalizing s B' with
  | nil =>
    simp only [List.foldlM_nil] at h ⊢
    injection h with h; subst h
    exact ⟨_, rfl, rfl, rfl⟩
  | cons i l ih =>
    rw [List.foldlM_cons] at h ⊢
    cases h1 : luStep eps m n s i with
    | none => rw [h1] at h; exact absurd h (by simp)
    | some t =>
      rw [h1] at h
      obtain ⟨t2, e1, e2, e3⟩ := luStep_indep eps m n n' s t B' i h1
      obtain ⟨u, f1, f2, f3⟩ := ih t t2.B h
      rw [e1]
      refine ⟨u, ?_, f2, f3⟩
      simp only [Option.bind_eq_bind, Option.bind_some]
      rw [← f1, ← e2, ← e3]

/-- If the right-hand side is zero in the processed rows, then it is a rearrangement of the original one. -/
theorem luStep_sumsq (eps : K) (m n : Nat) (s s' : St K) (i : Nat) (hi : i < m) (h : luStep eps m n s i = some s') (j : Nat) (hj : j < n)
    (h0 : ∀ r, r < i + 1 → s'.B r j = 0) :
    (∀ r, r < i → s.B r j = 0) ∧ ∑ r : Fin m, s.B r j ^ 2 = ∑ r : Fin m, s'.B r j ^ 2 := by
  unfold luStep at h
  dsimp only at h
  obtain ⟨hk1, hk2⟩ := pivotRow_range m s.A i hi
  generalize hk : pivotRow m s.A i = k at *
  split at h
  · exact absurd h (by simp)
  generalize hs1 : (if k ≠ i then (⟨swapRows i m s.A i k, swapRows 0 n s.B i k, -s.p⟩ : St K) else s) = s1 at h
  have hsw : ∀ r, s1.B r j = s.B (Equiv.swap i k r) j := by
    intro r
    by_cases hki : k = i
    · rw [if_neg (by simpa using hki)] at hs1
      subst hs1; subst hki
      simp
    · rw [if_pos hki] at hs1
      subst hs1
      dsimp only
      unfold swapRows
      rw [if_pos ⟨Nat.zero_le _, hj⟩]
      by_cases h1 : r = i
      · subst h1; simp
      · by_cases h2 : r = k
        · subst h2; simp [h1]
        · rw [if_neg h1, if_neg h2, Equiv.swap_apply_of_ne_of_ne h1 h2]
  injection h with h
  subst h
  dsimp only at h0 ⊢
  have hi0 : s1.B i j = 0 := by
    have := h0 i (by omega)
    unfold elimB at this
    rwa [if_neg (by omega)] at this
  have hall : ∀ r, elimB m n s1.A s1.B i (-1 / s1.A i i) r j = s1.B r j := by
    intro r
    unfold elimB
    split
    · rw [hi0, mul_zero, add_zero]
    · rfl
  constructor
  · intro r hr
    have := h0 r (by omega)
    rw [hall, hsw, Equiv.swap_apply_of_ne_of_ne (by omega) (by omega)] at this
    exact this
  · simp only [hall, hsw]
    let σ : Equiv.Perm (Fin m) := Equiv.swap ⟨i, hi⟩ ⟨k, hk2⟩
    have hσ : ∀ r : Fin m, ((σ r : Fin m) : Nat) = Equiv.swap i k (r : Nat) := by
      intro r
      by_cases h1 : (r : Nat) = i
      · have : r = ⟨i, hi⟩ := Fin.ext h1
        rw [h1, Equiv.swap_apply_left, this]
        simp [σ]
      · by_cases h2 : (r : Nat) = k
        · have : r = ⟨k, hk2⟩ := Fin.ext h2
          rw [h2, Equiv.swap_apply_right, this]
          simp [σ]
        · rw [Equiv.swap_apply_of_ne_of_ne h1 h2]
          simp only [σ]
          rw [Equiv.swap_apply_of_ne_of_ne]
          · exact fun h => h1 (by rw [h])
          · exact fun h => h2 (by rw [h])
    rw [← Equiv.sum_comp σ fun r : Fin m => s.B r j ^ 2]
    simp only [hσ]

theorem luPrefix_sumsq (eps : K) (m n : Nat) (A B : Nat → Nat → K) (t : Nat) (ht : t ≤ m) (s : St K)
    (h : (List.range t).foldlM (luStep eps m n) ⟨A, B, 1⟩ = some s) (j : Nat) (hj : j < n) (h0 : ∀ r, r < t → s.B r j = 0) :
    ∑ r : Fin m, B r j ^ 2 = ∑ r : Fin m, s.B r j ^ 2 := by
  induction t generalizing s with
  | zero =>
    simp only [List.range_zero, List.foldlM_nil] at h
    injection h with h
    subst h
    rfl
  | succ t ih =>
    rw [List.range_succ, List.foldlM_append] at h
    cases h1 : (List.range t).foldlM (luStep eps m n) ⟨A, B, 1⟩ with
    | none => rw [h1] at h; exact absurd h (by simp)
    | some s1 =>
      rw [h1] at h
      simp only [Option.bind_eq_bind, Option.bind_some, List.foldlM_cons, List.foldlM_nil] at h
      cases h2 : luStep eps m n s1 t with
      | none => rw [h2] at h; exact absurd h (by simp)
      | some s2 =>
        rw [h2] at h
        simp only [Option.bind_some] at h
        injection h with h
        subst h
        obtain ⟨a, b⟩ := luStep_sumsq eps m n s1 s2 t (by omega) h2 j hj h0
        rw [ih (by omega) s1 h1 a, b]

/-- The triangular part can be solved within its columns. -/
theorem tri_solve (m : Nat) (U : Nat → Nat → K) (k : Nat) (hk : k ≤ m) (htri : ∀ r c, r < k → c < r → U r c = 0) (hd : ∀ r, r < k → U r r ≠ 0)
    (u : Nat → K) : ∃ w : Nat → K, (∀ c, k ≤ c → w c = 0) ∧ ∀ r, r < k → ∑ c : Fin m, U r c * w c = u r := by
  induction k generalizing u with
  | zero => exact ⟨fun _ => 0, fun _ _ => rfl, fun r hr => absurd hr (by omega)⟩
  | succ k ih =>
    obtain ⟨w, h1, h2⟩ := ih (by omega) (fun r c hr hc => htri r c (by omega) hc) (fun r hr => hd r (by omega))
      fun r => u r - U r k * (u k / U k k)
    refine ⟨fun c => if c = k then u k / U k k else w c, fun c hc => ?_, fun r hr => ?_⟩
    · dsimp only
      rw [if_neg (by omega)]
      exact h1 c (by omega)
    · have hkm : k < m := by omega
      have hsplit : ∑ c : Fin m, U r c * (if (c : Nat) = k then u k / U k k else w c) = ∑ c : Fin m, U r c * w c + U r k * (u k / U k k) := by
        have e : ∀ c : Fin m, U r c * (if (c : Nat) = k then u k / U k k else w c) = U r c * w c + if c = ⟨k, hkm⟩ then U r k * (u k / U k k) else 0 := by
          intro c
          by_cases hc : (c : Nat) = k
          · rw [if_pos hc, if_pos (Fin.ext hc), hc, h1 k le_rfl, mul_zero, zero_add]
          · rw [if_neg hc, if_neg (fun h => hc (by rw [h])), add_zero]
        rw [Finset.sum_congr rfl fun c _ => e c, Finset.sum_add_distrib, Finset.sum_ite_eq' Finset.univ, if_pos (Finset.mem_univ _)]
      dsimp only
      rw [hsplit]
      rcases Nat.lt_succ_iff_lt_or_eq.1 hr with hr | rfl
      · rw [h2 r hr]; ring
      · have hz : ∑ c : Fin m, U r c * w c = 0 := by
          apply Finset.sum_eq_zero
          intro c _
          by_cases hc : (c : Nat) < r
          · rw [htri r c (by omega) hc, zero_mul]
          · rw [h1 c (by omega), mul_zero]
        rw [hz, zero_add, mul_div_assoc', mul_div_cancel_left₀ _ (hd r (by omega))]

/-- If `A` does not shrink vectors by more than `sqrt m * eps`, all pivots are accepted. -/
theorem luForward_conditioned (eps : K) (heps : 0 < eps) (m n : Nat) (A B : Nat → Nat → K)
    (hA : ∀ x : Nat → K, (m : K) * eps ^ 2 * ∑ c : Fin m, x c ^ 2 ≤ ∑ r : Fin m, (∑ c : Fin m, A r c * x c) ^ 2) (t : Nat) (ht : t ≤ m) :
    ((List.range t).foldlM (luStep eps m n) ⟨A, B, 1⟩).isSome = true := by
  induction t with
  | zero => simp
  | succ t ih =>
    obtain ⟨s, hs⟩ := Option.isSome_iff_exists.1 (ih (by omega))
    have hm : (0 : K) < m := by
      have : 0 < m := by omega
      exact_mod_cast this
    have hdet : (toM m A).det ≠ 0 := by
      intro h
      obtain ⟨v, hv, hz⟩ := Matrix.exists_mulVec_eq_zero_iff.2 h
      have h1 := hA fun c => if hc : c < m then v ⟨c, hc⟩ else 0
      have h2 : ∀ r : Fin m, ∑ c : Fin m, A r c * (if hc : (c : Nat) < m then v ⟨c, hc⟩ else 0) = 0 := by
        intro r
        have := congrFun hz r
        simp only [Matrix.mulVec, dotProduct, toM, Pi.zero_apply] at this
        rw [← this]
        apply Finset.sum_congr rfl
        intro c _
        rw [dif_pos c.2]
      simp only [h2] at h1
      simp only [ne_eq, OfNat.ofNat_ne_zero, not_false_eq_true, zero_pow, Finset.sum_const_zero] at h1
      have hs0 : 0 ≤ ∑ c : Fin m, (if hc : (c : Nat) < m then v ⟨c, hc⟩ else 0) ^ 2 := Finset.sum_nonneg fun _ _ => sq_nonneg _
      have hpos : 0 < (m : K) * eps ^ 2 := mul_pos hm (pow_pos heps 2)
      have h3 : ∑ c : Fin m, (if hc : (c : Nat) < m then v ⟨c, hc⟩ else 0) ^ 2 = 0 := by
        apply le_antisymm _ hs0
        by_contra hlt
        have := mul_pos hpos (not_le.1 hlt)
        linarith
      apply hv
      funext c
      have h4 := (Finset.sum_eq_zero_iff_of_nonneg fun _ _ => sq_nonneg _).1 h3 c (Finset.mem_univ c)
      rw [dif_pos c.2] at h4
      exact pow_eq_zero_iff (two_ne_zero) |>.1 h4
    obtain ⟨_, a2, a3, a4⟩ := luForward_spec eps heps m n A B t (by omega) s hs
    have hdetU : (toM m (eff t s.A)).det ≠ 0 := by
      intro h
      rw [h, mul_zero] at a2
      exact hdet a2.symm
    -- a vector that the represented matrix maps to its column `t`, below row `t`
    obtain ⟨w, w1, w2⟩ := tri_solve m (eff t s.A) t (by omega)
      (fun r c hr hc => by unfold eff; rw [if_pos hr, if_pos hc])
      (fun r hr => by unfold eff; rw [if_pos hr, if_neg (lt_irrefl _), if_pos rfl]; exact inv_ne_zero (a3 r hr))
      (fun r => eff t s.A r t)
    let x : Nat → K := fun c => (if c = t then 1 else 0) - w c
    have hx : ∀ r, r < m → ∑ c : Fin m, eff t s.A r c * x c = if r < t then 0 else s.A r t := by
      intro r hr
      have e : ∀ c : Fin m, eff t s.A r c * x c = (if c = ⟨t, by omega⟩ then eff t s.A r t else 0) - eff t s.A r c * w c := by
        intro c
        simp only [x]
        by_cases hc : (c : Nat) = t
        · rw [if_pos hc, if_pos (Fin.ext hc), hc]; ring
        · rw [if_neg hc, if_neg (fun h => hc (by rw [h]))]; ring
      rw [Finset.sum_congr rfl fun c _ => e c, Finset.sum_sub_distrib, Finset.sum_ite_eq' Finset.univ, if_pos (Finset.mem_univ _)]
      by_cases hrt : r < t
      · rw [w2 r hrt, if_pos hrt, sub_self]
      · rw [if_neg hrt]
        have hz : ∑ c : Fin m, eff t s.A r c * w c = 0 := by
          apply Finset.sum_eq_zero
          intro c _
          by_cases hc : (c : Nat) < t
          · unfold eff; rw [if_neg hrt, if_pos hc, zero_mul]
          · rw [w1 c (by omega), mul_zero]
        rw [hz, sub_zero]
        unfold eff
        rw [if_neg hrt, if_neg (lt_irrefl _)]
    -- run with the right-hand side `A x`
    obtain ⟨s2, hs2, e1, e2⟩ := luPrefix_indep eps m n 1 (List.range t) ⟨A, B, 1⟩ s (fun r _ => ∑ c : Fin m, A r c * x c) hs
    dsimp only at hs2
    obtain ⟨b1, _, _, _⟩ := luForward_spec eps heps m 1 A (fun r _ => ∑ c : Fin m, A r c * x c) t (by omega) s2 hs2
    have hsol : ∀ r, r < m → ∑ c : Fin m, eff t s.A r c * x c = s2.B r 0 := by
      -- the solution of the transformed system solves the original one, hence is `x`
      have hunit : IsUnit (toM m (eff t s.A)).det := isUnit_iff_ne_zero.2 hdetU
      let y : Fin m → K := (toM m (eff t s.A))⁻¹.mulVec fun r : Fin m => s2.B r 0
      have hy : (toM m (eff t s.A)).mulVec y = fun r : Fin m => s2.B r 0 := by
        simp only [y]
        rw [Matrix.mulVec_mulVec, Matrix.mul_nonsing_inv _ hunit, Matrix.one_mulVec]
      let Y : Nat → K := fun c => if hc : c < m then y ⟨c, hc⟩ else 0
      have hY : ∀ (M : Nat → Nat → K) r, ∑ c : Fin m, M r c * Y c = ∑ c : Fin m, M r c * y c := by
        intro M r
        apply Finset.sum_congr rfl
        intro c _
        simp only [Y]
        rw [dif_pos c.2]
      have h1 : Solves m (eff t s2.A) s2.B 0 Y := by
        intro r hr
        rw [hY, e1]
        have := congrFun hy ⟨r, hr⟩
        simpa [Matrix.mulVec, dotProduct, toM] using this
      have h2 := b1 0 Y (by omega) h1
      have h3 : y = fun c : Fin m => x c := by
        have h4 : (toM m A).mulVec (y - fun c : Fin m => x c) = 0 := by
          funext r
          rw [Matrix.mulVec_sub]
          have := h2 r r.2
          rw [hY] at this
          simp only [Pi.sub_apply, Pi.zero_apply, Matrix.mulVec, dotProduct, toM]
          rw [this, sub_self]
        have := Matrix.eq_zero_of_mulVec_eq_zero hdet h4
        exact sub_eq_zero.1 this
      intro r hr
      have := congrFun hy ⟨r, hr⟩
      rw [h3] at this
      simpa [Matrix.mulVec, dotProduct, toM] using this
    have hB : ∀ r, r < m → s2.B r 0 = if r < t then 0 else s.A r t := fun r hr => by rw [← hsol r hr, hx r hr]
    have hsq := luPrefix_sumsq eps m 1 A (fun r _ => ∑ c : Fin m, A r c * x c) t (by omega) s2 hs2 0 (by omega)
      fun r hr => by rw [hB r (by omega), if_pos hr]
    have hlow := hA x
    rw [hsq] at hlow
    have hone : 1 ≤ ∑ c : Fin m, x c ^ 2 := by
      have : x t ^ 2 ≤ ∑ c : Fin m, x c ^ 2 :=
        Finset.single_le_sum (f := fun c : Fin m => x c ^ 2) (fun _ _ => sq_nonneg _) (Finset.mem_univ (⟨t, by omega⟩ : Fin m))
      have hxt : x t = 1 := by simp [x, w1 t le_rfl]
      rw [hxt] at this
      linarith
    have hup : ∑ r : Fin m, s2.B r 0 ^ 2 ≤ (m : K) * |s.A (pivotRow m s.A t) t| ^ 2 := by
      have : ∀ r ∈ (Finset.univ : Finset (Fin m)), s2.B r 0 ^ 2 ≤ |s.A (pivotRow m s.A t) t| ^ 2 := by
        intro r _
        rw [hB r r.2]
        split
        · rw [zero_pow two_ne_zero]; positivity
        · rename_i hr
          have := pivotRow_largest m s.A t r (by omega) r.2
          rw [← sq_abs]
          exact pow_le_pow_left₀ (abs_nonneg _) this 2
      have h := Finset.sum_le_card_nsmul _ _ _ this
      rw [Finset.card_univ, Fintype.card_fin, nsmul_eq_mul] at h
      exact h
    have hpiv : eps ≤ |s.A (pivotRow m s.A t) t| := by
      have h1 : (m : K) * eps ^ 2 ≤ (m : K) * |s.A (pivotRow m s.A t) t| ^ 2 := by
        have : 0 ≤ (m : K) * eps ^ 2 := by positivity
        nlinarith
      have h2 : eps ^ 2 ≤ |s.A (pivotRow m s.A t) t| ^ 2 := le_of_mul_le_mul_left h1 hm
      exact (pow_le_pow_iff_left₀ heps.le (abs_nonneg _) two_ne_zero).1 h2
    rw [List.range_succ, List.foldlM_append, hs]
    simp only [Option.bind_eq_bind, Option.bind_some, List.foldlM_cons, List.foldlM_nil]
    have : (luStep eps m n s t).isSome = true := by
      unfold luStep
      dsimp only
      rw [if_neg (not_lt.2 hpiv)]
      rfl
    obtain ⟨s', h'⟩ := Option.isSome_iff_exists.1 this
    rw [h']; rfl

theorem lu_conditioned (eps : K) (heps : 0 < eps) (m n : Nat) (A B : Nat → Nat → K)
    (hA : ∀ x : Nat → K, (m : K) * eps ^ 2 * ∑ c : Fin m, x c ^ 2 ≤ ∑ r : Fin m, (∑ c : Fin m, A r c * x c) ^ 2) :
    (lu eps m n A B).isSome = true := by
  unfold lu luForward
  rw [Option.isSome_map]
  exact luForward_conditioned eps heps m n A B hA m le_rfl

/-- Success does not depend on the right-hand sides. -/
theorem lu_indep (eps : K) (m n n' : Nat) (A B B' : Nat → Nat → K) (h : (lu eps m n A B).isSome = true) : (lu eps m n' A B').isSome = true := by
  unfold lu luForward at h ⊢
  rw [Option.isSome_map] at h ⊢
  obtain ⟨s, hs⟩ := Option.isSome_iff_exists.1 h
  obtain ⟨s2, hs2, _⟩ := luPrefix_indep eps m n n' _ _ s B' hs
  dsimp only at hs2
  rw [hs2]
  rfl

end Litiv.LU
