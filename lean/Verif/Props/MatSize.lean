import Verif.Model.MatSize
import Mathlib.Algebra.BigOperators.Group.List.Basic
import Mathlib.Algebra.BigOperators.Ring.List
import Mathlib.Data.Int.ModEq
import Mathlib.Tactic.Ring
import Mathlib.Tactic.Linarith

/-!
# C85: matrix sizes
-/

namespace Litiv.MatSize

/-- the value can be represented -/
def Ty.Fits (t : Ty) (x : Int) : Prop := t.cast x = x

/-- a shape without elements -/
def NoElems (xs : List Int) : Prop := xs = [] ∨ (0 : Int) ∈ xs

theorem cast_size (x : Int) (h0 : 0 ≤ x) (h1 : x < 2 ^ 64) : tSize.cast x = x := by
  unfold Ty.cast tSize
  simp only [Bool.false_eq_true, if_false]
  exact Int.emod_eq_of_lt h0 h1

theorem total_mod (xs : List Int) (hne : xs ≠ []) : total xs = xs.prod % 2 ^ 64 := by
  have key : ∀ (ys : List Int) (n : Int), ys.foldl (fun n y => tSize.cast (n * tSize.cast y)) (n % 2 ^ 64) =
      (n * ys.prod) % 2 ^ 64 := by
    intro ys
    induction ys with
    | nil => intro n; simp
    | cons y ys ih =>
      intro n
      rw [List.foldl_cons]
      have : tSize.cast (n % 2 ^ 64 * tSize.cast y) = (n * y) % 2 ^ 64 := by
        unfold Ty.cast tSize
        simp only [Bool.false_eq_true, if_false]
        rw [← Int.mul_emod]
      rw [this, ih, List.prod_cons]
      congr 1
      ring
  cases xs with
  | nil => exact absurd rfl hne
  | cons x xs =>
    rw [total, List.prod_cons]
    exact key xs x

theorem prod_nonneg' (xs : List Int) (h : ∀ x ∈ xs, 0 ≤ x) : 0 ≤ xs.prod := by
  induction xs with
  | nil => simp
  | cons x xs ih =>
    rw [List.prod_cons]
    exact mul_nonneg (h x (by simp)) (ih (fun y hy => h y (by simp [hy])))

/-- C85: the element count is the product of the sizes (zero without dimensions), as long as it
fits into 64 bits. -/
theorem total_partial (xs : List Int) (h0 : ∀ x ∈ xs, 0 ≤ x) (hb : xs.prod < 2 ^ 64) :
    total xs = (if xs = [] then 0 else xs.prod) := by
  by_cases h : xs = []
  · rw [if_pos h, h]; rfl
  · rw [if_neg h, total_mod xs h, Int.emod_eq_of_lt (prod_nonneg' xs h0) hb]

theorem empty_iff (xs : List Int) (h0 : ∀ x ∈ xs, 0 ≤ x) (hb : xs.prod < 2 ^ 64) :
    empty xs = true ↔ NoElems xs := by
  unfold empty NoElems
  rw [decide_eq_true_eq, total_partial xs h0 hb]
  by_cases h : xs = []
  · simp [h]
  · rw [if_neg h, List.prod_eq_zero_iff]
    simp [h]

theorem all_zip_eq (t : Ty) : ∀ xs ys : List Int, xs.length = ys.length → (∀ y ∈ ys, t.Fits y) →
    ((xs.zip ys).all (fun p => decide (p.1 = t.cast p.2)) = true ↔ xs = ys) := by
  intro xs
  induction xs with
  | nil => intro ys h _; cases ys with
    | nil => simp
    | cons => simp at h
  | cons x xs ih =>
    intro ys h hf
    cases ys with
    | nil => simp at h
    | cons y ys =>
      rw [List.zip_cons_cons, List.all_cons, Bool.and_eq_true, ih ys (by simpa using h)
        (fun z hz => hf z (by simp [hz])), decide_eq_true_eq, show t.cast y = y from hf y (by simp)]
      simp

/-- C85: two sizes are equal exactly if they list the same dimensions or both describe matrices
without elements (element counts below 2^64, right-hand side representable in the type of the
left-hand side). -/
theorem equal_partial (t : Ty) (xs ys : List Int) (hx : ∀ x ∈ xs, 0 ≤ x) (hy : ∀ y ∈ ys, 0 ≤ y)
    (bx : xs.prod < 2 ^ 64) (bw : ys.prod < 2 ^ 64) (hf : ∀ y ∈ ys, t.Fits y) :
    equal t xs ys = true ↔ xs = ys ∨ (NoElems xs ∧ NoElems ys) := by
  unfold equal
  by_cases h1 : (empty xs && empty ys) = true
  · rw [if_pos h1]
    rw [Bool.and_eq_true, empty_iff xs hx bx, empty_iff ys hy bw] at h1
    simp [h1]
  · rw [if_neg h1]
    rw [Bool.and_eq_true, empty_iff xs hx bx, empty_iff ys hy bw] at h1
    by_cases h2 : xs.length ≠ ys.length
    · rw [if_pos h2]
      constructor
      · intro h; cases h
      · rintro (h | h)
        · exact absurd (by rw [h]) h2
        · exact absurd h h1
    · rw [if_neg h2]
      push Not at h2
      rw [all_zip_eq t xs ys h2 hf]
      constructor
      · exact Or.inl
      · rintro (h | h)
        · exact h
        · exact absurd h h1

/-- C85: within one integer type, equality of sizes is an equivalence relation (element counts below
2^64). -/
theorem equal_equivalence_partial (t : Ty) :
    let Ok : List Int → Prop := fun xs => (∀ x ∈ xs, 0 ≤ x ∧ t.Fits x) ∧ xs.prod < 2 ^ 64
    (∀ xs, Ok xs → equal t xs xs = true) ∧
    (∀ xs ys, Ok xs → Ok ys → equal t xs ys = equal t ys xs) ∧
    (∀ xs ys zs, Ok xs → Ok ys → Ok zs → equal t xs ys = true → equal t ys zs = true →
      equal t xs zs = true) := by
  intro Ok
  have e : ∀ xs ys, Ok xs → Ok ys → (equal t xs ys = true ↔ xs = ys ∨ (NoElems xs ∧ NoElems ys)) :=
    fun xs ys hx hy => equal_partial t xs ys (fun x h => (hx.1 x h).1) (fun y h => (hy.1 y h).1) hx.2 hy.2
      (fun y h => (hy.1 y h).2)
  refine ⟨?_, ?_, ?_⟩
  · intro xs hx
    rw [e xs xs hx hx]
    exact Or.inl rfl
  · intro xs ys hx hy
    rw [Bool.eq_iff_iff, e xs ys hx hy, e ys xs hy hx]
    constructor
    · rintro (h | h)
      · exact Or.inl h.symm
      · exact Or.inr h.symm
    · rintro (h | h)
      · exact Or.inl h.symm
      · exact Or.inr h.symm
  · intro xs ys zs hx hy hz h1 h2
    rw [e xs ys hx hy] at h1
    rw [e ys zs hy hz] at h2
    rw [e xs zs hx hz]
    rcases h1 with h1 | h1
    · subst h1; exact h2
    · rcases h2 with h2 | h2
      · subst h2; exact Or.inr h1
      · exact Or.inr ⟨h1.1, h2.2⟩

/-- non-vacuity: an image size -/
example : (∀ x ∈ [480, 640], 0 ≤ x ∧ tSize.Fits x) ∧ [(480 : Int), 640].prod < 2 ^ 64 ∧
    equal tSize [480, 640] [640, 480] = false ∧ equal tSize [0, 640] [] = true := by
  refine ⟨?_, by decide +kernel, by decide +kernel, by decide +kernel⟩
  intro x hx
  simp only [List.mem_cons, List.not_mem_nil, or_false] at hx
  rcases hx with rfl | rfl
  · exact ⟨by norm_num, by unfold Ty.Fits; decide +kernel⟩
  · exact ⟨by norm_num, by unfold Ty.Fits; decide +kernel⟩

/-- C85 refuted: the element count wraps around, so that a four-dimensional size with 2^16 elements per
dimension counts as empty and equals the size without dimensions; and comparisons between different
integer types are not symmetric. -/
theorem equal_refuted :
    total [65536, 65536, 65536, 65536] = 0 ∧ equal tSize [65536, 65536, 65536, 65536] [] = true ∧
    equal ⟨8, false⟩ [5] [261] = true ∧ equal tInt [261] [5] = false := by decide +kernel

/-- C85: sizes convert to another integer type exactly if every size is nonnegative as an `int`, and keep
their values if the target type can represent them. -/
theorem cvtSizes_spec (t : Ty) (xs : List Int) (hf : ∀ x ∈ xs, t.Fits x) :
    cvtSizes t xs = (if ∀ x ∈ xs, 0 ≤ tInt.cast x then some xs else none) := by
  induction xs with
  | nil => rfl
  | cons x xs ih =>
    have ih := ih (fun y hy => hf y (by simp [hy]))
    unfold cvtSizes at ih ⊢
    rw [List.mapM_cons, ih, show t.cast x = x from hf x (by simp)]
    by_cases h : 0 ≤ tInt.cast x
    · by_cases h' : ∀ y ∈ xs, 0 ≤ tInt.cast y
      · have h2 : ∀ y ∈ x :: xs, 0 ≤ tInt.cast y := by
          intro y hy
          rcases List.mem_cons.mp hy with rfl | hy
          · exact h
          · exact h' y hy
        rw [if_pos h', if_pos h2, if_pos h]
        rfl
      · rw [if_neg h']
        have : ¬ ∀ y ∈ x :: xs, 0 ≤ tInt.cast y := fun hc => h' (fun y hy => hc y (by simp [hy]))
        rw [if_neg this]
        simp [h]
    · have : ¬ ∀ y ∈ x :: xs, 0 ≤ tInt.cast y := fun hc => h (hc x (by simp))
      rw [if_neg this, if_neg h]
      rfl

/-- C85: an image size survives the conversion from and to `cv::Size`, is accepted exactly if it is not negative,
and compares equal to itself only. -/
theorem size_roundtrip (t : Ty) (w h : Int) (hw : t.Fits w ∧ tInt.Fits w) (hh : t.Fits h ∧ tInt.Fits h) :
    fromSize t w h = (if 0 ≤ w ∧ 0 ≤ h then some [h, w] else none) ∧
    toSize [h, w] = some (w, h) ∧
    ∀ w' h', equalSize [h, w] w' h' = true ↔ w' = w ∧ h' = h := by
  refine ⟨?_, ?_, ?_⟩
  · unfold fromSize
    rw [show t.cast h = h from hh.1, show t.cast w = w from hw.1]
  · simp only [toSize]
    rw [show tInt.cast h = h from hh.2, show tInt.cast w = w from hw.2]
  · intro w' h'
    have e : toSize [h, w] = some (w, h) := by
      show some (tInt.cast w, tInt.cast h) = _
      rw [show tInt.cast h = h from hh.2, show tInt.cast w = w from hw.2]
    unfold equalSize
    rw [Bool.and_eq_true, decide_eq_true_eq, decide_eq_true_eq, e]
    simp only [List.length_cons, List.length_nil, Nat.zero_add, Nat.reduceAdd, le_refl,
      true_and, Option.some.injEq, Prod.mk.injEq]
    constructor
    · rintro ⟨a, b⟩; exact ⟨a.symm, b.symm⟩
    · rintro ⟨a, b⟩; exact ⟨a.symm, b.symm⟩

/-- non-vacuity -/
example : fromSize tSize 640 480 = some [480, 640] ∧ toSize [480, 640] = some (640, 480) ∧
    fromSize tSize 640 (-1) = none := by decide +kernel

/-- C85: transposing twice gives the size back; only two-dimensional sizes can be transposed. -/
theorem transpose_twice (t : Ty) (xs : List Int) (hf : ∀ x ∈ xs, t.Fits x) :
    (transpose t xs).isSome = decide (xs.length = 2) ∧
    ∀ ys, transpose t xs = some ys → ys = xs.reverse ∧ transpose t ys = some xs := by
  match xs, hf with
  | [], _ => simp [transpose]
  | [a], _ => simp [transpose]
  | [a, b], hf =>
    have fa : t.cast a = a := hf a (by simp)
    have fb : t.cast b = b := hf b (by simp)
    simp only [transpose, fa, fb]
    refine ⟨rfl, ?_⟩
    intro ys h
    injection h with h
    subst h
    exact ⟨rfl, by simp only [transpose, fa, fb]⟩
  | a :: b :: c :: xs, _ => simp [transpose]

/-- C85: a size equals an OpenCV size array exactly if it lists the same dimensions. -/
theorem equalMatSize_spec (t : Ty) (xs ys : List Int) (hf : ∀ y ∈ ys, t.Fits y) :
    equalMatSize t xs ys = true ↔ xs = ys := by
  unfold equalMatSize
  rw [Bool.and_eq_true, decide_eq_true_eq]
  constructor
  · rintro ⟨h, h'⟩
    exact (all_zip_eq t xs ys h hf).mp h'
  · intro h
    subst h
    exact ⟨rfl, (all_zip_eq t xs xs rfl hf).mpr rfl⟩

end Litiv.MatSize
