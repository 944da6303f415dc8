import Verif.Spec.Canny
import Mathlib.Tactic.Linarith
import Mathlib.Tactic.NormNum
import Mathlib.Tactic.Positivity
import Mathlib.Tactic.FieldSimp
import Mathlib.Tactic.Ring

/-!
# Lemmas on the Canny detector
-/

namespace Litiv.Canny

theorem kernelSize_val {sigma : ℚ} (h : 0 < sigma) : kernelSize sigma = 4 * ⌈sigma⌉ - 1 ∧ 1 ≤ ⌈sigma⌉ := by
  have h1 : 1 ≤ ⌈sigma⌉ := Int.one_le_ceil_iff.2 h
  refine ⟨?_, h1⟩
  rw [kernelSize, Int.tdiv_eq_ediv_of_nonneg (by omega)]
  omega

theorem gaussian_some (lib : Lib) {sigma : ℚ} (h : 0 < sigma) (img : Img) :
    gaussian lib (kernelSize sigma) sigma img = some (lib.blur (kernelSize sigma) sigma img) := by
  obtain ⟨h1, h2⟩ := kernelSize_val h
  rw [gaussian, if_pos]
  rw [h1]
  constructor <;> omega

/-- The image edges are searched in. -/
def smooth (lib : Lib) (d : Detector) (img : Img) : Img :=
  if d.sigma > 0 then lib.blur (kernelSize d.sigma) d.sigma img else img

theorem applyThreshold_val (lib : Lib) (d : Detector) {img : Img} (hi : img ≠ []) (t : ℚ) :
    applyThreshold lib d img t = some ((List.range img.length).map fun p =>
      if lib.edges (smooth lib d img) ((if t < 0 then 100 else t) * d.factor) (if t < 0 then 100 else t) p then 255 else 0) := by
  have he : img.isEmpty = false := by simpa using hi
  rw [applyThreshold, he]
  simp only [Bool.false_eq_true, if_false]
  unfold smooth
  by_cases hs : d.sigma > 0
  · simp only [if_pos hs]
    rw [gaussian_some lib hs]; rfl
  · simp only [if_neg hs]; rfl

theorem cvRound_near (q : ℚ) : (cvRound q : ℚ) - 1 / 2 ≤ q ∧ q ≤ cvRound q + 1 / 2 := by
  have h1 := Int.floor_le q
  have h2 := Int.lt_floor_add_one q
  unfold cvRound
  dsimp only
  split
  · constructor <;> linarith
  · split
    · push_cast; constructor <;> linarith
    · split
      · constructor <;> linarith
      · push_cast; constructor <;> linarith

theorem cvRound_int (z : Int) : cvRound (z : ℚ) = z := by
  unfold cvRound
  simp

theorem cvRound_mono {a b : ℚ} (h : a ≤ b) : cvRound a ≤ cvRound b := by
  by_contra hc
  have hc : cvRound b + 1 ≤ cvRound a := by omega
  have hc' : (cvRound b : ℚ) + 1 ≤ cvRound a := by exact_mod_cast hc
  have h1 := cvRound_near a
  have h2 := cvRound_near b
  have e : a = b := by linarith
  rw [e] at hc; omega

theorem addMask_val {acc : Nat} (h : acc < 255) (b : Bool) : addMask acc (if b then 255 else 0) = acc + b.toNat := by
  have h0 : cvRound (((0 : Nat) : ℚ) / 255) = 0 := by have := cvRound_int 0; simpa using this
  have h1 : cvRound (((255 : Nat) : ℚ) / 255) = 1 := by
    have := cvRound_int 1
    rw [← this]; congr 1; norm_num
  cases b
  · simp only [addMask, Bool.false_eq_true, if_false, h0]; simp [saturate]; omega
  · simp only [addMask, if_true, h1]; simp [saturate]; omega

/-- For how many of the first `k` thresholds the pixel is an edge. -/
def cnt (e : Nat → Bool) (k : Nat) : Nat := ((List.range k).filter e).length

theorem cnt_succ (e : Nat → Bool) (k : Nat) : cnt e (k + 1) = cnt e k + (e k).toNat := by
  unfold cnt
  rw [List.range_succ, List.filter_append, List.length_append]
  cases h : e k <;> simp [h]

theorem cnt_le (e : Nat → Bool) (k : Nat) : cnt e k ≤ k := by
  have := List.length_filter_le e (List.range k)
  simpa [cnt] using this

/-- Whether the pixel is an edge for the threshold. -/
def isEdge (lib : Lib) (d : Detector) (img : Img) (p t : Nat) : Bool :=
  lib.edges (smooth lib d img) ((t : ℚ) * d.factor) (t : ℚ) p

theorem applyThreshold_nat (lib : Lib) (d : Detector) {img : Img} (hi : img ≠ []) (t : Nat) :
    applyThreshold lib d img (t : ℚ) =
      some ((List.range img.length).map fun p => if isEdge lib d img p t then 255 else 0) := by
  have : ¬ ((t : ℚ) < 0) := by have : (0 : ℚ) ≤ t := Nat.cast_nonneg t; linarith
  rw [applyThreshold_val lib d hi]
  simp only [if_neg this]
  rfl

theorem accumulate_val (lib : Lib) (d : Detector) {img : Img} (hi : img ≠ []) :
    accumulate lib d img = some ((List.range img.length).map fun p => cnt (isEdge lib d img p) 255) := by
  have key : ∀ k ≤ 255, (List.range k).foldl (fun acc t =>
      acc.bind fun a => (applyThreshold lib d img (t : ℚ)).map fun m => List.zipWith addMask a m)
      (some (List.replicate img.length 0)) = some ((List.range img.length).map fun p => cnt (isEdge lib d img p) k) := by
    intro k
    induction k with
    | zero =>
      intro _
      simp only [List.range_zero, List.foldl_nil]
      congr 1
      apply List.ext_getElem <;> simp [cnt]
    | succ k ih =>
      intro hk
      rw [List.range_succ, List.foldl_append, ih (by omega)]
      simp only [List.foldl_cons, List.foldl_nil, Option.bind_some]
      rw [applyThreshold_nat lib d hi, Option.map_some]
      congr 1
      apply List.ext_getElem
      · simp
      · intro n h1 h2
        simp only [List.getElem_zipWith, List.getElem_map, List.getElem_range]
        rw [addMask_val (by have := cnt_le (isEdge lib d img n) k; omega), cnt_succ]
  have h := key 255 (Nat.le_refl _)
  unfold accumulate
  generalize 255 = k at h ⊢
  exact h

theorem edgeAt_iff (lib : Lib) (d : Detector) {img : Img} {p : Nat} (hp : p < img.length) (t : Nat) :
    EdgeAt lib d img t p ↔ isEdge lib d img p t = true := by
  have hi : img ≠ [] := by rintro rfl; simp at hp
  unfold EdgeAt
  rw [applyThreshold_nat lib d hi]
  constructor
  · rintro ⟨m, hm, h⟩
    cases hm
    rw [List.getElem?_map, List.getElem?_range hp, Option.map_some] at h
    by_contra hc
    simp [hc] at h
  · intro h
    refine ⟨_, rfl, ?_⟩
    rw [List.getElem?_map, List.getElem?_range hp, Option.map_some, h]; rfl

theorem strength_iff (lib : Lib) (d : Detector) {img : Img} {p : Nat} (hp : p < img.length) (n : Nat) :
    Strength lib d img p n ↔ n = cnt (isEdge lib d img p) 255 := by
  have base : ((List.range 255).filter (isEdge lib d img p)).Nodup := List.Nodup.filter _ List.nodup_range
  have mem : ∀ t, t ∈ (List.range 255).filter (isEdge lib d img p) ↔ t < 255 ∧ EdgeAt lib d img t p := by
    intro t; rw [edgeAt_iff lib d hp]; simp
  constructor
  · rintro ⟨s, h1, rfl, h2⟩
    have : s.Perm ((List.range 255).filter (isEdge lib d img p)) :=
      (List.perm_ext_iff_of_nodup h1 base).2 fun t => (h2 t).trans (mem t).symm
    exact this.length_eq
  · rintro rfl
    exact ⟨_, base, rfl, mem⟩

theorem foldl_min_le (l : List Nat) (a : Nat) : l.foldl min a ≤ a ∧ ∀ v ∈ l, l.foldl min a ≤ v := by
  induction l generalizing a with
  | nil => simp
  | cons b l ih =>
    obtain ⟨h1, h2⟩ := ih (min a b)
    refine ⟨by simp only [List.foldl_cons]; omega, ?_⟩
    intro v hv
    rcases List.mem_cons.1 hv with rfl | hv
    · simp only [List.foldl_cons]; omega
    · exact h2 v hv

theorem foldl_min_mem (l : List Nat) (a : Nat) : l.foldl min a = a ∨ l.foldl min a ∈ l := by
  induction l generalizing a with
  | nil => simp
  | cons b l ih =>
    simp only [List.foldl_cons]
    rcases ih (min a b) with h | h
    · rw [h]
      rcases Nat.le_total a b with h' | h'
      · left; omega
      · right; rw [Nat.min_eq_right h']; simp
    · right; exact List.mem_cons_of_mem _ h

theorem foldl_max_le (l : List Nat) (a : Nat) : a ≤ l.foldl max a ∧ ∀ v ∈ l, v ≤ l.foldl max a := by
  induction l generalizing a with
  | nil => simp
  | cons b l ih =>
    obtain ⟨h1, h2⟩ := ih (max a b)
    refine ⟨by simp only [List.foldl_cons]; omega, ?_⟩
    intro v hv
    rcases List.mem_cons.1 hv with rfl | hv
    · simp only [List.foldl_cons]; omega
    · exact h2 v hv

theorem foldl_max_mem (l : List Nat) (a : Nat) : l.foldl max a = a ∨ l.foldl max a ∈ l := by
  induction l generalizing a with
  | nil => simp
  | cons b l ih =>
    simp only [List.foldl_cons]
    rcases ih (max a b) with h | h
    · rw [h]
      rcases Nat.le_total a b with h' | h'
      · right; rw [Nat.max_eq_right h']; simp
      · left; omega
    · right; exact List.mem_cons_of_mem _ h

/-- A rescaled value. -/
def scaled (lo hi v : Nat) : Nat :=
  let scale : ℚ := if hi - lo > 0 then 255 / ((hi : ℚ) - lo) else 0
  saturate (cvRound (v * scale + (0 - lo * scale)))

theorem normalize_val {img : Img} (hne : img ≠ []) : ∃ lo hi, lo ∈ img ∧ hi ∈ img ∧ (∀ v ∈ img, lo ≤ v ∧ v ≤ hi) ∧
    normalize img = img.map (scaled lo hi) := by
  refine ⟨img.foldl min (img.headD 0), img.foldl max 0, ?_, ?_, ?_, by unfold normalize scaled; rfl⟩
  · rcases foldl_min_mem img (img.headD 0) with h | h
    · rw [h]; cases img with
      | nil => exact absurd rfl hne
      | cons a l => simp
    · exact h
  · rcases foldl_max_mem img 0 with h | h
    · have := (foldl_max_le img 0).2
      cases img with
      | nil => exact absurd rfl hne
      | cons a l =>
        have ha := this a (by simp)
        have : a = List.foldl max 0 (a :: l) := by omega
        rw [← this]; simp
    · exact h
  · exact fun v hv => ⟨(foldl_min_le _ _).2 v hv, (foldl_max_le _ _).2 v hv⟩

theorem scaled_same {lo v : Nat} : scaled lo lo v = 0 := by
  have : cvRound 0 = 0 := by have := cvRound_int 0; simpa using this
  unfold scaled
  simp [this, saturate]

theorem scaled_arg {lo hi v : Nat} (h : lo < hi) :
    scaled lo hi v = saturate (cvRound (255 * ((v : ℚ) - lo) / ((hi : ℚ) - lo))) := by
  have : hi - lo > 0 := by omega
  unfold scaled
  simp only [if_pos this]
  congr 2
  ring

theorem scaled_facts {lo hi v w : Nat} (h : lo < hi) (h255 : hi - lo ≤ 255) (hv : lo ≤ v) (hw : w ≤ hi) (hvw : v < w) :
    scaled lo hi v < scaled lo hi w := by
  rw [scaled_arg h, scaled_arg h]
  have hd : (0 : ℚ) < (hi : ℚ) - lo := by have : (lo : ℚ) < hi := by exact_mod_cast h
                                          linarith
  set x : ℚ := 255 * ((v : ℚ) - lo) / ((hi : ℚ) - lo)
  set y : ℚ := 255 * ((w : ℚ) - lo) / ((hi : ℚ) - lo)
  have hx0 : 0 ≤ x := by
    apply div_nonneg _ hd.le
    have : (lo : ℚ) ≤ v := by exact_mod_cast hv
    linarith
  have hy : y ≤ 255 := by
    rw [div_le_iff₀ hd]
    have : (w : ℚ) ≤ hi := by exact_mod_cast hw
    linarith
  have hr0 : 0 ≤ cvRound x := by have := cvRound_mono hx0; rwa [show (0 : ℚ) = ((0 : Int) : ℚ) by simp, cvRound_int] at this
  have hr255 : cvRound y ≤ 255 := by
    have := cvRound_mono hy; rwa [show (255 : ℚ) = ((255 : Int) : ℚ) by simp, cvRound_int] at this
  have hlt : cvRound x < cvRound y := by
    by_cases he : hi - lo = 255
    · have he' : (hi : ℚ) - lo = 255 := by
        have : hi = lo + 255 := by omega
        rw [this]; push_cast; ring
      have ex : x = (((v : Int) - lo : Int) : ℚ) := by
        simp only [x, he']; push_cast; field_simp
      have ey : y = (((w : Int) - lo : Int) : ℚ) := by
        simp only [y, he']; push_cast; field_simp
      rw [ex, ey, cvRound_int, cvRound_int]; omega
    · have hlt : (hi : ℚ) - lo < 255 := by
        have : hi < lo + 255 := by omega
        have : (hi : ℚ) < lo + 255 := by exact_mod_cast this
        linarith
      have hd1 : x + 1 < y := by
        have : y - x = 255 * ((w : ℚ) - v) / ((hi : ℚ) - lo) := by simp only [x, y]; field_simp; ring
        have h1 : (1 : ℚ) < 255 * ((w : ℚ) - v) / ((hi : ℚ) - lo) := by
          rw [lt_div_iff₀ hd]
          have : (v : ℚ) + 1 ≤ w := by exact_mod_cast hvw
          linarith
        linarith
      have a := (cvRound_near x).1
      have b := (cvRound_near y).2
      have : (cvRound x : ℚ) < cvRound y := by linarith
      exact_mod_cast this
  unfold saturate; omega

theorem scaled_ends {lo hi : Nat} (h : lo < hi) : scaled lo hi lo = 0 ∧ scaled lo hi hi = 255 := by
  have hd : (hi : ℚ) - lo ≠ 0 := by have : (lo : ℚ) < hi := by exact_mod_cast h
                                    intro hc; linarith
  rw [scaled_arg h, scaled_arg h]
  constructor
  · rw [sub_self, mul_zero, zero_div, show (0 : ℚ) = ((0 : Int) : ℚ) by simp, cvRound_int]; rfl
  · rw [mul_div_assoc, div_self hd, mul_one, show (255 : ℚ) = ((255 : Int) : ℚ) by simp, cvRound_int]; rfl

theorem apply_val (lib : Lib) (d : Detector) {img : Img} (hi : img ≠ []) :
    apply lib d img false = some (normalize ((List.range img.length).map fun p => cnt (isEdge lib d img p) 255)) := by
  have he : img.isEmpty = false := by simpa using hi
  rw [apply, he]
  simp only [Bool.false_eq_true, if_false]
  rw [accumulate_val lib d hi, Option.map_some]

end Litiv.Canny
