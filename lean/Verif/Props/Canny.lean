import Verif.Lemmas.Canny

/-!
# Canny edge detector
-/

namespace Litiv.Canny

/-- **Smoothing.** Detectors can be made exactly with a factor between 0 and 1 and a nonnegative sigma; the kernel then has
an odd size, `4⌈σ⌉ - 1`, which smoothing accepts. -/
theorem smoothing (factor sigma : ℚ) :
    ((construct factor sigma).isSome ↔ 0 < factor ∧ factor < 1 ∧ 0 ≤ sigma) ∧
    (∀ d, construct factor sigma = some d → d.factor = factor ∧ d.sigma = sigma) ∧
    (0 < sigma → kernelSize sigma = 4 * ⌈sigma⌉ - 1 ∧ kernelSize sigma % 2 = 1 ∧ 3 ≤ kernelSize sigma ∧
      ∀ lib img, gaussian lib (kernelSize sigma) sigma img = some (lib.blur (kernelSize sigma) sigma img)) := by
  refine ⟨?_, ?_, ?_⟩
  · unfold construct
    split
    · split <;> simp_all
    · simp_all
  · intro d hd
    unfold construct at hd
    split at hd
    · split at hd <;> cases hd; exact ⟨rfl, rfl⟩
    · cases hd
  · intro h
    obtain ⟨h1, h2⟩ := kernelSize_val h
    exact ⟨h1, by omega, by omega, fun lib img => gaussian_some lib h img⟩

/-- **Thresholds.** Every non-empty image gets a mask of its size with values 0 and 255: the edges of the smoothed image
for the given threshold and for a smaller one, the fixed part of it; a negative threshold means 100. -/
theorem thresholds (lib : Lib) (d : Detector) (img : Img) (hi : img ≠ []) (t : ℚ) :
    ∃ m, applyThreshold lib d img t = some m ∧ m.length = img.length ∧ ∀ p < img.length,
      m[p]? = some (if lib.edges (if 0 < d.sigma then lib.blur (kernelSize d.sigma) d.sigma img else img)
        (d.factor * if 0 ≤ t then t else 100) (if 0 ≤ t then t else 100) p then 255 else 0) := by
  refine ⟨_, applyThreshold_val lib d hi t, by simp, fun p hp => ?_⟩
  rw [List.getElem?_map, List.getElem?_range hp, Option.map_some]
  by_cases ht : t < 0
  · simp only [if_pos ht, if_neg (show ¬ 0 ≤ t by linarith), mul_comm d.factor]; rfl
  · simp only [if_neg ht, if_pos (show 0 ≤ t by linarith), mul_comm d.factor]; rfl

/-- **Thresholds, as documented.** Between 0 and 1 the threshold is used, and below 0 the default one. -/
theorem default_partial (lib : Lib) (d : Detector) (img : Img) (t : ℚ) (ht : t < 0) :
    applyThreshold lib d img t = applyThreshold lib d img defaultThreshold := by
  unfold applyThreshold
  rw [if_pos ht, if_neg (show ¬ defaultThreshold < 0 by unfold defaultThreshold; norm_num)]

/-- **Refuted.** A threshold above 1 does not stand for the default. -/
theorem default_refuted : ∃ (lib : Lib) (d : Detector), construct d.factor d.sigma = some d ∧
    ∃ (img : Img) (t : ℚ), 1 < t ∧ applyThreshold lib d img t ≠ applyThreshold lib d img defaultThreshold := by
  refine ⟨⟨fun _ _ i => i, fun i _ hi p => decide (hi ≤ (i.getD p 0 : ℚ))⟩, ⟨1 / 2, 0⟩, by decide +kernel, [60], 50, by norm_num,
    by decide +kernel⟩

/-- Strengths are defined, for every pixel. -/
theorem strength_defined (lib : Lib) (d : Detector) (img : Img) (p : Nat) (hp : p < img.length) :
    ∃ n ≤ 255, ∀ m, Strength lib d img p m ↔ m = n :=
  ⟨_, cnt_le _ _, fun m => strength_iff lib d hp m⟩

/-- **Confidence.** The confidence map of an image has its size and values up to 255; it orders pixels exactly as the
number of thresholds for which they are edges, and is 0 where there is no edge. -/
theorem confidence_order (lib : Lib) (d : Detector) (img : Img) (hi : img ≠ []) :
    ∃ out, apply lib d img false = some out ∧ out.length = img.length ∧
      ∀ p < img.length, ∀ q < img.length, ∀ n m, Strength lib d img p n → Strength lib d img q m →
        ∃ a b, out[p]? = some a ∧ out[q]? = some b ∧ (n < m ↔ a < b) ∧ (n = 0 → a = 0) ∧ a ≤ 255 := by
  have hne : ((List.range img.length).map fun p => cnt (isEdge lib d img p) 255) ≠ [] := by
    intro h; have := congrArg List.length h; simp at this; exact hi this
  obtain ⟨lo, hi', hlo, hhi, hb, hn⟩ := normalize_val hne
  refine ⟨_, apply_val lib d hi, by rw [hn]; simp, ?_⟩
  intro p hp q hq n m hsn hsm
  rw [strength_iff lib d hp] at hsn
  rw [strength_iff lib d hq] at hsm
  refine ⟨scaled lo hi' n, scaled lo hi' m, ?_, ?_, ?_⟩
  · rw [hn, List.getElem?_map, List.getElem?_map, List.getElem?_range hp, hsn]; rfl
  · rw [hn, List.getElem?_map, List.getElem?_map, List.getElem?_range hq, hsm]; rfl
  · have bn := hb n (by rw [hsn]; exact List.mem_map.2 ⟨p, List.mem_range.2 hp, rfl⟩)
    have bm := hb m (by rw [hsm]; exact List.mem_map.2 ⟨q, List.mem_range.2 hq, rfl⟩)
    have h255 : hi' ≤ 255 := by
      obtain ⟨r, _, rfl⟩ := List.mem_map.1 hhi
      exact cnt_le _ _
    refine ⟨?_, ?_, by unfold scaled saturate; dsimp only; omega⟩
    · rcases Nat.lt_or_ge lo hi' with hl | hl
      · have key := fun v w h1 h2 h3 => scaled_facts (v := v) (w := w) hl (by omega) h1 h2 h3
        constructor
        · exact key n m bn.1 bm.2
        · intro hlt
          by_contra hc
          rcases Nat.lt_or_ge m n with h | h
          · have := key m n bm.1 bn.2 h; omega
          · have : n = m := by omega
            rw [this] at hlt; omega
      · have : hi' = lo := by omega
        subst this
        rw [scaled_same, scaled_same]
        omega
    · intro h0
      have : lo = n := by omega
      rcases Nat.lt_or_ge lo hi' with hl | hl
      · rw [← this]; exact (scaled_ends hl).1
      · have : hi' = lo := by omega
        subst this; exact scaled_same

/-- **Range.** Unless all pixels are edges for equally many thresholds, in which case the map is zero, the weakest pixels
have confidence 0 and the strongest 255. -/
theorem confidence_range (lib : Lib) (d : Detector) (img : Img) (out : List Nat) (ho : apply lib d img false = some out) :
    ((∀ p < img.length, ∀ q < img.length, ∀ n m, Strength lib d img p n → Strength lib d img q m → n = m) →
      ∀ p < img.length, out[p]? = some 0) ∧
    ∀ p < img.length, ∀ q < img.length, ∀ n m, Strength lib d img p n → Strength lib d img q m → n < m →
      ((∀ r < img.length, ∀ k, Strength lib d img r k → n ≤ k) → out[p]? = some 0) ∧
      ((∀ r < img.length, ∀ k, Strength lib d img r k → k ≤ m) → out[q]? = some 255) := by
  have hi : img ≠ [] := by rintro rfl; simp [apply] at ho
  rw [apply_val lib d hi] at ho
  cases ho
  have hne : ((List.range img.length).map fun p => cnt (isEdge lib d img p) 255) ≠ [] := by
    intro h; have := congrArg List.length h; simp at this; exact hi this
  obtain ⟨lo, hi', hlo, hhi, hb, hn⟩ := normalize_val hne
  have val : ∀ p < img.length, (normalize ((List.range img.length).map fun p => cnt (isEdge lib d img p) 255))[p]? =
      some (scaled lo hi' (cnt (isEdge lib d img p) 255)) := by
    intro p hp
    rw [hn, List.getElem?_map, List.getElem?_map, List.getElem?_range hp]; rfl
  obtain ⟨pl, hpl, el⟩ := List.mem_map.1 hlo
  obtain ⟨ph, hph, eh⟩ := List.mem_map.1 hhi
  rw [List.mem_range] at hpl hph
  constructor
  · intro hs p hp
    have : lo = hi' := hs pl hpl ph hph lo hi' ((strength_iff lib d hpl _).2 el.symm) ((strength_iff lib d hph _).2 eh.symm)
    rw [val p hp, this, scaled_same]
  · intro p hp q hq n m hsn hsm hlt
    rw [strength_iff lib d hp] at hsn
    rw [strength_iff lib d hq] at hsm
    have bn := hb n (by rw [hsn]; exact List.mem_map.2 ⟨p, List.mem_range.2 hp, rfl⟩)
    have bm := hb m (by rw [hsm]; exact List.mem_map.2 ⟨q, List.mem_range.2 hq, rfl⟩)
    have hl : lo < hi' := by omega
    constructor
    · intro hmin
      have := hmin pl hpl lo ((strength_iff lib d hpl _).2 el.symm)
      have e : n = lo := by omega
      rw [val p hp, ← hsn, e, (scaled_ends hl).1]
    · intro hmax
      have := hmax ph hph hi' ((strength_iff lib d hph _).2 eh.symm)
      have e : m = hi' := by omega
      rw [val q hq, ← hsm, e, (scaled_ends hl).2]

/-- **In place.** When the output is the input image, the confidence map is the one of a black image. -/
theorem in_place_partial (lib : Lib) (d : Detector) (img : Img) :
    apply lib d img true = apply lib d (List.replicate img.length 0) false := by
  unfold apply
  rcases img with _ | ⟨a, l⟩
  · rfl
  · simp [List.map_const', List.replicate_succ]

/-- **Refuted.** It is not the one of the image. -/
theorem in_place_refuted : ∃ (lib : Lib) (d : Detector), construct d.factor d.sigma = some d ∧
    ∃ img : Img, apply lib d img true ≠ apply lib d img false := by
  have hd : construct (1 / 2) 0 = some ⟨1 / 2, 0⟩ := by decide +kernel
  refine ⟨⟨fun _ _ i => i, fun i _ hi p => decide (hi < (i.getD p 0 : ℚ))⟩, ⟨1 / 2, 0⟩, hd, [0, 2], ?_⟩
  intro h
  rw [in_place_partial] at h
  obtain ⟨o1, e1, _, h1⟩ := confidence_order ⟨fun _ _ i => i, fun i _ hi p => decide (hi < (i.getD p 0 : ℚ))⟩ ⟨1 / 2, 0⟩ [0, 0] (by simp)
  obtain ⟨o2, e2, _, h2⟩ := confidence_order ⟨fun _ _ i => i, fun i _ hi p => decide (hi < (i.getD p 0 : ℚ))⟩ ⟨1 / 2, 0⟩ [0, 2] (by simp)
  have eo : o1 = o2 := by
    have : some o1 = some o2 := by rw [← e1, ← e2]; exact h
    simpa using this
  subst eo
  have hs : ∀ im : Img, ∀ p < im.length, Strength ⟨fun _ _ i => i, fun i _ hi p => decide (hi < (i.getD p 0 : ℚ))⟩ ⟨1 / 2, 0⟩ im p
      (cnt (fun t => decide ((t : ℚ) < (im.getD p 0 : ℚ))) 255) := by
    intro im p hp
    rw [strength_iff _ _ hp]
    congr 1
  have c0 : ∀ k, cnt (fun t => decide ((t : ℚ) < ((0 : Nat) : ℚ))) k = 0 := by
    intro k
    unfold cnt
    rw [List.length_eq_zero_iff, List.filter_eq_nil_iff]
    intro t _
    have : (0 : ℚ) ≤ t := Nat.cast_nonneg t
    simp only [decide_eq_true_eq]
    push_cast; linarith
  have c2 : 0 < cnt (fun t => decide ((t : ℚ) < ((2 : Nat) : ℚ))) 255 := by
    unfold cnt
    apply List.length_pos_of_mem (a := 0)
    rw [List.mem_filter]
    exact ⟨List.mem_range.2 (by omega), by simp⟩
  obtain ⟨a, b, ha, hb, hab, _⟩ := h2 0 (by simp) 1 (by simp) _ _ (hs [0, 2] 0 (by simp)) (hs [0, 2] 1 (by simp))
  obtain ⟨a', b', ha', hb', hab', _⟩ := h1 0 (by simp) 1 (by simp) _ _ (hs [0, 0] 0 (by simp)) (hs [0, 0] 1 (by simp))
  have ea : a = a' := by rw [ha] at ha'; simpa using ha'
  have eb : b = b' := by rw [hb] at hb'; simpa using hb'
  have l : a < b := hab.1 (by
    show cnt (fun t => decide ((t : ℚ) < ((0 : Nat) : ℚ))) 255 < cnt (fun t => decide ((t : ℚ) < ((2 : Nat) : ℚ))) 255
    rw [c0]; exact c2)
  rw [ea, eb] at l
  exact absurd (hab'.2 l) (Nat.lt_irrefl _)

/-- Kernel sizes for the default sigma, the root of 2 being about 1.414, and for 1. -/
example : kernelSize (1414 / 1000) = 7 ∧ kernelSize 1 = 3 := by decide +kernel

/-- Counts 0, 3 and 4 are rescaled to 0, 191 and 255. -/
example : normalize [0, 3, 4] = [0, 191, 255] ∧ normalize [7, 7] = [0, 0] := by decide +kernel

end Litiv.Canny
