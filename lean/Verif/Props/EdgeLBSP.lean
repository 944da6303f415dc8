import Verif.Lemmas.EdgeFuse

/-!
# Properties C91–C93: the LBSP edge detector
-/

namespace Litiv.EdgeLBSP
open Spec
open LBSP.Spec (Inner drawing)

/-! ## C91: image pyramid -/

/-- C91 (partial): when every level has at least two rows, and two columns unless it has at most four rows, every access of the pyramid
construction is inside its buffer, and level `l` has the size and the image given by the specification, whatever earlier calls left in
the buffers; the sixteen values kept for a pixel are its LBSP neighbours, or sixteen copies of the pixel near a border. Missing: smaller
images (see `pyramid_small_refuted`). -/
theorem pyramid_partial (old : Nat → Table × Image) (n R C : Nat) (img : Image) (hR : R < 2 ^ 31) (hC : C < 2 ^ 31)
    (hf : ∀ l < n, Fits (size R l) (size C l)) :
    ∃ ls, pyramid old n R C img = some ls ∧ ls.length = n ∧ ∀ l < n, ∃ lv, ls[l]? = some lv ∧
      lv.h = size R l ∧ lv.w = size C l ∧ ∀ y x, y < size R l → x < size C l →
        lv.img y x = levelImg R C img l y x ∧
        ∀ c n, lv.lut y x c n = (if Inner (size R l) (size C l) y x then
          levelImg R C img l ((y : Int) + LBSP.offY n).toNat ((x : Int) + LBSP.offX n).toNat c else levelImg R C img l y x c) := by
  obtain ⟨ls, e, hlen, h⟩ := pyramid_spec old n R C img (by omega) (by omega) hf
  refine ⟨ls, e, hlen, fun l hl => ?_⟩
  obtain ⟨lv, e1, ok⟩ := h l hl
  refine ⟨lv, e1, ok.rows, ok.cols, fun y x hy hx => ⟨ok.img y x hy hx, fun c n => ?_⟩⟩
  rw [ok.lut y x hy hx, isBorder_inner]
  unfold vals
  by_cases hi : Inner (size R l) (size C l) y x
  · simp [hi]
  · simp [hi]

/-- A level of the pyramid that is not a copy. -/
example : size 480 2 = 120 ∧ size 7 1 = 4 ∧ (∀ l < 3, Fits (size 480 l) (size 641 l)) ∧
    reduce 7 7 (fun y x _ => BitVec.ofNat 8 (10 * y + x * x)) 1 1 0 = 25 ∧
    reduce 7 7 (fun y x _ => BitVec.ofNat 8 (10 * y + x * x)) 3 1 0 = 64 := by
  refine ⟨by decide, by decide, ?_, by decide +kernel, by decide +kernel⟩
  intro l hl
  interval_cases l <;> decide

/-- C91, refuted part: in all other cases some access is outside the buffers. In particular with the default three levels every image of at
most four rows fails. -/
theorem pyramid_small_refuted (old : Nat → Table × Image) (n R C : Nat) (img : Image) (hR0 : 0 < R) (hC0 : 0 < C) (hR : R < 2 ^ 31) (hC : C < 2 ^ 31) :
    (pyramid old n R C img = none ↔ ∃ l < n, ¬ Fits (size R l) (size C l)) ∧ (R ≤ 4 → pyramid old 3 R C img = none) := by
  refine ⟨⟨fun h => ?_, pyramid_none old n R C img hR0 hC0 (by omega) (by omega)⟩, fun h4 => ?_⟩
  · by_contra hc
    push Not at hc
    obtain ⟨ls, e, -⟩ := pyramid_spec old n R C img (by omega) (by omega) hc
    rw [h] at e
    cases e
  · refine pyramid_none old 3 R C img hR0 hC0 (by omega) (by omega) ⟨2, by omega, fun hf => ?_⟩
    have := hf.1
    simp only [size] at this
    omega

/-! ## C92: edges -/

section
variable (impl : LBSP.Impl) (rd : ℚ → ℚ) (factor : ℚ) (n R C ch : Nat) (hn : 0 < n) (hch : 0 < ch) (hR : R < 2 ^ 31) (hC : C < 2 ^ 31) (img : Image)
  (oldP : Nat → Table × Image) (old : Left) (hf : ∀ l < n, Fits (size R l) (size C l))

include hn hch hR hC hf in
/-- C92, where words are stored most significant byte first: for every image, threshold and content of the buffers, all accesses are inside
the buffers, the hysteresis loop ends, and the pixels of value 255 are exactly the candidates joined by a chain of candidates to one whose
magnitude reaches the threshold; the others are 0. A candidate reaches the low threshold and is a local maximum along the axis of the
gradient; magnitude and components are the weakest among the levels, the finest level winning ties. -/
theorem edges_big_endian (d : ℚ) (high low : Nat) (hh : (high : ℤ) = if d < 0 ∨ 1 < d then 8 else ⌊16 * d⌋)
    (hl : (low : ℤ) = ⌊rd (high * factor)⌋) :
    ∃ (out : Nat → Nat → BitVec 8) (M : Nat → Nat → Nat) (gx gy : Nat → Nat → Int), applyThreshold impl .big rd factor n R C ch img d oldP old = some out ∧
      (∀ y x, y < R → x < C → Least (fun l => (gradAt impl ch R C img y x l).2.2.toNat) n (M y x) ∧
        Weakest (fun l => (gradAt impl ch R C img y x l).1.toInt) n (gx y x) ∧ Weakest (fun l => (gradAt impl ch R C img y x l).2.1.toInt) n (gy y x)) ∧
      ∀ y x : Nat, y < R → x < C → (out y x = 255 ∨ out y x = 0) ∧
        (out y x = 255 ↔ Hysteresis
          (fun p => p.1 < R ∧ p.2 < C ∧ low ≤ M p.1 p.2 ∧ Thin (around R C M) (gx p.1 p.2) (gy p.1 p.2) p.1 p.2)
          (fun p => high ≤ M p.1 p.2) (y, x)) := by
  obtain ⟨out, F, e1, h1, h2⟩ := detect_spec impl .big rd factor n R C ch hn hch (by omega) hC img high oldP old hf
  rw [lowThreshold_spec hl] at h2
  rw [← detThreshold_spec hh] at e1
  refine ⟨out, fun y x => (F y x).mag.toNat, fun y x => (F y x).gx.toInt, fun y x => (F y x).gy.toInt, e1, ?_, h2⟩
  intro y x hy hx
  obtain ⟨f, hg, a1, a2, a3⟩ := h1 y x hy hx
  have rg : ∀ l < n, (f l).mag.toNat ≤ 16 ∧ |(f l).gx.toInt| ≤ 6 ∧ |(f l).gy.toInt| ≤ 6 := fun l hl => by
    rw [hg l hl]; exact gradAt_range impl ch R C hch img y x l
  have b1 := weakest_of_fold (d := (defaultCell .big).gx) (f := fun l => (f l).gx) hn (fun l hl => lt_of_le_of_lt (rg l hl).2.1 (by decide))
  have b2 := weakest_of_fold (d := (defaultCell .big).gy) (f := fun l => (f l).gy) hn (fun l hl => lt_of_le_of_lt (rg l hl).2.2 (by decide))
  have b3 := least_of_fold (d := (defaultCell .big).mag) (f := fun l => (f l).mag) hn (fun l hl => lt_of_le_of_lt (rg l hl).1 (by decide))
  rw [← a1] at b1
  rw [← a2] at b2
  rw [← a3] at b3
  have wc : ∀ {a b : Nat → Int} {v : Int}, (∀ l < n, a l = b l) → Weakest a n v → Weakest b n v := by
    rintro a b v hab ⟨l, hl, q1, q2, q3⟩
    exact ⟨l, hl, by rw [← hab l hl]; exact q1, fun k hk => by rw [← hab k hk]; exact q2 k hk, fun k hk => by rw [← hab k (by omega)]; exact q3 k hk⟩
  refine ⟨⟨?_, fun l hl => ?_⟩, wc (fun l hl => ?_) b1, wc (fun l hl => ?_) b2⟩
  · obtain ⟨l, hl, q⟩ := b3.1
    refine ⟨l, hl, ?_⟩
    dsimp only at q ⊢
    rw [← q, hg l hl]
  · have := b3.2 l hl
    dsimp only at this ⊢
    rw [hg l hl] at this
    exact this
  · rw [hg l hl]
  · rw [hg l hl]

include hn hch hR hC hf in
/-- C92 (partial), where words are stored least significant byte first (all the usual processors): the same, except that the axis of the local
maximum test is not that of the gradient: it is vertical unless some level has no vertical gradient component; both diagonals are tried in
that case. Missing: the axis of the gradient (see `axis_refuted`). -/
theorem edges_little_endian_partial (d : ℚ) (high low : Nat) (hh : (high : ℤ) = if d < 0 ∨ 1 < d then 8 else ⌊16 * d⌋)
    (hl : (low : ℤ) = ⌊rd (high * factor)⌋) :
    ∃ (out : Nat → Nat → BitVec 8) (M : Nat → Nat → Nat), applyThreshold impl .little rd factor n R C ch img d oldP old = some out ∧
      (∀ y x, y < R → x < C → Least (fun l => (gradAt impl ch R C img y x l).2.2.toNat) n (M y x)) ∧
      ∀ y x : Nat, y < R → x < C → (out y x = 255 ∨ out y x = 0) ∧
        (out y x = 255 ↔ Hysteresis
          (fun p => p.1 < R ∧ p.2 < C ∧ low ≤ M p.1 p.2 ∧
            ((∀ l < n, (gradAt impl ch R C img p.1 p.2 l).2.1 ≠ 0) → Peak (around R C M) p.1 p.2 1 0) ∧
            ((∃ l < n, (gradAt impl ch R C img p.1 p.2 l).2.1 = 0) → Peak (around R C M) p.1 p.2 1 (-1) ∨ Peak (around R C M) p.1 p.2 1 1))
          (fun p => high ≤ M p.1 p.2) (y, x)) := by
  obtain ⟨out, F, e1, h1, h2⟩ := detect_spec impl .little rd factor n R C ch hn hch (by omega) hC img high oldP old hf
  rw [lowThreshold_spec hl] at h2
  rw [← detThreshold_spec hh] at e1
  refine ⟨out, fun y x => (F y x).mag.toNat, e1, ?_, ?_⟩
  · intro y x hy hx
    obtain ⟨f, hg, a1, a2, a3⟩ := h1 y x hy hx
    have rg : ∀ l < n, (f l).mag.toNat ≤ 16 := fun l hl => by rw [hg l hl]; exact (gradAt_range impl ch R C hch img y x l).1
    have b3 := least_of_fold (d := (defaultCell .little).mag) (f := fun l => (f l).mag) hn (fun l hl => lt_of_le_of_lt (rg l hl) (by decide))
    rw [← a3] at b3
    refine ⟨?_, fun l hl => ?_⟩
    · obtain ⟨l, hl, q⟩ := b3.1
      refine ⟨l, hl, ?_⟩
      dsimp only at q ⊢
      rw [← q, hg l hl]
    · have := b3.2 l hl
      dsimp only at this ⊢
      rw [hg l hl] at this
      exact this
  · intro y x hy hx
    refine ⟨(h2 y x hy hx).1, (h2 y x hy hx).2.trans (iff_of_eq (congrFun (congrArg (fun c => Hysteresis c _) (funext fun p => propext ?_)) _))⟩
    refine and_congr_right fun hp1 => and_congr_right fun hp2 => and_congr_right fun _ => ?_
    obtain ⟨f, hg, a1, a2, -⟩ := h1 p.1 p.2 hp1 hp2
    have gx0 : (F p.1 p.2).gx.toInt = 0 := by rw [a1]; exact fold_zero (by decide)
    have gy0 : (F p.1 p.2).gy.toInt = 0 ↔ ∃ l < n, (gradAt impl ch R C img p.1 p.2 l).2.1 = 0 := by
      rw [a2, fold_ne_zero (by decide)]
      constructor
      · rintro ⟨l, hl, h⟩
        refine ⟨l, hl, ?_⟩
        rw [hg l hl] at h
        exact BitVec.eq_of_toInt_eq (by rw [h]; rfl)
      · rintro ⟨l, hl, h⟩
        refine ⟨l, hl, ?_⟩
        rw [hg l hl]
        dsimp only
        rw [h]; rfl
    rw [gx0]
    generalize (F p.1 p.2).gy.toInt = gy at gy0
    have nf : ¬ Flat 0 gy := by
      unfold Flat
      have := sq_nonneg (|(0 : Int)| + |gy|)
      intro h
      simp only [ne_eq, OfNat.ofNat_ne_zero, not_false_eq_true, zero_pow, mul_zero] at h
      exact absurd h (not_lt.2 this)
    unfold Thin
    rw [if_neg nf]
    by_cases hz : gy = 0
    · have hex := gy0.1 hz
      subst hz
      rw [if_neg nf, if_neg (by simp)]
      refine ⟨fun h => ⟨fun hall => ?_, fun _ => h⟩, fun h => h.2 hex⟩
      obtain ⟨l, hl, q⟩ := hex
      exact absurd q (hall l hl)
    · have hall : ∀ l < n, (gradAt impl ch R C img p.1 p.2 l).2.1 ≠ 0 := fun l hl q => hz (gy0.2 ⟨l, hl, q⟩)
      have fl : Flat gy 0 := by
        unfold Flat
        rw [abs_zero, add_zero, sq_abs]
        have : 0 < gy ^ 2 := by positivity
        omega
      rw [if_pos fl]
      exact ⟨fun h => ⟨fun _ => h, fun ⟨l, hl, q⟩ => absurd q (hall l hl)⟩, fun h => h.1 hall⟩

end

/-- C92: no edge pixel lies less than two pixels away from a border, on any processor. -/
theorem border_clear (impl : LBSP.Impl) (e : Endian) (rd : ℚ → ℚ) (factor : ℚ) (n R C ch : Nat) (hn : 0 < n) (hch : 0 < ch) (hR : R < 2 ^ 31)
    (hC : C < 2 ^ 31) (img : Image) (d : ℚ) (oldP : Nat → Table × Image) (old : Left) (hf : ∀ l < n, Fits (size R l) (size C l)) :
    ∃ out, applyThreshold impl e rd factor n R C ch img d oldP old = some out ∧
      ∀ y x, y < R → x < C → (y < 2 ∨ R ≤ y + 2 ∨ x < 2 ∨ C ≤ x + 2) → out y x = 0 := by
  obtain ⟨out, F, e1, h1, h2⟩ := detect_spec impl e rd factor n R C ch hn hch (by omega) hC img (detThreshold d) oldP old hf
  refine ⟨out, e1, fun y x hy hx hb => ?_⟩
  rcases (h2 y x hy hx).1 with h | h
  · exfalso
    obtain ⟨q, hq, -, hr⟩ := (h2 y x hy hx).2.1 h
    have hc := step_end hq hr
    have hpos := thin_around_pos _ _ _ _ hc.1 hc.2.1 hc.2.2.2
    obtain ⟨f, hg, -, -, a3⟩ := h1 y x hy hx
    have hz := (foldU_spec (defaultCell e).mag n (fun l => (f l).mag)).1.2 0 hn
    rw [← a3, hg 0 hn] at hz
    have hi : ¬ Inner (size R 0) (size C 0) ((y / 2 ^ 0 : Nat) : Int) ((x / 2 ^ 0 : Nat) : Int) := by
      rw [pow_zero, Nat.div_one, Nat.div_one]
      show ¬ Inner R C y x
      unfold Inner
      omega
    unfold gradAt grad at hz
    rw [if_neg hi] at hz
    have : ((0 : BitVec 8) : BitVec 8).toNat = 0 := rfl
    dsimp only at hz hpos
    rw [this] at hz
    omega
  · exact h

/-- A slanted step edge, `2 x + y = 11`, in an image of 9×9 pixels. -/
def slanted : Image := fun y x _ => if 11 < 2 * x + y then 200 else 20

theorem least_one {f : Nat → Nat} {v : Nat} (h : Least f 1 v) : v = f 0 := by
  obtain ⟨⟨l, hl, e⟩, -⟩ := h
  rw [← e, (by omega : l = 0)]

theorem weakest_one {f : Nat → Int} {v : Int} (h : Weakest f 1 v) : v = f 0 := by
  obtain ⟨l, hl, e, -⟩ := h
  rw [← e, (by omega : l = 0)]

/-- C92, refuted part: pixel (4, 4) of a slanted step edge has gradient (6, -2) and magnitude 8, the default threshold, and it is a local maximum
along the horizontal axis, that of the gradient. With one level it is found where words are stored most significant byte first, but
not on the usual processors, with the default threshold and low threshold factor. -/
theorem axis_refuted (oldP : Nat → Table × Image) (old : Left) :
    gradAt .scalar 1 9 9 slanted 4 4 0 = (6, -2, 8) ∧
    (∃ out, applyThreshold .scalar .big (fun x => x) (1 / 2) 1 9 9 1 slanted (1 / 2) oldP old = some out ∧ out 4 4 = 255) ∧
    (∃ out, applyThreshold .scalar .little (fun x => x) (1 / 2) 1 9 9 1 slanted (1 / 2) oldP old = some out ∧ out 4 4 = 0) := by
  have g44 : gradAt .scalar 1 9 9 slanted 4 4 0 = (6, -2, 8) := by decide +kernel
  have g43 : gradAt .scalar 1 9 9 slanted 4 3 0 = (-5, 2, 6) := by decide +kernel
  have g42 : gradAt .scalar 1 9 9 slanted 4 2 0 = (-2, 1, 2) := by decide +kernel
  have g45 : gradAt .scalar 1 9 9 slanted 4 5 0 = (3, -2, 3) := by decide +kernel
  have g46 : gradAt .scalar 1 9 9 slanted 4 6 0 = (1, -1, 1) := by decide +kernel
  have g34 : gradAt .scalar 1 9 9 slanted 3 4 0 = (-6, 2, 8) := by decide +kernel
  have hfit : ∀ l < 1, Fits (size 9 l) (size 9 l) := by
    intro l hl
    interval_cases l
    decide
  have hh : ((8 : Nat) : ℤ) = if (1 / 2 : ℚ) < 0 ∨ 1 < (1 / 2 : ℚ) then 8 else ⌊16 * (1 / 2 : ℚ)⌋ := by decide +kernel
  have hl : ((4 : Nat) : ℤ) = ⌊(fun x : ℚ => x) (((8 : Nat) : ℚ) * (1 / 2))⌋ := by decide +kernel
  refine ⟨g44, ?_, ?_⟩
  · obtain ⟨out, M, gx, gy, e, h1, h2⟩ := edges_big_endian .scalar (fun x => x) (1 / 2) 1 9 9 1 (by decide) (by decide) (by decide) (by decide)
      slanted oldP old hfit (1 / 2) 8 4 hh hl
    refine ⟨out, e, (h2 4 4 (by decide) (by decide)).2.2 ?_⟩
    have m : ∀ y x, y < 9 → x < 9 → M y x = (gradAt .scalar 1 9 9 slanted y x 0).2.2.toNat := fun y x hy hx => least_one (h1 y x hy hx).1
    have ggx : gx 4 4 = 6 := by rw [weakest_one (h1 4 4 (by decide) (by decide)).2.1, g44]; decide
    have ggy : gy 4 4 = -2 := by rw [weakest_one (h1 4 4 (by decide) (by decide)).2.2, g44]; decide
    have m44 : M 4 4 = 8 := by rw [m 4 4 (by decide) (by decide), g44]; rfl
    have m43 : M 4 3 = 6 := by rw [m 4 3 (by decide) (by decide), g43]; rfl
    have m42 : M 4 2 = 2 := by rw [m 4 2 (by decide) (by decide), g42]; rfl
    have m45 : M 4 5 = 3 := by rw [m 4 5 (by decide) (by decide), g45]; rfl
    have m46 : M 4 6 = 1 := by rw [m 4 6 (by decide) (by decide), g46]; rfl
    refine ⟨(4, 4), ⟨by decide, by decide, ?_, ?_⟩, ?_, .refl⟩
    · rw [m44]; decide
    · dsimp only
      rw [ggx, ggy]
      unfold Thin
      rw [if_pos (by decide)]
      have a : ∀ y x : Nat, y < 9 → x < 9 → around 9 9 M y x = M y x := fun y x hy hx => by
        unfold around
        rw [if_pos (by omega)]; rfl
      have a44 := a 4 4 (by decide) (by decide)
      have a43 := a 4 3 (by decide) (by decide)
      have a42 := a 4 2 (by decide) (by decide)
      have a45 := a 4 5 (by decide) (by decide)
      have a46 := a 4 6 (by decide) (by decide)
      rw [m44] at a44; rw [m43] at a43; rw [m42] at a42; rw [m45] at a45; rw [m46] at a46
      refine ⟨⟨?_, ?_⟩, ?_, ?_⟩
      · show around 9 9 M (4 : Nat) (3 : Nat) < around 9 9 M (4 : Nat) (4 : Nat); rw [a44, a43]; decide
      · show around 9 9 M (4 : Nat) (5 : Nat) ≤ around 9 9 M (4 : Nat) (4 : Nat); rw [a44, a45]; decide
      · show around 9 9 M (4 : Nat) (2 : Nat) < around 9 9 M (4 : Nat) (4 : Nat); rw [a44, a42]; decide
      · show around 9 9 M (4 : Nat) (6 : Nat) ≤ around 9 9 M (4 : Nat) (4 : Nat); rw [a44, a46]; decide
    · show 8 ≤ M 4 4; rw [m44]
  · obtain ⟨out, M, e, h1, h2⟩ := edges_little_endian_partial .scalar (fun x => x) (1 / 2) 1 9 9 1 (by decide) (by decide) (by decide) (by decide)
      slanted oldP old hfit (1 / 2) 8 4 hh hl
    refine ⟨out, e, ?_⟩
    obtain ⟨q1, q2⟩ := h2 4 4 (by decide) (by decide)
    rcases q1 with q1 | q1
    · exfalso
      have m : ∀ y x, y < 9 → x < 9 → M y x = (gradAt .scalar 1 9 9 slanted y x 0).2.2.toNat := fun y x hy hx => least_one (h1 y x hy hx)
      have m44 : M 4 4 = 8 := by rw [m 4 4 (by decide) (by decide), g44]; rfl
      have m34 : M 3 4 = 8 := by rw [m 3 4 (by decide) (by decide), g34]; rfl
      obtain ⟨q, hq, -, hr⟩ := q2.1 q1
      have hp := (step_end hq hr).2.2.2.1 (by
        intro l hl
        interval_cases l
        dsimp only
        rw [g44]
        decide)
      have a44 : around 9 9 M (4 : Nat) (4 : Nat) = M 4 4 := by unfold around; rw [if_pos (by decide)]; rfl
      have a34 : around 9 9 M (3 : Nat) (4 : Nat) = M 3 4 := by unfold around; rw [if_pos (by decide)]; rfl
      have := hp.1.1
      have : around 9 9 M (3 : Nat) (4 : Nat) < around 9 9 M (4 : Nat) (4 : Nat) := hp.1.1
      rw [a44, a34, m44, m34] at this
      exact absurd this (by decide)
    · exact q1

/-! ## C93: thresholds -/

section
variable (impl : LBSP.Impl) (e : Endian) (rd : ℚ → ℚ) (factor : ℚ) (n R C ch : Nat) (hn : 0 < n) (hch : 0 < ch) (hR : R < 2 ^ 31) (hC : C < 2 ^ 31) (img : Image)
  (oldP : Nat → Table × Image) (hf : ∀ l < n, Fits (size R l) (size C l)) (hrd : ∀ a b, a ≤ b → rd a ≤ rd b) (hfac : 0 ≤ factor)

include hn hch hR hC hf hrd hfac in
/-- C93: raising the threshold never adds an edge pixel, whatever the buffers held before the two calls. -/
theorem raise_threshold (d d' : ℚ) (h0 : 0 ≤ d) (hd : d ≤ d') (h1 : d' ≤ 1) (old old' : Left) :
    ∃ out out', applyThreshold impl e rd factor n R C ch img d oldP old = some out ∧ applyThreshold impl e rd factor n R C ch img d' oldP old' = some out' ∧
      ∀ y x, y < R → x < C → out' y x = 255 → out y x = 255 := by
  refine detect_mono impl e rd factor n R C ch hn hch hR hC img oldP hf hrd hfac (detThreshold d) (detThreshold d') ?_ old old'
  unfold detThreshold
  rw [if_neg (by push Not; constructor <;> linarith), if_neg (by push Not; constructor <;> linarith)]
  exact Int.toNat_le_toNat (Int.floor_le_floor (by linarith))

include hn hch hR hC hf hrd hfac in
/-- C93: the confidence of a pixel is `16 k`, at most 255, where the pixel is an edge pixel for the thresholds `t/16` (`t` below 16) with
`t < k`, and for no other; the thresholded masks are those of `apply_threshold`. -/
theorem confidence (old : Nat → Left) (old' : Left) :
    ∃ conf, apply impl e rd factor n R C ch img oldP old = some conf ∧ ∀ y x, y < R → x < C → ∃ k : Nat, k ≤ 16 ∧ (conf y x).toNat = min 255 (16 * k) ∧
      ∀ t : Nat, t < 16 → ∃ out, applyThreshold impl e rd factor n R C ch img ((t : ℚ) / 16) oldP old' = some out ∧ (out y x = 255 ↔ t < k) := by
  obtain ⟨conf, e1, h⟩ := apply_spec impl e rd factor n R C ch hn hch hR hC img oldP hf hrd hfac old old'
  refine ⟨conf, e1, fun y x hy hx => ?_⟩
  obtain ⟨k, hk, a, b⟩ := h y x hy hx
  refine ⟨k, hk, a, fun t ht => ?_⟩
  obtain ⟨out, c, c'⟩ := b t ht
  refine ⟨out, ?_, c'⟩
  unfold applyThreshold
  rw [show detThreshold ((t : ℚ) / 16) = t from detThreshold_spec (by
    have h1 : ¬ ((t : ℚ) / 16 < 0 ∨ 1 < (t : ℚ) / 16) := by
      push Not
      have : (t : ℚ) ≤ 15 := by exact_mod_cast (by omega : t ≤ 15)
      constructor
      · positivity
      · linarith
    rw [if_neg h1, mul_div_cancel₀ _ (by norm_num : (16 : ℚ) ≠ 0), Int.floor_natCast])]
  exact c

end

/-- The hypotheses hold for the default settings and a usual image size, with rounding down to multiples of 1/8. -/
example : (∀ l < 3, Fits (size 480 l) (size 641 l)) ∧ (0 : ℚ) ≤ 1 / 2 ∧ ∀ a b : ℚ, a ≤ b → ((⌊8 * a⌋ : ℤ) : ℚ) / 8 ≤ ((⌊8 * b⌋ : ℤ) : ℚ) / 8 := by
  refine ⟨?_, by norm_num, fun a b h => ?_⟩
  · intro l hl
    interval_cases l <;> decide
  · have : (⌊8 * a⌋ : ℤ) ≤ ⌊8 * b⌋ := Int.floor_le_floor (by linarith)
    have : ((⌊8 * a⌋ : ℤ) : ℚ) ≤ ⌊8 * b⌋ := by exact_mod_cast this
    linarith

end Litiv.EdgeLBSP
