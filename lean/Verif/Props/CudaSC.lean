import Verif.Lemmas.CudaSC
import Verif.Props.SC

/-!
# Properties of shape context descriptors on the GPU

Property C188: the GPU version computes the descriptors of the CPU version.
-/

namespace Litiv.CudaSC

open Cuda Cell
open CudaAff (ceilDiv isPow2 ceilDiv_mul ceilDiv_pos)
open Classical

/-- The extractors and the launches for which the kernel is right: without normalization, any block size that fits; with it, one warp, and
either one bin per thread at most or threads of a warp in lockstep. -/
def Works (c : SC.Cfg) (n : Nat) (e : Exec) : Prop :=
  (c.normalize = false ∧ 0 < n ∧ n ≤ 1024 ∧ ceilDiv (c.R * c.A) n * n ≤ 2 * (ceilDiv (c.R * c.A) 32 * 32)) ∨
    (n = 32 ∧ (c.R * c.A ≤ 32 ∨ e.lock = true))

/-- The descriptor of the CPU version before normalization. -/
noncomputable def cpuRaw (c : SC.Cfg) (outer : Nat) (kernel : Int → Int → Bool) (rows cols : Nat) (img : Int → Int → Bool) (keys contour : List ℂ) (k : ℂ) :
    Nat → ℝ :=
  if SC.skipped c kernel rows cols img (SC.cround k.im) (SC.cround k.re) then fun _ => SC.initVal c
  else SC.accum (SC.binOf c outer keys contour k) contour fun _ => SC.initVal c

theorem sum_sq (D : Nat) (d : Nat → ℝ) : ((List.range D).map fun b => d b ^ 2).sum = ∑ j ∈ Finset.range D, d j ^ 2 := by
  induction D with
  | zero => simp
  | succ D ih => rw [List.range_succ, List.map_append, List.sum_append, ih, Finset.sum_range_succ]; simp

theorem initVal_cases (c : SC.Cfg) : SC.initVal c = 0 ∨ 1 / 2 ≤ SC.initVal c := by
  unfold SC.initVal
  cases c.nonzero with
  | true => exact Or.inr (le_max_right _ _)
  | false => exact Or.inl rfl

/-- A descriptor of the GPU version is that of the CPU version, unless all of its bins are zero and it should be normalized. -/
theorem descriptor_spec (dbg : Bool) (c : SC.Cfg) (hrel : c.relative = false) (hrot : c.rot = false) (hR : 0 < c.R) (hA : 0 < c.A) (hin : 0 ≤ c.inner)
    (outer : Nat) (kernel : Int → Int → Bool) (rows cols : Nat) (img : Int → Int → Bool) (keys contour : List ℂ) (hc : ∀ p ∈ contour, Pixel p)
    (n : Nat) (e : Exec) (hw : Works c n e) (i j : Nat) (k : ℂ) (hk : Pixel k) :
    ∃ f, descriptor dbg c outer kernel rows cols img contour n e i j k = some f ∧ ∀ b < c.R * c.A,
      f b = if c.normalize = true ∧ ∀ b' < c.R * c.A, cpuRaw c outer kernel rows cols img keys contour k b' = 0 then none
        else some (SC.finish c (cpuRaw c outer kernel rows cols img keys contour k) b) := by
  obtain ⟨m, hm⟩ := LSS.mask_defined (outer * 2 + 1) c.R c.A true c.inner (by omega) hR hA hin (Or.inl rfl)
  have hproper := LSS.mask_proper _ _ _ _ _ _ hm (Or.inl rfl)
  have hD : 0 < c.R * c.A := Nat.mul_pos hR hA
  set bin : Nat → Option Nat := fun i => lookBin m outer k (contour.getD i 0) with hbin
  set near := !SC.farFrom kernel rows cols img (rint k.im) (rint k.re) with hnear
  have hb : ∀ i b, bin i = some b → b < c.R * c.A := fun i b h => lookBin_lt hproper _ _ _ h
  have hbinOf : ∀ p ∈ contour, SC.binOf c outer keys contour k p = lookBin m outer k p := by
    intro p hp
    unfold SC.binOf
    rw [if_pos (by simp [hrel, hrot]), hm, lookBin_cpu hproper hk (hc p hp)]
    rfl
  have hraw : ∀ b, raw near contour.length (SC.initVal c) bin b = cpuRaw c outer kernel rows cols img keys contour k b := by
    intro b
    have hfar : SC.skipped c kernel rows cols img (SC.cround k.im) (SC.cround k.re) = !near := by
      obtain ⟨x, y, rfl⟩ := hk
      rw [hnear]
      simp only [SC.skipped, hrel, hrot, Bool.not_false, Bool.true_and, Bool.not_not]
      rw [rint_int, rint_int, SC.cround_int, SC.cround_int]
    unfold raw cpuRaw
    rw [hfar]
    cases near with
    | false => simp
    | true =>
      simp only [if_true, Bool.not_true, Bool.false_eq_true, if_false]
      rw [SC.accum_count, votes_list]
      congr 3
      refine List.filter_congr fun p hp => ?_
      rw [hbinOf p hp]
  have hdesc : descriptor dbg c outer kernel rows cols img contour n e i j k =
      launch dbg e.lock c.normalize near n (c.R * c.A) contour.length (SC.initVal c) bin (e.sched i j) (e.mem i j) := by
    unfold descriptor
    rw [hm]
    rfl
  rw [hdesc]
  unfold launch
  rcases hw with ⟨hn0, hn1, hn2, hn3⟩ | ⟨rfl, hl⟩
  · rw [if_pos ⟨hn2, by simp only [used, hn0, Bool.false_and, Bool.false_eq_true, if_false, allocated]; omega, by simp [hn0]⟩]
    refine ⟨_, rfl, fun b hb' => ?_⟩
    rw [if_neg (by simp [hn0]), hn0, block_raw e.lock near hn1 _ _ _ bin hb _ _ b hb', hraw]
    simp [SC.finish, hn0]
  · rw [if_pos ⟨by omega, by unfold used allocated; split <;> omega, by simp⟩]
    refine ⟨_, rfl, fun b hb' => ?_⟩
    cases hcn : c.normalize with
    | false =>
      rw [if_neg (by simp), block_raw e.lock near (by omega) _ _ _ bin hb _ _ b hb', hraw]
      simp [SC.finish, hcn]
    | true =>
      rw [block_norm e.lock near _ _ hl _ bin hb _ _ b hb']
      simp only [hraw, true_and]
      have hzero : ∑ j ∈ Finset.range (c.R * c.A), cpuRaw c outer kernel rows cols img keys contour k j ^ 2 = 0 ↔
          ∀ b' < c.R * c.A, cpuRaw c outer kernel rows cols img keys contour k b' = 0 := by
        rw [Finset.sum_eq_zero_iff_of_nonneg fun _ _ => sq_nonneg _]
        simp only [Finset.mem_range, pow_eq_zero_iff, ne_eq, OfNat.ofNat_ne_zero, not_false_eq_true]
      by_cases hz : ∀ b' < c.R * c.A, cpuRaw c outer kernel rows cols img keys contour k b' = 0
      · rw [if_pos (hzero.2 hz), if_pos hz]
      · rw [if_neg (fun h => hz (hzero.1 h)), if_neg hz]
        push Not at hz
        obtain ⟨b0, hb0, hne⟩ := hz
        have hge : 1 / 2 ≤ cpuRaw c outer kernel rows cols img keys contour k b0 := by
          rw [← hraw] at hne ⊢
          unfold raw votes at hne ⊢
          rcases initVal_cases c with h0 | h0
          · rw [h0] at hne ⊢
            by_cases hh : near = true
            swap
            · rw [if_neg hh] at hne
              simp at hne
            · rw [if_pos hh, zero_add] at hne ⊢
              have h1 : (List.range contour.length).countP (fun i => decide (bin i = some b0)) ≠ 0 := by exact_mod_cast hne
              have h2 : (1 : ℝ) ≤ ((List.range contour.length).countP (fun i => decide (bin i = some b0)) : ℝ) := by
                exact_mod_cast Nat.one_le_iff_ne_zero.2 h1
              linarith
          · have : (0 : ℝ) ≤ if near = true then ((List.range contour.length).countP (fun i => decide (bin i = some b0)) : ℝ) else 0 := by
              split <;> positivity
            linarith
        have hsum : (1 / 2 : ℝ) ^ 2 ≤ ∑ j ∈ Finset.range (c.R * c.A), cpuRaw c outer kernel rows cols img keys contour k j ^ 2 := by
          refine le_trans ?_ (Finset.single_le_sum (f := fun j => cpuRaw c outer kernel rows cols img keys contour k j ^ 2)
            (fun _ _ => sq_nonneg _) (Finset.mem_range.2 hb0))
          exact pow_le_pow_left₀ (by norm_num) hge 2
        have hsq : 1 / 2 ≤ Real.sqrt (∑ j ∈ Finset.range (c.R * c.A), cpuRaw c outer kernel rows cols img keys contour k j ^ 2) :=
          Real.le_sqrt_of_sq_le hsum
        unfold SC.finish SC.normDesc
        rw [if_pos hcn, sum_sq]
        rw [if_pos (by linarith)]

/-- **C188 (rows, partial).** For key points and contour points on the grid of pixels: a row of `detectAndCompute` of the GPU version is that
of the CPU version, whatever the schedule of the threads and the contents of the memory, unless a descriptor that should be normalized
has only zeros. Missing: such descriptors (`empty_refuted`), other block sizes with normalization (`block_refuted`, `shared_refuted`), more
than 32 bins without lockstep (`lockstep_refuted`), other points (`rounding_refuted`). -/
theorem gpu_rows_partial (dbg : Bool) (c : SC.Cfg) (hrel : c.relative = false) (hrot : c.rot = false) (hv : c.Valid)
    (outer : Nat) (kernel : Int → Int → Bool) (rows cols : Nat) (img : Int → Int → Bool) (keys contour : List ℂ) (hc : ∀ p ∈ contour, Pixel p)
    (hk : ∀ k ∈ keys, Pixel k ∧ SC.Inside rows cols k) (n : Nat) (e : Exec) (hw : Works c n e) :
    ∃ ds, SC.fillList c outer kernel rows cols img keys contour = some ds ∧ ∀ (i : Nat) (k : ℂ), keys[i]? = some k →
      ∃ d f, ds[i]? = some d ∧ descriptor dbg c outer kernel rows cols img contour n e i 0 k = some f ∧
        ((c.normalize = true → ∃ b < c.R * c.A, cpuRaw c outer kernel rows cols img keys contour k b ≠ 0) → ∀ b < c.R * c.A, f b = some (d b)) := by
  have hstep : ∀ k ∈ keys, SC.listStep c outer kernel rows cols img keys contour k = some (cpuRaw c outer kernel rows cols img keys contour k) := by
    intro k hkm
    have h := (hk k hkm).2
    unfold SC.listStep cpuRaw
    dsimp only
    have h' : 0 ≤ SC.cround k.im ∧ SC.cround k.im < rows ∧ 0 ≤ SC.cround k.re ∧ SC.cround k.re < cols := h
    rw [if_neg (by simp [hrel, hrot, h'])]
  have hmap : ∀ l : List ℂ, (∀ k ∈ l, k ∈ keys) → l.mapM (SC.listStep c outer kernel rows cols img keys contour) =
      some (l.map (cpuRaw c outer kernel rows cols img keys contour)) := by
    intro l
    induction l with
    | nil => intro _; rfl
    | cons a l ih =>
      intro h
      rw [List.mapM_cons, hstep a (h a (List.mem_cons_self ..)), ih fun k hk' => h k (List.mem_cons_of_mem _ hk')]
      rfl
  refine ⟨_, by unfold SC.fillList; rw [hmap keys fun _ h => h]; rfl, fun i k hik => ?_⟩
  obtain ⟨f, h1, h2⟩ := descriptor_spec dbg c hrel hrot hv.rad hv.ang hv.inner.le outer kernel rows cols img keys contour hc n e hw i 0 k
    (hk k (List.mem_of_getElem? hik)).1
  refine ⟨SC.finish c (cpuRaw c outer kernel rows cols img keys contour k), f, by simp [hik], h1, fun hnz b hb => ?_⟩
  rw [h2 b hb, if_neg]
  rintro ⟨h3, h4⟩
  obtain ⟨b', h5, h6⟩ := hnz h3
  exact h6 (h4 b' h5)

theorem pixels_inside (rows cols : Nat) (k : ℂ) (h : k ∈ SC.allPixels rows cols) : Pixel k ∧ SC.Inside rows cols k := by
  unfold SC.allPixels at h
  simp only [List.mem_flatMap, List.mem_map, List.mem_range] at h
  obtain ⟨r, hr, q, hq, rfl⟩ := h
  refine ⟨⟨q, r, by simp⟩, ?_⟩
  show 0 ≤ SC.cround _ ∧ SC.cround _ < _ ∧ 0 ≤ SC.cround _ ∧ SC.cround _ < _
  dsimp only
  have e1 := SC.cround_int (r : Int)
  have e2 := SC.cround_int (q : Int)
  rw [Int.cast_natCast] at e1 e2
  rw [e1, e2]
  omega

theorem cround_nat (r : Nat) : SC.cround (r : ℝ) = (r : Int) := by
  have e1 := SC.cround_int (r : Int)
  rwa [Int.cast_natCast] at e1

theorem filter_pixels (rows cols r q : Nat) (hr : r < rows) (hq : q < cols) (s : Bool) :
    (SC.allPixels rows cols).filter (fun k => decide (SC.cround k.im = (r : Int) ∧ SC.cround k.re = (q : Int) ∧ s = false)) =
      if s = false then [⟨(q : ℝ), (r : ℝ)⟩] else [] := by
  cases s with
  | true => simp
  | false =>
    simp only [and_true, if_true]
    unfold SC.allPixels
    rw [List.filter_flatMap]
    have hrow : ∀ r' : Nat, ((List.range cols).map fun q' : Nat => (⟨(q' : ℝ), (r' : ℝ)⟩ : ℂ)).filter
        (fun k => decide (SC.cround k.im = (r : Int) ∧ SC.cround k.re = (q : Int))) = if r' = r then [⟨(q : ℝ), (r : ℝ)⟩] else [] := by
      intro r'
      rw [List.filter_map]
      have e : ((fun k : ℂ => decide (SC.cround k.im = (r : Int) ∧ SC.cround k.re = (q : Int))) ∘ fun q' : Nat => (⟨(q' : ℝ), (r' : ℝ)⟩ : ℂ)) =
          fun q' : Nat => decide (r' = r) && (q' == q) := by
        funext q'
        simp only [Function.comp_apply, cround_nat, Nat.cast_inj]
        by_cases h1 : r' = r <;> by_cases h2 : q' = q <;> simp [h1, h2]
      rw [e]
      by_cases h : r' = r
      · subst h
        simp only [decide_true, Bool.true_and, if_true]
        rw [List.filter_beq, List.count_eq_one_of_mem List.nodup_range (List.mem_range.2 hq)]
        rfl
      · simp [h]
    simp only [hrow]
    have hgen : ∀ n : Nat, (List.range n).flatMap (fun r' : Nat => if r' = r then [(⟨(q : ℝ), (r : ℝ)⟩ : ℂ)] else []) = if r < n then [⟨(q : ℝ), (r : ℝ)⟩] else [] := by
      intro n
      induction n with
      | zero => rfl
      | succ n ih =>
        rw [List.range_succ, List.flatMap_append, ih]
        by_cases h : r = n
        · subst h; simp
        · by_cases h2 : r < n
          · simp [h2, Ne.symm h, Nat.lt_succ_of_lt h2]
          · simp [h2, Ne.symm h, show ¬ r < n + 1 by omega]
    rw [hgen, if_pos hr]

/-- The map of the CPU version for all pixels. -/
theorem cpu_map (c : SC.Cfg) (outer : Nat) (kernel : Int → Int → Bool) (rows cols : Nat) (img : Int → Int → Bool) (contour : List ℂ) :
    ∃ d, SC.fillMap c outer kernel rows cols img (SC.allPixels rows cols) contour (SC.allPixels rows cols) = some d ∧ ∀ r < rows, ∀ q < cols,
      d r q = SC.finish c (cpuRaw c outer kernel rows cols img (SC.allPixels rows cols) contour ⟨(q : ℝ), (r : ℝ)⟩) := by
  obtain ⟨d, h1, h2⟩ := SC.foldMap c outer kernel rows cols img (SC.allPixels rows cols) contour (SC.allPixels rows cols) (fun _ _ _ => SC.initVal c)
    fun k hk => (pixels_inside rows cols k hk).2
  refine ⟨_, by unfold SC.fillMap; rw [h1]; rfl, fun r hr q hq => ?_⟩
  show SC.finish c (d r q) = _
  congr 1
  funext b
  rw [h2, filter_pixels rows cols r q hr hq]
  unfold cpuRaw
  simp only [cround_nat]
  cases SC.skipped c kernel rows cols img r q with
  | true => simp
  | false =>
    simp only [if_true, Bool.false_eq_true, if_false, List.map_cons, List.map_nil, List.sum_cons, List.sum_nil, add_zero]
    rw [SC.accum_count]

/-- **C188 (maps, partial).** For contour points on the grid of pixels: the map of `compute2` for a whole image is that of the CPU version, whatever
the schedule of the threads and the contents of the memory, except at pixels whose descriptor should be normalized and has only zeros. Missing: as
for `gpu_rows_partial`, and the map of some key points (`sparse_refuted`). -/
theorem gpu_map_partial (dbg : Bool) (c : SC.Cfg) (hrel : c.relative = false) (hrot : c.rot = false) (hv : c.Valid)
    (outer : Nat) (kernel : Int → Int → Bool) (rows cols : Nat) (img : Int → Int → Bool) (contour : List ℂ) (hc : ∀ p ∈ contour, Pixel p)
    (n : Nat) (e : Exec) (hw : Works c n e) :
    ∃ d, SC.fillMap c outer kernel rows cols img (SC.allPixels rows cols) contour (SC.allPixels rows cols) = some d ∧ ∀ r < rows, ∀ q < cols,
      ∃ f, fillMap dbg c outer kernel rows cols img contour n e r q = some f ∧
        ((c.normalize = true → ∃ b < c.R * c.A, cpuRaw c outer kernel rows cols img (SC.allPixels rows cols) contour ⟨(q : ℝ), (r : ℝ)⟩ b ≠ 0) →
          ∀ b < c.R * c.A, f b = some (d r q b)) := by
  obtain ⟨d, h1, h2⟩ := cpu_map c outer kernel rows cols img contour
  refine ⟨d, h1, fun r hr q hq => ?_⟩
  obtain ⟨f, h3, h4⟩ := descriptor_spec dbg c hrel hrot hv.rad hv.ang hv.inner.le outer kernel rows cols img (SC.allPixels rows cols) contour hc n e hw r q
    ⟨(q : ℝ), (r : ℝ)⟩ ⟨q, r, by simp⟩
  refine ⟨f, h3, fun hnz b hb => ?_⟩
  rw [h4 b hb, if_neg, h2 r hr q hq]
  rintro ⟨h5, h6⟩
  obtain ⟨b', h7, h8⟩ := hnz h5
  exact h8 (h6 b' h7)

/-- **C188 (empty descriptors, refuted).** Where there is no contour to be seen, a normalized descriptor without initial values is all NaN;
that of the CPU version is uniform. -/
theorem empty_refuted (dbg : Bool) (c : SC.Cfg) (hrel : c.relative = false) (hrot : c.rot = false) (hv : c.Valid) (hn : c.normalize = true)
    (hz : c.nonzero = false) (outer : Nat) (kernel : Int → Int → Bool) (rows cols : Nat) (contour : List ℂ) (hc : ∀ p ∈ contour, Pixel p)
    (e : Exec) (hw : Works c 32 e) (r q : Nat) (hr : r < rows) (hq : q < cols) (img : Int → Int → Bool)
    (hfar : SC.farFrom kernel rows cols img r q = true) :
    (∃ f, fillMap dbg c outer kernel rows cols img contour 32 e r q = some f ∧ ∀ b < c.R * c.A, f b = none) ∧
    ∃ d, SC.fillMap c outer kernel rows cols img (SC.allPixels rows cols) contour (SC.allPixels rows cols) = some d ∧
      ∀ b, d r q b = Real.sqrt (1 / ((c.R * c.A : Nat) : ℝ)) := by
  have hzero : cpuRaw c outer kernel rows cols img (SC.allPixels rows cols) contour ⟨(q : ℝ), (r : ℝ)⟩ = fun _ => 0 := by
    unfold cpuRaw
    simp only [cround_nat]
    rw [if_pos (by simp [SC.skipped, hrel, hrot, hfar])]
    simp [SC.initVal, hz]
  constructor
  · obtain ⟨f, h3, h4⟩ := descriptor_spec dbg c hrel hrot hv.rad hv.ang hv.inner.le outer kernel rows cols img (SC.allPixels rows cols) contour hc 32 e hw r q
      ⟨(q : ℝ), (r : ℝ)⟩ ⟨q, r, by simp⟩
    refine ⟨f, h3, fun b hb => ?_⟩
    rw [h4 b hb, if_pos ⟨hn, fun b' _ => by rw [hzero]⟩]
  · obtain ⟨d, h1, h2⟩ := cpu_map c outer kernel rows cols img contour
    refine ⟨d, h1, fun b => ?_⟩
    rw [h2 r hr q hq, hzero]
    unfold SC.finish SC.normDesc
    rw [if_pos hn]
    dsimp only
    rw [if_neg]
    simp

/-- **C188 (maps of key points, refuted).** `compute2` with key points on the GPU computes the descriptors of all the pixels: at a pixel that is not a key
point and sees a contour point, the map of the CPU version keeps the initial value and that of the GPU version has counted the contour point. -/
theorem sparse_refuted (dbg : Bool) (c : SC.Cfg) (hrel : c.relative = false) (hrot : c.rot = false) (hv : c.Valid) (hn : c.normalize = false)
    (outer : Nat) (kernel : Int → Int → Bool) (rows cols : Nat) (img : Int → Int → Bool) (keys contour : List ℂ) (hc : ∀ p ∈ contour, Pixel p)
    (hk : ∀ k ∈ keys, SC.Inside rows cols k) (n : Nat) (e : Exec) (hw : Works c n e) (r q : Nat) (hno : ∀ k ∈ keys, ¬ SC.At r q k)
    (hnear : SC.farFrom kernel rows cols img r q = false) (p : ℂ) (hp : p ∈ contour) (b : Nat) (hb : b < c.R * c.A)
    (hbin : SC.binOf c outer keys contour ⟨(q : ℝ), (r : ℝ)⟩ p = some b) :
    ∃ d f x, SC.fillMap c outer kernel rows cols img keys contour keys = some d ∧ fillMap dbg c outer kernel rows cols img contour n e r q = some f ∧
      d r q b = SC.initVal c ∧ f b = some x ∧ SC.initVal c + 1 ≤ x := by
  obtain ⟨d, h1, h2⟩ := SC.foldMap c outer kernel rows cols img keys contour keys (fun _ _ _ => SC.initVal c) fun k h => hk k h
  obtain ⟨f, h3, h4⟩ := descriptor_spec dbg c hrel hrot hv.rad hv.ang hv.inner.le outer kernel rows cols img keys contour hc n e hw r q
    ⟨(q : ℝ), (r : ℝ)⟩ ⟨q, r, by simp⟩
  refine ⟨_, f, _, by unfold SC.fillMap; rw [h1]; rfl, h3, ?_, (h4 b hb).trans (if_neg (by simp [hn])), ?_⟩
  · show SC.finish c (d r q) b = _
    rw [SC.finish, if_neg (by simp [hn]), h2, List.filter_eq_nil_iff.2]
    · simp
    · intro k hkm
      have := hno k hkm
      simp only [SC.At] at this
      simp only [decide_eq_true_eq, not_and]
      intro h5 h6
      exact absurd ⟨h5, h6⟩ this
  · rw [SC.finish, if_neg (by simp [hn])]
    unfold cpuRaw
    simp only [cround_nat]
    rw [if_neg (by simp [SC.skipped, hnear]), SC.accum_count]
    have hmem : p ∈ contour.filter fun p => decide (SC.binOf c outer keys contour ⟨(q : ℝ), (r : ℝ)⟩ p = some b) := by
      rw [List.mem_filter]
      exact ⟨hp, by simpa using hbin⟩
    have : 1 ≤ (contour.filter fun p => decide (SC.binOf c outer keys contour ⟨(q : ℝ), (r : ℝ)⟩ p = some b)).length := List.length_pos_of_mem hmem
    have : (1 : ℝ) ≤ ((contour.filter fun p => decide (SC.binOf c outer keys contour ⟨(q : ℝ), (r : ℝ)⟩ p = some b)).length : ℝ) := by exact_mod_cast this
    linarith

/-- **C188 (large blocks, refuted).** A block of more than 64 threads with at most 64 bins (the default is 60) and normalization writes past the
end of its shared memory. -/
theorem shared_refuted (dbg lock near : Bool) (n D N : Nat) (hn : 64 < n) (h0 : 0 < D) (hD : D ≤ 64) (v : ℝ) (bin : Nat → Option Nat)
    (sched : Nat → List Nat) (b : Block Cell ℝ) : launch dbg lock true near n D N v bin sched b = none := by
  unfold launch
  rw [if_neg]
  rintro ⟨-, h, -⟩
  have h1 := ceilDiv_pos (n := n) (by omega) h0
  have h2 : n ≤ ceilDiv D n * n := Nat.le_mul_of_pos_left n h1
  have h3 : ceilDiv D 32 ≤ 2 := by
    unfold ceilDiv
    omega
  unfold used allocated at h
  rw [if_pos (by simp; omega)] at h
  omega

/-- What the kernel has stored before normalization, for one contour point. -/
theorem one_vote (n D : Nat) (hn : 0 < n) (b0 : Nat) (hb0 : b0 < D) (sched) (b : Block Cell ℝ) :
    (∀ i < n * ceilDiv D n, (sec n sched (histActs n 1 fun _ => some b0) (sec n sched (initActs n D 0) (0, b))).2.mem (desc i) = if i = b0 then 1 else 0) ∧
    ∀ i, (sec n sched (histActs n 1 fun _ => some b0) (sec n sched (initActs n D 0) (0, b))).2.mem (lut i) = b.mem (lut i) := by
  constructor
  · intro i hi
    have h := hist_raw true hn D 1 0 (fun _ => some b0) (fun _ b h => by cases h; exact hb0) sched b i hi
    rw [if_pos rfl] at h
    rw [h]
    by_cases e : i = b0
    · subst e
      simp [raw, votes, hb0]
    · simp [raw, votes, e, Ne.symm e]
  · intro i
    rw [(hist_spec hn 1 _ sched _).2, (init_spec hn D 0 sched _).2]

/-- **C188 (blocks of two warps, refuted).** With 64 threads and the default 60 bins, nothing separates the squares from the first addition: if
the first warp is ahead of the second, the norm misses the second half of the bins. One contour point in bin 32 gives NaN instead of one. -/
theorem block_refuted (dbg lock : Bool) : ∃ f, launch dbg lock true true 64 60 1 0 (fun _ => some 32) (fun _ => []) ⟨fun _ => 0, fun _ => (0, 0)⟩ = some f ∧
    f 32 = none := by
  have hok : 64 ≤ 1024 ∧ used true 64 60 ≤ allocated 60 ∧ ¬ (dbg = true ∧ true = true ∧ 64 ≠ 32 ∧ isPow2 64 = false) := by
    refine ⟨by omega, by decide, ?_⟩
    rintro ⟨-, -, -, h⟩
    exact absurd h (by decide)
  refine ⟨_, by unfold launch; rw [if_pos hok], ?_⟩
  unfold block
  simp only [if_true]
  rw [if_pos]
  refine ⟨trivial, ?_⟩
  obtain ⟨hdesc, hlut⟩ := one_vote 64 60 (by omega) 32 (by omega) (fun _ => []) ⟨fun _ => 0, fun _ => (0, 0)⟩
  rw [show 64 * ceilDiv 60 64 = 64 from rfl] at hdesc
  generalize sec 64 (fun _ => []) (histActs 64 1 fun _ => some 32) (sec 64 (fun _ => []) (initActs 64 60 0) (0, ⟨fun _ => 0, fun _ => (0, 0)⟩)) = s at hdesc hlut ⊢
  have hnorm : normSum lock 64 60 (fun _ => []) s = sec 64 (fun _ => []) (fun _ => [ld1 (lut 0)])
      ([16, 8, 4, 2, 1].foldl (fun s k => sec 64 (fun _ => []) (halfActs k) s) (sec 64 (fun _ => []) (fun t => squareActs 64 60 t ++ halfActs 32 t) s)) := by
    unfold normSum
    rw [if_neg (by omega), if_neg (by decide)]
    rfl
  rw [hnorm]
  -- the first section
  have h1 := seq_inv 64 (fun t => squareActs 64 60 t ++ halfActs 32 t) s
    (fun T b => (∀ i < 64, b.mem (desc i) = if i = 32 then 1 else 0) ∧ ∀ i < 64, (i < 32 ∨ T ≤ i) → b.mem (lut i) = 0)
    ⟨hdesc, fun i _ _ => hlut i⟩
    (by
      rintro t ht b ⟨hd, hl⟩
      have hsq : squareActs 64 60 t = [ld1 (desc (64 * 0 + t)), fun r m => (r, Function.update m (lut (64 * 0 + t)) (r.1 * r.1))] := rfl
      rw [Nat.mul_zero, Nat.zero_add] at hsq
      unfold thread
      dsimp only
      rw [hsq]
      by_cases h32 : t < 32
      · have hz := hd t ht
        rw [if_neg (by omega)] at hz
        have hz2 := hl (t + 32) (by omega) (by omega)
        have hne : lut (t + 32) ≠ lut t := by simp
        simp only [halfActs, if_pos h32, alone, List.foldl_cons, List.foldl_nil, List.cons_append, List.nil_append, ld1, ld2, addSt, Function.update_self,
          hz, mul_zero, Function.update_of_ne hne, hz2, add_zero, Function.update_idem]
        refine ⟨fun i hi => by simp [hd i hi], fun i hi hor => ?_⟩
        by_cases e : i = t
        · subst e; simp
        · simp only [ne_eq, Cell.lut.injEq, e, not_false_eq_true, Function.update_of_ne]
          exact hl i hi (by omega)
      · simp only [halfActs, if_neg h32, List.append_nil, alone, List.foldl_cons, List.foldl_nil, ld1]
        refine ⟨fun i hi => by simp [hd i hi], fun i hi hor => ?_⟩
        have e : i ≠ t := by omega
        simp only [ne_eq, Cell.lut.injEq, e, not_false_eq_true, Function.update_of_ne]
        exact hl i hi (by omega))
  generalize sec 64 (fun _ => []) (fun t => squareActs 64 60 t ++ halfActs 32 t) s = s1 at h1 ⊢
  -- the other additions
  have h2 : ∀ (ks : List Nat), (∀ k ∈ ks, k ≤ 16) → ∀ s : S, (∀ i < 32, s.2.mem (lut i) = 0) →
      ∀ i < 32, (ks.foldl (fun s k => sec 64 (fun _ => []) (halfActs k) s) s).2.mem (lut i) = 0 := by
    intro ks
    induction ks with
    | nil => exact fun _ s h => h
    | cons k ks ih =>
      intro hk s hs
      rw [List.foldl_cons]
      refine ih (fun k' h => hk k' (List.mem_cons_of_mem _ h)) _ ?_
      refine seq_inv 64 (halfActs k) s (fun _ b => ∀ i < 32, b.mem (lut i) = 0) hs ?_
      intro t _ b hb i hi
      have hk16 := hk k (List.mem_cons_self ..)
      unfold thread halfActs
      dsimp only
      by_cases ht : t < k
      · rw [if_pos ht]
        have e1 := hb (t + k) (by omega)
        have e2 := hb t (by omega)
        simp only [alone, List.foldl_cons, List.foldl_nil, ld1, ld2, addSt, e1, e2, add_zero]
        by_cases e : i = t
        · subst e; simp
        · simp [e, hb i hi]
      · rw [if_neg ht]
        exact hb i hi
  have h3 := h2 [16, 8, 4, 2, 1] (by decide) s1 (fun i hi => h1.2 i (by omega) (Or.inl hi)) 0 (by omega)
  have hlast := sec_spec 64 (fun _ : Nat => [ld1 (lut 0)]) (fun _ _ => True) (fun _ _ => False)
    ([16, 8, 4, 2, 1].foldl (fun s k => sec 64 (fun _ => []) (halfActs k) s) s1) (fun _ => [])
    (by intro t _ x hx; rw [List.mem_singleton.1 hx]; exact local_ld1 trivial) (fun _ _ _ _ _ h => h.elim)
  rw [hlast.1 _ (by omega)]
  exact h3

/-- **C188 (independent threads, refuted).** With the default 32 threads and 60 bins, nothing orders the threads of the warp: if they are not in
lockstep, the first one adds up squares that the others have not stored yet. One contour point in bin 1 gives NaN in bin 0 instead of zero. -/
theorem lockstep_refuted (dbg : Bool) : ∃ f, launch dbg false true true 32 60 1 0 (fun _ => some 1) (fun _ => []) ⟨fun _ => 0, fun _ => (0, 0)⟩ = some f ∧
    f 0 = none := by
  refine ⟨_, by unfold launch; rw [if_pos ⟨by omega, by decide, by simp⟩], ?_⟩
  unfold block
  simp only [if_true]
  rw [if_pos]
  refine ⟨trivial, ?_⟩
  obtain ⟨hdesc, hlut⟩ := one_vote 32 60 (by omega) 1 (by omega) (fun _ => []) ⟨fun _ => 0, fun _ => (0, 0)⟩
  rw [show 32 * ceilDiv 60 32 = 64 from rfl] at hdesc
  generalize sec 32 (fun _ => []) (histActs 32 1 fun _ => some 1) (sec 32 (fun _ => []) (initActs 32 60 0) (0, ⟨fun _ => 0, fun _ => (0, 0)⟩)) = s at hdesc hlut ⊢
  unfold normSum
  rw [if_pos rfl, if_neg (by decide), instrs, if_neg (by simp)]
  set acts : Nat → List (Act Cell ℝ) := fun t => (squareActs 32 60 :: warpInstrs 60 ++ [(fun _ : Nat => [ld1 (lut 0)] : Nat → List (Act Cell ℝ))]).flatMap fun i => i t with hacts
  have h1 := seq_inv 32 acts s
    (fun T b => (T = 0 → (∀ i < 64, b.mem (desc i) = if i = 1 then 1 else 0) ∧ ∀ i, b.mem (lut i) = 0) ∧ (0 < T → (b.regs 0).1 = 0))
    ⟨fun _ => ⟨hdesc, hlut⟩, fun h => absurd h (by omega)⟩
    (by
      rintro t ht b ⟨hd, hr⟩
      refine ⟨fun h => absurd h (by omega), fun _ => ?_⟩
      by_cases h0 : t = 0
      · subst h0
        obtain ⟨hd, hl⟩ := hd rfl
        unfold thread
        dsimp only
        rw [Function.update_self]
        have e : acts 0 = squareActs 32 60 0 ++ (([32, 16, 8, 4, 2, 1].flatMap fun k => [ld1 (lut (0 + k)), ld2 (lut (0 + 0)), addSt (lut (0 + 0))]) ++
            [ld1 (lut 0)]) := rfl
        rw [e, alone_append, alone_append]
        have hsq := (square_alone 32 0 (List.range (ceilDiv 60 32)) (b.regs 0, b.mem)).2
        have hz : ∀ i, (alone (squareActs 32 60 0) (b.regs 0, b.mem)).2 (lut i) = 0 := by
          intro i
          refine (hsq i).trans ?_
          by_cases hex : ∃ j ∈ List.range (ceilDiv 60 32), i = 32 * j + 0
          · rw [if_pos hex]
            obtain ⟨j, hj, rfl⟩ := hex
            have hj : j < 2 := List.mem_range.1 hj
            have := hd (32 * j + 0) (by omega)
            rw [if_neg (by omega)] at this
            dsimp only
            rw [this, mul_zero]
          · rw [if_neg hex]
            exact hl i
        generalize alone (squareActs 32 60 0) (b.regs 0, b.mem) = x at hz
        exact add_zero_cells 0 [32, 16, 8, 4, 2, 1] x.1 x.2 hz 0
      · unfold thread
        dsimp only
        rw [Function.update_of_ne (Ne.symm h0)]
        exact hr (by omega))
  have h2 := h1.2 (by omega)
  rw [Nat.zero_mod]
  exact h2

/-! ## Concrete cases -/

/-- A cell of the mask at most at the outer radius, other than the centre, has a bin. -/
theorem near_bin (outer R A : Nat) (off : ℝ) (hR : 2 ≤ R) (m : LSS.Mask) (h : LSS.getLogPolarMask (outer * 2 + 1) R A true off = some m) (r c : Nat)
    (hr : r < outer * 2 + 1) (hc : c < outer * 2 + 1) (hne : ¬ (r = outer ∧ c = outer))
    (hd : ((outer : Int) - r) * ((outer : Int) - r) + ((outer : Int) - c) * ((outer : Int) - c) ≤ (outer : Int) * outer) :
    0 ≤ m.cell (r * (outer * 2 + 1) + c) := by
  unfold LSS.getLogPolarMask at h
  split at h
  swap
  · cases h
  simp only [if_true] at h
  injection h with h
  subst h
  have hk : r * (outer * 2 + 1) + c < (outer * 2 + 1) * (outer * 2 + 1) := by
    have : (r + 1) * (outer * 2 + 1) ≤ (outer * 2 + 1) * (outer * 2 + 1) := Nat.mul_le_mul_right _ hr
    have e : (r + 1) * (outer * 2 + 1) = r * (outer * 2 + 1) + (outer * 2 + 1) := by ring
    omega
  have e1 : (r * (outer * 2 + 1) + c) / (outer * 2 + 1) = r := by rw [mul_comm, Nat.mul_add_div (by omega), Nat.div_eq_of_lt hc, add_zero]
  have e2 : (r * (outer * 2 + 1) + c) % (outer * 2 + 1) = c := by rw [mul_comm, Nat.mul_add_mod, Nat.mod_eq_of_lt hc]
  rw [(LSS.scan_spec _ _).1, if_pos hk, e1, e2]
  unfold LSS.lienhartCell
  dsimp only
  have ector : (outer * 2 + 1 - 1) / 2 = outer := by omega
  rw [ector, if_neg hne, if_pos]
  · exact Int.natCast_nonneg _
  · have hlen : (LSS.ringDists (outer * 2 + 1) R off).length = R := by simp [LSS.ringDists]
    have hlast : (LSS.ringDists (outer * 2 + 1) R off)[R - 1]'(by rw [hlen]; omega) = (outer : ℝ) := by
      have hget : (LSS.ringDists (outer * 2 + 1) R off)[R - 1]'(by rw [hlen]; omega) =
          (((R : ℝ) ^ (1 / (R : ℝ))) ^ (R - 1 + 1) - 1) / ((R : ℝ) - 1) * (((outer * 2 + 1 - 1) / 2 : Nat) : ℝ) + if R - 1 = R - 1 then 0 else off := by
        simp [LSS.ringDists]
      have hR2 : (2 : ℝ) ≤ R := by exact_mod_cast hR
      rw [hget, if_pos rfl, add_zero, show R - 1 + 1 = R by omega, ector, ← Real.rpow_natCast, ← Real.rpow_mul (by positivity), one_div,
        inv_mul_cancel₀ (by positivity), Real.rpow_one, div_self (by linarith), one_mul]
    have := List.findIdx_lt_length_of_exists (xs := LSS.ringDists (outer * 2 + 1) R off)
      (p := fun d => decide (LSS.dist ((outer : Int) - r) ((outer : Int) - c) ≤ d)) ⟨_, List.getElem_mem (by rw [hlen]; omega : R - 1 < _), by
        rw [decide_eq_true_eq, hlast]
        unfold LSS.dist
        refine Real.sqrt_le_iff.2 ⟨by positivity, ?_⟩
        have : (((outer : Int) - r) * ((outer : Int) - r) + ((outer : Int) - c) * ((outer : Int) - c) : Int) ≤ (outer : Int) * outer := hd
        have h2 : ((((outer : Int) - r) * ((outer : Int) - r) + ((outer : Int) - c) * ((outer : Int) - c) : Int) : ℝ) ≤ (((outer : Int) * outer : Int) : ℝ) := by
          exact_mod_cast this
        refine h2.trans (le_of_eq ?_)
        rw [pow_two]
        push_cast
        rfl⟩
    rw [hlen] at this
    exact this

/-- A contour point to the right of a key point has a bin. -/
theorem sees (c : SC.Cfg) (hrel : c.relative = false) (hrot : c.rot = false) (hv : c.Valid) (hR : 2 ≤ c.R) (outer : Nat) (ho : 0 < outer) (keys contour : List ℂ)
    (k p : ℂ) (h1 : SC.cround (p.re - k.re) = 1) (h2 : SC.cround (p.im - k.im) = 0) : ∃ b < c.R * c.A, SC.binOf c outer keys contour k p = some b := by
  obtain ⟨m, hm⟩ := LSS.mask_defined (outer * 2 + 1) c.R c.A true c.inner (by omega) hv.rad hv.ang hv.inner.le (Or.inl rfl)
  have hproper := LSS.mask_proper _ _ _ _ _ _ hm (Or.inl rfl)
  have hge := near_bin outer c.R c.A c.inner hR m hm outer (outer + 1) (by omega) (by omega) (by omega) (by
    have : (1 : Int) ≤ (outer : Int) * outer := by
      have : 1 * 1 ≤ outer * outer := Nat.mul_le_mul ho ho
      exact_mod_cast this
    push_cast
    ring_nf
    ring_nf at this
    omega)
  have hlt : outer * (outer * 2 + 1) + (outer + 1) < (outer * 2 + 1) * (outer * 2 + 1) := by
    have : (outer + 1) * (outer * 2 + 1) ≤ (outer * 2 + 1) * (outer * 2 + 1) := Nat.mul_le_mul_right _ (by omega)
    have e : (outer + 1) * (outer * 2 + 1) = outer * (outer * 2 + 1) + (outer * 2 + 1) := by ring
    omega
  refine ⟨(m.cell (outer * (outer * 2 + 1) + (outer + 1))).toNat, ?_, ?_⟩
  · rcases hproper.bins _ hlt with h | h <;> omega
  · unfold SC.binOf
    rw [if_pos (by simp [hrel, hrot]), hm]
    show SC.lookBin m outer k p = _
    unfold SC.lookBin
    dsimp only
    rw [h1, h2]
    have e : ((0 + (outer : Int)) * (2 * (outer : Int) + 1) + (1 + (outer : Int))).toNat = outer * (outer * 2 + 1) + (outer + 1) := by
      have : (0 + (outer : Int)) * (2 * (outer : Int) + 1) + (1 + (outer : Int)) = ((outer * (outer * 2 + 1) + (outer + 1) : Nat) : Int) := by
        push_cast; ring
      rw [this, Int.toNat_natCast]
    rw [e, if_neg (by omega)]

/-- **C188 (rounding, refuted).** The CPU version rounds halves away from zero, the GPU version to even. For a key point at (1/2, 0) and a contour
point at (1, 0), the CPU version counts the contour point, the GPU version takes it for the key point itself. -/
theorem rounding_refuted (outer R A : Nat) (off : ℝ) (hR : 2 ≤ R) (ho : 0 < outer) (m : LSS.Mask) (h : LSS.getLogPolarMask (outer * 2 + 1) R A true off = some m) :
    lookBin m outer ⟨1 / 2, 0⟩ ⟨1, 0⟩ = none ∧ SC.lookBin m outer ⟨1 / 2, 0⟩ ⟨1, 0⟩ ≠ none := by
  have hproper := LSS.mask_proper _ _ _ _ _ _ h (Or.inl rfl)
  constructor
  · unfold lookBin
    dsimp only
    have e1 : rint ((0 : ℝ) - 0) = 0 := by
      have := rint_int 0
      simpa using this
    have e2 : rint ((1 : ℝ) - 1 / 2) = 0 := by
      have hf : ⌊(1 : ℝ) - 1 / 2⌋ = 0 := by rw [Int.floor_eq_iff]; norm_num
      unfold rint
      rw [hf]
      norm_num
    rw [e1, e2]
    have hc := hproper.centre
    have e : ((0 + (outer : Int)) * (2 * (outer : Int) + 1) + (0 + (outer : Int))).toNat = (outer * 2 + 1) / 2 * (outer * 2 + 1) + (outer * 2 + 1) / 2 := by
      have h2 : (outer * 2 + 1) / 2 = outer := by omega
      rw [h2]
      have : (0 + (outer : Int)) * (2 * (outer : Int) + 1) + (0 + (outer : Int)) = ((outer * (outer * 2 + 1) + outer : Nat) : Int) := by
        push_cast; ring
      rw [this, Int.toNat_natCast]
    rw [e, hc, if_neg (show ¬ ((0 : Int) ≤ -1) by decide), ite_self]
  · have hcond := h
    unfold LSS.getLogPolarMask at hcond
    split at hcond
    swap
    · cases hcond
    rename_i hh
    obtain ⟨_, _, hR', hA', _, _⟩ := hh
    have hge := near_bin outer R A off hR m h outer (outer + 1) (by omega) (by omega) (by omega) (by
      have : (1 : Int) ≤ (outer : Int) * outer := by
        have : 1 * 1 ≤ outer * outer := Nat.mul_le_mul ho ho
        exact_mod_cast this
      push_cast
      ring_nf
      ring_nf at this
      omega)
    unfold SC.lookBin
    dsimp only
    have e1 : SC.cround ((0 : ℝ) - 0) = 0 := by
      have := SC.cround_int 0
      simpa using this
    have e2 : SC.cround ((1 : ℝ) - 1 / 2) = 1 := by
      unfold SC.cround
      rw [if_pos (by norm_num), Int.floor_eq_iff]
      norm_num
    rw [e1, e2]
    have e : ((0 + (outer : Int)) * (2 * (outer : Int) + 1) + (1 + (outer : Int))).toNat = outer * (outer * 2 + 1) + (outer + 1) := by
      have : (0 + (outer : Int)) * (2 * (outer : Int) + 1) + (1 + (outer : Int)) = ((outer * (outer * 2 + 1) + (outer + 1) : Nat) : Int) := by
        push_cast; ring
      rw [this, Int.toNat_natCast]
    rw [e, if_neg (by omega)]
    simp

/-- **C188 (default block size).** An extractor whose block size was never set launches blocks for which the kernel is right, unless it
normalizes more than 32 bins and the threads of a warp are not in lockstep; block sizes that were set are whole warps. -/
theorem default_block (c : SC.Cfg) (e : Exec) (h : c.normalize = false ∨ c.R * c.A ≤ 32 ∨ e.lock = true) :
    Works c (threads 0) e ∧ (∀ n b, setBlockSize n = some b → b = n ∧ ∃ k, 0 < k ∧ threads b = 32 * k) ∧
    ∀ k, setBlockSize (32 * k) = some (32 * k) := by
  refine ⟨?_, ?_, ?_⟩
  · rcases h with h | h
    · refine Or.inl ⟨h, by decide, by decide, ?_⟩
      show ceilDiv (c.R * c.A) 32 * 32 ≤ _
      omega
    · exact Or.inr ⟨rfl, h⟩
  · intro n b hb
    unfold setBlockSize at hb
    by_cases hn : n % 32 = 0
    · rw [if_pos hn, Option.some.injEq] at hb
      subst hb
      refine ⟨rfl, ?_⟩
      unfold threads
      by_cases h0 : n = 0
      · exact ⟨1, by omega, by rw [if_pos h0]⟩
      · exact ⟨n / 32, by omega, by rw [if_neg h0]; omega⟩
    · rw [if_neg hn] at hb; cases hb
  · intro k
    unfold setBlockSize
    rw [if_pos (by omega)]

example : ∃ m, LSS.getLogPolarMask (10 * 2 + 1) 5 12 true 2 = some m :=
  LSS.mask_defined _ _ _ _ _ (by omega) (by omega) (by omega) (by norm_num) (Or.inl rfl)

noncomputable def demoC (norm : Bool) : SC.Cfg := ⟨12, 5, 2, 10, false, false, norm, false⟩

theorem demoC_valid (norm : Bool) : (demoC norm).Valid :=
  ⟨by simp [demoC], by simp [demoC], by simp [demoC], by simp [demoC]; norm_num⟩

/-- Any schedule and memory, threads of a warp in lockstep. -/
example (dbg : Bool) (sched mem) (keys : List ℂ) :
    (∀ p ∈ [(⟨1, 0⟩ : ℂ)], Pixel p) ∧ (∀ k ∈ [(⟨0, 0⟩ : ℂ)], Pixel k ∧ SC.Inside 2 2 k) ∧ Works (demoC true) (threads 0) ⟨true, sched, mem⟩ ∧
    ∃ b < 60, cpuRaw (demoC true) 10 (fun _ _ => true) 2 2 (fun r q => r == 0 && q == 1) keys [⟨1, 0⟩] ⟨0, 0⟩ b ≠ 0 := by
  refine ⟨?_, ?_, Or.inr ⟨rfl, Or.inr rfl⟩, ?_⟩
  · intro p hp
    rw [List.mem_singleton.1 hp]
    exact ⟨1, 0, by simp⟩
  · intro k hk
    rw [List.mem_singleton.1 hk]
    have := cround_nat 0
    rw [Nat.cast_zero] at this
    exact ⟨⟨0, 0, by simp⟩, by simp [SC.Inside, this]⟩
  · have e0 := cround_nat 0
    have e1 := cround_nat 1
    rw [Nat.cast_zero] at e0
    rw [Nat.cast_one] at e1
    obtain ⟨b, hb, h⟩ := sees (demoC true) rfl rfl (demoC_valid true) (by simp [demoC]) 10 (by omega) keys [⟨1, 0⟩] ⟨0, 0⟩ ⟨1, 0⟩
      (by simpa using e1) (by simpa using e0)
    refine ⟨b, hb, ?_⟩
    unfold cpuRaw
    simp only [e0]
    have hs : SC.skipped (demoC true) (fun _ _ => true) 2 2 (fun r q => r == 0 && q == 1) ((0 : Nat) : Int) ((0 : Nat) : Int) = false := by
      simp [SC.skipped, SC.farFrom, demoC]
    rw [if_neg (by rw [hs]; simp), SC.accum_count]
    have : SC.initVal (demoC true) = 0 := by simp [SC.initVal, demoC]
    rw [this, List.filter_cons, if_pos (by simpa using h)]
    simp

/-- Without normalization, two warps work as well. -/
example (sched mem lock) : Works (demoC false) 64 ⟨lock, sched, mem⟩ := Or.inl ⟨rfl, by omega, by omega, by decide⟩

/-- A map with a key point at the origin; the pixel above the contour point is not one. -/
example : SC.farFrom (fun _ _ => true) 2 2 (fun r q => r == 0 && q == 1) (1 : Nat) (0 : Nat) = false ∧ ¬ SC.At (1 : Nat) (0 : Nat) ⟨0, 0⟩ ∧
    ∃ b < 60, SC.binOf (demoC false) 10 [⟨0, 0⟩] [⟨1, 1⟩] ⟨((0 : Nat) : ℝ), ((1 : Nat) : ℝ)⟩ ⟨1, 1⟩ = some b := by
  have e0 := cround_nat 0
  have e1 := cround_nat 1
  rw [Nat.cast_zero] at e0
  rw [Nat.cast_one] at e1
  refine ⟨by decide, by simp [SC.At, e0], ?_⟩
  exact sees (demoC false) rfl rfl (demoC_valid false) (by simp [demoC]) 10 (by omega) _ _ _ _ (by simpa using e1) (by simpa using e0)

/-- An image without contours. -/
example : SC.farFrom (fun _ _ => true) 2 2 (fun _ _ => false) (1 : Nat) (0 : Nat) = true := by decide

end Litiv.CudaSC
