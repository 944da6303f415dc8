import Verif.Lemmas.SlicRun
import Mathlib.Algebra.BigOperators.Field
import Mathlib.Algebra.Order.BigOperators.Ring.Finset
import Mathlib.Analysis.SpecialFunctions.Pow.NNReal

/-! Helper lemmas about the preparation and the iterations of superpixels. -/
namespace Litiv.Slic

/-! ## Preparation -/

theorem fold_lab (l : Launch) (g : Geo) (img : Nat → Nat → Nat × Nat × Nat) : ∀ (ts : List Thread) (dev : Dev),
    (ts.foldl (fun d t => labThread l g img t d) dev).clusters = dev.clusters ∧
    (ts.foldl (fun d t => labThread l g img t d) dev).labels = dev.labels ∧
    (ts.foldl (fun d t => labThread l g img t d) dev).acc = dev.acc ∧
    ∀ x y, x < g.width → y < g.height →
      ((dev.lab x y = toLab (img x y).1 (img x y).2.1 (img x y).2.2 ∨
        ∃ t ∈ ts, t.ix * l.bx + t.tx = x ∧ t.iy * l.by' + t.ty = y) →
        (ts.foldl (fun d t => labThread l g img t d) dev).lab x y = toLab (img x y).1 (img x y).2.1 (img x y).2.2)
  | [], dev => ⟨rfl, rfl, rfl, fun x y _ _ h => by
      rcases h with h | ⟨t, ht, _⟩
      · exact h
      · cases ht⟩
  | t :: ts, dev => by
    rw [List.foldl_cons]
    obtain ⟨h1, h2, h3, h4⟩ := fold_lab l g img ts (labThread l g img t dev)
    have e : (labThread l g img t dev).clusters = dev.clusters ∧ (labThread l g img t dev).labels = dev.labels ∧
        (labThread l g img t dev).acc = dev.acc := by
      unfold labThread; dsimp only; split <;> exact ⟨rfl, rfl, rfl⟩
    refine ⟨h1.trans e.1, h2.trans e.2.1, h3.trans e.2.2, fun x y hx hy h => h4 x y hx hy ?_⟩
    by_cases ht : t.ix * l.bx + t.tx = x ∧ t.iy * l.by' + t.ty = y
    · left
      unfold labThread
      dsimp only
      rw [ht.1, ht.2, if_pos ⟨hx, hy⟩]
      simp
    · rcases h with h | ⟨t', ht', he⟩
      · left
        unfold labThread
        dsimp only
        split
        · dsimp only
          rw [if_neg]
          · exact h
          · rintro ⟨rfl, rfl⟩; exact ht ⟨rfl, rfl⟩
        · exact h
      · rcases List.mem_cons.1 ht' with rfl | ht'
        · exact absurd he ht
        · exact Or.inr ⟨t', ht', he⟩

/-- The column of the first centre of a cluster. -/
def startX (g : Geo) (k : Nat) : Nat := min (k % g.perRow * g.diam + g.diam / 2) (g.width - 1)

/-- The row of the first centre of a cluster. -/
def startY (g : Geo) (k : Nat) : Nat := min (k / g.perRow * g.diam + g.diam / 2) (g.height - 1)

theorem fold_init (l : Launch) {g : Geo} (ok : g.Ok) : ∀ (ts : List Thread) (dev : Dev),
    (ts.foldl (fun d t => initThread l g t d) dev).lab = dev.lab ∧
    (ts.foldl (fun d t => initThread l g t d) dev).labels = dev.labels ∧
    (ts.foldl (fun d t => initThread l g t d) dev).acc = dev.acc ∧
    ∀ k < g.nbSpx,
      (centre g dev k = pixel dev (startX g k) (startY g k) ∨ ∃ t ∈ ts, t.ix * l.bx + t.tx = k) →
      centre g (ts.foldl (fun d t => initThread l g t d) dev) k = pixel dev (startX g k) (startY g k)
  | [], dev => ⟨rfl, rfl, rfl, fun k _ h => by
      rcases h with h | ⟨t, ht, _⟩
      · exact h
      · cases ht⟩
  | t :: ts, dev => by
    rw [List.foldl_cons]
    obtain ⟨h1, h2, h3, h4⟩ := fold_init l ok ts (initThread l g t dev)
    have e : (initThread l g t dev).lab = dev.lab ∧ (initThread l g t dev).labels = dev.labels ∧
        (initThread l g t dev).acc = dev.acc := by
      unfold initThread; dsimp only; split <;> exact ⟨rfl, rfl, rfl⟩
    have ep : ∀ x y, pixel (initThread l g t dev) x y = pixel dev x y := by
      intro x y; unfold pixel; rw [e.1]
    refine ⟨h1.trans e.1, h2.trans e.2.1, h3.trans e.2.2, fun k hk h => ?_⟩
    rw [h4 k hk ?_, ep]
    rw [ep]
    have hn : g.perCol * g.perRow = g.nbSpx := by rw [ok.nb, Nat.mul_comm]
    by_cases ht : t.ix * l.bx + t.tx = k
    · left
      unfold initThread centre
      dsimp only
      rw [ht, hn, if_pos hk]
      dsimp only
      rw [if_neg (by omega), if_neg (by omega), if_neg (by omega), if_neg (by omega), if_pos rfl,
        if_neg (by omega), if_neg (by omega), if_neg (by omega), if_pos rfl,
        if_neg (by omega), if_neg (by omega), if_pos rfl, if_neg (by omega), if_pos rfl, if_pos rfl]
      rfl
    · rcases h with h | ⟨t', ht', he⟩
      · left
        rw [← h]
        unfold initThread centre
        dsimp only
        rw [hn]
        generalize t.ix * l.bx + t.tx = k' at *
        split
        · dsimp only
          rw [if_neg (by omega), if_neg (by omega), if_neg (by omega), if_neg (by omega), if_neg (by omega),
            if_neg (by omega), if_neg (by omega), if_neg (by omega), if_neg (by omega), if_neg (by omega),
            if_neg (by omega), if_neg (by omega), if_neg (by omega), if_neg (by omega), if_neg (by omega),
            if_neg (by omega), if_neg (by omega), if_neg (by omega), if_neg (by omega), if_neg (by omega),
            if_neg (by omega), if_neg (by omega), if_neg (by omega), if_neg (by omega), if_neg (by omega)]
        · rfl
      · rcases List.mem_cons.1 ht' with rfl | ht'
        · exact absurd he ht
        · exact Or.inr ⟨t', ht', he⟩

theorem prepare_spec {g : Geo} (ok : g.Ok) (s : Sched) (img : Nat → Nat → Nat × Nat × Nat) (dev : Dev) :
    ∃ dev', prepare s g img dev = some dev' ∧ dev'.labels = dev.labels ∧ dev'.acc = dev.acc ∧
      (∀ x < g.width, ∀ y < g.height, dev'.lab x y = toLab (img x y).1 (img x y).2.1 (img x y).2.2) ∧
      ∀ k < g.nbSpx, centre g dev' k = pixel dev' (startX g k) (startY g k) := by
  obtain ⟨a, ha, ha1, _⟩ := iDivUp_some (a := g.width) (b := 16) (by omega)
  obtain ⟨b, hb, hb1, _⟩ := iDivUp_some (a := g.height) (b := 16) (by omega)
  obtain ⟨c, hc, hc1, _⟩ := iDivUp_some (a := g.nbSpx) (b := 16) (by omega)
  unfold prepare labLaunch initLaunch
  rw [ha, hb, hc]
  simp only [Option.bind_some]
  have hp1 := s.thr_perm (Launch.threads ⟨a, b, 1, 16, 16⟩)
  have hp2 := s.thr_perm (Launch.threads ⟨c, 1, 1, 16, 1⟩)
  obtain ⟨h1, h2, h3, h4⟩ := fold_lab ⟨a, b, 1, 16, 16⟩ g img (s.thr (Launch.threads ⟨a, b, 1, 16, 16⟩)) dev
  generalize List.foldl (fun d t => labThread ⟨a, b, 1, 16, 16⟩ g img t d) dev (s.thr (Launch.threads ⟨a, b, 1, 16, 16⟩)) = dev1 at *
  obtain ⟨i1, i2, i3, i4⟩ := fold_init ⟨c, 1, 1, 16, 1⟩ ok (s.thr (Launch.threads ⟨c, 1, 1, 16, 1⟩)) dev1
  refine ⟨_, rfl, i2.trans h2, i3.trans h3, fun x hx y hy => ?_, fun k hk => ?_⟩
  · rw [i1]
    refine h4 x y hx hy (Or.inr ⟨⟨x / 16, y / 16, 0, x % 16, y % 16⟩, hp1.mem_iff.2 ?_, by simp only; omega, by simp only; omega⟩)
    rw [mem_threads]
    simp only
    omega
  · rw [i4 k hk]
    · unfold pixel; rw [i1]
    · right
      obtain ⟨t, ht, hk'⟩ := flat_cover (l := ⟨c, 1, 1, 16, 1⟩) rfl rfl rfl (lt_of_lt_of_le hk hc1)
      exact ⟨t, hp2.mem_iff.2 ht, hk'.symm⟩

/-! ## Colours -/

theorem cbrt_eq {v : ℝ} (h : 0 < v) : cbrt v = v ^ (1 / 3 : ℝ) := by
  unfold cbrt
  rw [if_neg h.ne', Real.rpow_def_of_pos h]
  congr 1
  ring

theorem cbrt_nonneg (v : ℝ) : 0 ≤ cbrt v := by
  unfold cbrt; split
  · exact le_refl _
  · exact (Real.exp_pos _).le

theorem cbrt_le_one {v : ℝ} (h0 : 0 ≤ v) (h1 : v ≤ 1) : cbrt v ≤ 1 := by
  rcases h0.eq_or_lt with rfl | h0
  · unfold cbrt; rw [if_pos rfl]; norm_num
  · rw [cbrt_eq h0]; exact Real.rpow_le_one h0.le h1 (by norm_num)

theorem cbrt_ge {v : ℝ} (h0 : 0 < v) (h1 : v ≤ 1) : v ≤ cbrt v := by
  rw [cbrt_eq h0]
  calc v = v ^ (1 : ℝ) := (Real.rpow_one v).symm
    _ ≤ v ^ (1 / 3 : ℝ) := Real.rpow_le_rpow_of_exponent_ge h0 h1 (by norm_num)

/-- Bounds on colours. -/
def LabOk (l a b : ℝ) : Prop := -16 ≤ l ∧ l ≤ 100 ∧ |a| ≤ 500 ∧ |b| ≤ 200

/-- The relative values are between zero and one. -/
theorem cie_unit {b g r : Nat} (hb : b ≤ 255) (hg : g ≤ 255) (hr : r ≤ 255) :
    (0 ≤ cieX b g r ∧ cieX b g r ≤ 1) ∧ (0 ≤ cieY b g r ∧ cieY b g r ≤ 1) ∧ (0 ≤ cieZ b g r ∧ cieZ b g r ≤ 1) := by
  have hb' : (b : ℝ) ≤ 255 := by exact_mod_cast hb
  have hg' : (g : ℝ) ≤ 255 := by exact_mod_cast hg
  have hr' : (r : ℝ) ≤ 255 := by exact_mod_cast hr
  have hb0 : (0 : ℝ) ≤ b := Nat.cast_nonneg _
  have hg0 : (0 : ℝ) ≤ g := Nat.cast_nonneg _
  have hr0 : (0 : ℝ) ≤ r := Nat.cast_nonneg _
  unfold cieX cieY cieZ
  refine ⟨⟨by positivity, ?_⟩, ⟨by positivity, ?_⟩, ⟨by positivity, ?_⟩⟩
  · rw [div_le_one (by norm_num)]; linarith
  · linarith
  · rw [div_le_one (by norm_num)]; linarith

/-- The response used by the code for the first two coordinates. -/
noncomputable def resp (v : ℝ) : ℝ := if v > 8856 / 1000000 then cbrt v else 7787 / 1000 * v + 13793 / 100000

/-- The response used by the code for the third coordinate. -/
noncomputable def resp3 (v : ℝ) : ℝ := if v > 8856 / 1000000 then v / cbrt v else 7787 / 1000 * v + 13793 / 100000

theorem resp_bounds {v : ℝ} (h0 : 0 ≤ v) (h1 : v ≤ 1) : 8856 / 1000000 < resp v ∧ resp v ≤ 1 := by
  unfold resp
  split
  · rename_i h
    exact ⟨lt_of_lt_of_le h (cbrt_ge (lt_trans (by norm_num) h) h1), cbrt_le_one h0 h1⟩
  · rename_i h
    rw [gt_iff_lt, not_lt] at h
    constructor <;> linarith

theorem resp3_bounds {v : ℝ} (h0 : 0 ≤ v) (h1 : v ≤ 1) : 0 ≤ resp3 v ∧ resp3 v ≤ 1 := by
  unfold resp3
  split
  · rename_i h
    have hv : 0 < v := lt_trans (by norm_num) h
    have hc : 0 < cbrt v := lt_of_lt_of_le hv (cbrt_ge hv h1)
    exact ⟨by positivity, (div_le_one hc).2 (cbrt_ge hv h1)⟩
  · rename_i h
    rw [gt_iff_lt, not_lt] at h
    constructor <;> linarith

theorem toLab_eq {b g r : Nat} (hb : b ≤ 255) (hg : g ≤ 255) (hr : r ≤ 255) :
    toLab b g r = ⟨116 * cbrt (cieY b g r) - 16, (resp (cieX b g r) - resp (cieY b g r)) * 500,
      (resp (cieY b g r) - resp3 (cieZ b g r)) * 200⟩ := by
  have hY : ((r : ℝ) / 255 * (212671 / 1000000) + (g : ℝ) / 255 * (715160 / 1000000) + (b : ℝ) / 255 * (72169 / 1000000)) = cieY b g r := by
    unfold cieY; ring
  have hX : ((r : ℝ) / 255 * (412453 / 1000000) + (g : ℝ) / 255 * (357580 / 1000000) + (b : ℝ) / 255 * (180423 / 1000000)) / (950456 / 1000000) = cieX b g r := by
    unfold cieX; ring
  have hZ : ((r : ℝ) / 255 * (19334 / 1000000) + (g : ℝ) / 255 * (119193 / 1000000) + (b : ℝ) / 255 * (950227 / 1000000)) / (1088754 / 1000000) = cieZ b g r := by
    unfold cieZ; ring
  obtain ⟨-, ⟨y0, y1⟩, -⟩ := cie_unit hb hg hr
  unfold toLab
  dsimp only
  rw [hX, hY, hZ]
  have hr := (resp_bounds y0 y1).1
  unfold resp at hr
  rw [if_pos hr]
  rfl

theorem toLab_ok {b g r : Nat} (hb : b ≤ 255) (hg : g ≤ 255) (hr : r ≤ 255) :
    LabOk (toLab b g r).l (toLab b g r).a (toLab b g r).b := by
  rw [toLab_eq hb hg hr]
  obtain ⟨⟨x0, x1⟩, ⟨y0, y1⟩, ⟨z0, z1⟩⟩ := cie_unit hb hg hr
  have a1 := resp_bounds x0 x1
  have a2 := resp_bounds y0 y1
  have a3 := resp3_bounds z0 z1
  have a4 := cbrt_nonneg (cieY b g r)
  have a5 := cbrt_le_one y0 y1
  refine ⟨by simp only; linarith, by simp only; linarith, ?_, ?_⟩
  · simp only; rw [abs_le]; constructor <;> linarith
  · simp only; rw [abs_le]; constructor <;> linarith

/-! ## The invariant of the iterations -/

/-- Colours are bounded, and centres are in or next to their cells. -/
structure Good (g : Geo) (dev : Dev) : Prop where
  lab : ∀ x < g.width, ∀ y < g.height, LabOk (dev.lab x y).l (dev.lab x y).a (dev.lab x y).b
  col : ∀ k < g.nbSpx, LabOk (centre g dev k).l (centre g dev k).a (centre g dev k).b
  posX : ∀ k < g.nbSpx, 0 ≤ (centre g dev k).x ∧ (((k % g.perRow : Nat) : ℝ) - 1) * g.diam ≤ (centre g dev k).x ∧
    (centre g dev k).x < (((k % g.perRow : Nat) : ℝ) + 2) * g.diam
  posY : ∀ k < g.nbSpx, 0 ≤ (centre g dev k).y ∧ (((k / g.perRow : Nat) : ℝ) - 1) * g.diam ≤ (centre g dev k).y ∧
    (centre g dev k).y < (((k / g.perRow : Nat) : ℝ) + 2) * g.diam

theorem cell_bounds {d x : Nat} (hd : 0 < d) : ((x / d : Nat) : ℝ) * d ≤ x ∧ (x : ℝ) < (((x / d : Nat) : ℝ) + 1) * d := by
  have h1 : x / d * d ≤ x := Nat.div_mul_le_self x d
  have h2 : x < (x / d + 1) * d := by
    have := Nat.lt_mul_div_succ x hd
    rw [Nat.mul_comm] at this; exact this
  exact ⟨by exact_mod_cast h1, by exact_mod_cast h2⟩

theorem sq_le_of_abs {a c : ℝ} (h : |a| ≤ c) : a ^ 2 ≤ c ^ 2 := by
  rw [← sq_abs]; exact pow_le_pow_left₀ (abs_nonneg _) h 2

theorem good_dist {g : Geo} (ok : g.Ok) {wc : ℝ} (hw : |wc| ≤ 20000) {dev : Dev} (hg : Good g dev) {x y k : Nat}
    (hx : x < g.width) (hy : y < g.height) (hk : Near g x y k) :
    Real.sqrt (sqDist g.diam wc (pixel dev x y) (centre g dev k)) < 100000 := by
  rw [Real.sqrt_lt' (by norm_num)]
  obtain ⟨l1, l2, l3, l4⟩ := hg.lab x hx y hy
  obtain ⟨c1, c2, c3, c4⟩ := hg.col k hk.1
  obtain ⟨-, p2, p3⟩ := hg.posX k hk.1
  obtain ⟨-, q2, q3⟩ := hg.posY k hk.1
  obtain ⟨-, n1, n2, n3, n4⟩ := hk
  have hd : (0 : ℝ) < g.diam := by exact_mod_cast ok.diam_pos
  obtain ⟨u1, u2⟩ := cell_bounds (x := x) ok.diam_pos
  obtain ⟨v1, v2⟩ := cell_bounds (x := y) ok.diam_pos
  have n1' : ((k % g.perRow : Nat) : ℝ) ≤ ((x / g.diam : Nat) : ℝ) + 1 := by exact_mod_cast n1
  have n2' : ((x / g.diam : Nat) : ℝ) ≤ ((k % g.perRow : Nat) : ℝ) + 1 := by exact_mod_cast n2
  have n3' : ((k / g.perRow : Nat) : ℝ) ≤ ((y / g.diam : Nat) : ℝ) + 1 := by exact_mod_cast n3
  have n4' : ((y / g.diam : Nat) : ℝ) ≤ ((k / g.perRow : Nat) : ℝ) + 1 := by exact_mod_cast n4
  have dx : |(x : ℝ) - (centre g dev k).x| ≤ 3 * g.diam := by
    rw [abs_le]
    have e1 := mul_le_mul_of_nonneg_right n1' hd.le
    have e2 := mul_le_mul_of_nonneg_right n2' hd.le
    constructor <;> nlinarith
  have dy : |(y : ℝ) - (centre g dev k).y| ≤ 3 * g.diam := by
    rw [abs_le]
    have e1 := mul_le_mul_of_nonneg_right n3' hd.le
    have e2 := mul_le_mul_of_nonneg_right n4' hd.le
    constructor <;> nlinarith
  have dx2 := sq_le_of_abs dx
  have dy2 := sq_le_of_abs dy
  have hw2 : wc ^ 2 ≤ 20000 ^ 2 := sq_le_of_abs hw
  have dl : ((dev.lab x y).l - (centre g dev k).l) ^ 2 ≤ 116 ^ 2 := sq_le_of_abs (by rw [abs_le]; constructor <;> linarith)
  have da : ((dev.lab x y).a - (centre g dev k).a) ^ 2 ≤ 1000 ^ 2 := sq_le_of_abs (by
    rw [abs_le] at *; constructor <;> linarith)
  have db : ((dev.lab x y).b - (centre g dev k).b) ^ 2 ≤ 400 ^ 2 := sq_le_of_abs (by
    rw [abs_le] at *; constructor <;> linarith)
  have pos : wc ^ 2 * (((x : ℝ) - (centre g dev k).x) ^ 2 + ((y : ℝ) - (centre g dev k).y) ^ 2) / (g.diam : ℝ) ^ 2 ≤ 20000 ^ 2 * 18 := by
    rw [div_le_iff₀ (by positivity)]
    calc wc ^ 2 * (((x : ℝ) - (centre g dev k).x) ^ 2 + ((y : ℝ) - (centre g dev k).y) ^ 2)
        ≤ 20000 ^ 2 * ((3 * g.diam) ^ 2 + (3 * g.diam) ^ 2) := by
          apply mul_le_mul hw2 (by linarith) (by positivity) (by norm_num)
      _ = 20000 ^ 2 * 18 * (g.diam : ℝ) ^ 2 := by ring
  unfold sqDist pixel
  dsimp only
  linarith

theorem good_label {g : Geo} (ok : g.Ok) {wc : ℝ} (hw : |wc| ≤ 20000) {dev : Dev} (hg : Good g dev) {x y : Nat}
    (hx : x < g.width) (hy : y < g.height) : ∃ k : Nat, labelOf g wc dev x y = k ∧ Nearest g wc dev x y k := by
  rcases search_nearest ok (wc := wc) (dev := dev) (x := x) (y := y)
    (fun k hk => by have := (hg.posX k hk).1; linarith) with ⟨_, h⟩ | h
  · exfalso
    have hr : 0 < g.perRow := lt_of_le_of_lt (Nat.zero_le _) (cell_lt ok hx)
    have hcx := cell_lt ok hx
    have hcy := cell_lt' ok hy
    have e1 : (y / g.diam * g.perRow + x / g.diam) % g.perRow = x / g.diam := by
      rw [Nat.mul_comm, Nat.mul_add_mod, Nat.mod_eq_of_lt hcx]
    have e2 : (y / g.diam * g.perRow + x / g.diam) / g.perRow = y / g.diam := by
      rw [Nat.mul_comm, Nat.mul_add_div hr, Nat.div_eq_of_lt hcx]; omega
    have hn : Near g x y (y / g.diam * g.perRow + x / g.diam) := by
      refine ⟨?_, by rw [e1]; omega, by rw [e1]; omega, by rw [e2]; omega, by rw [e2]; omega⟩
      rw [ok.nb, Nat.mul_comm g.perRow]
      have := Nat.mul_le_mul_right g.perRow (show y / g.diam + 1 ≤ g.perCol by omega)
      rw [Nat.add_mul] at this
      omega
    exact absurd (h _ hn) (not_le.2 (good_dist ok hw hg hx hy hn))
  · exact h

/-- Bounds on a mean. -/
theorem mean_bounds {s : Finset (Nat × Nat)} (hs : s.Nonempty) (f : Nat × Nat → ℝ) {lo : ℝ} (h : ∀ p ∈ s, lo ≤ f p) :
    lo ≤ (∑ p ∈ s, f p) / s.card := by
  have hc : (0 : ℝ) < s.card := by exact_mod_cast hs.card_pos
  rw [le_div_iff₀ hc, mul_comm, ← nsmul_eq_mul]
  exact Finset.card_nsmul_le_sum s f lo h

theorem mean_bounds' {s : Finset (Nat × Nat)} (hs : s.Nonempty) (f : Nat × Nat → ℝ) {hi : ℝ} (h : ∀ p ∈ s, f p ≤ hi) :
    (∑ p ∈ s, f p) / s.card ≤ hi := by
  have hc : (0 : ℝ) < s.card := by exact_mod_cast hs.card_pos
  rw [div_le_iff₀ hc, mul_comm, ← nsmul_eq_mul]
  exact Finset.sum_le_card_nsmul s f hi h

theorem mean_bounds_lt {s : Finset (Nat × Nat)} (hs : s.Nonempty) (f : Nat × Nat → ℝ) {hi : ℝ} (h : ∀ p ∈ s, f p < hi) :
    (∑ p ∈ s, f p) / s.card < hi := by
  have hc : (0 : ℝ) < s.card := by exact_mod_cast hs.card_pos
  rw [div_lt_iff₀ hc, mul_comm, ← nsmul_eq_mul, ← Finset.sum_const]
  exact Finset.sum_lt_sum_of_nonempty hs h

/-- One iteration. -/
noncomputable def step (s : Nat → Sched) (m : Nat) (g : Geo) (wc : ℝ) (i : Nat) (dev : Dev) : Option Dev :=
  (assignment (s (2 * i)) m g wc dev).bind fun dev => update (s (2 * i + 1)) m g dev

theorem iterate_eq (s : Nat → Sched) (m : Nat) (g : Geo) (wc : ℝ) (i t : Nat) (dev : Dev) :
    iterate s m g wc i (t + 1) dev = (step s m g wc i dev).bind (iterate s m g wc (i + 1) t) := by
  conv_lhs => unfold iterate
  unfold step
  rw [Option.bind_assoc]

theorem iterate_last (s : Nat → Sched) (m : Nat) (g : Geo) (wc : ℝ) : ∀ (t i : Nat) (dev : Dev),
    iterate s m g wc i (t + 1) dev = (iterate s m g wc i t dev).bind (step s m g wc (i + t))
  | 0, i, dev => by
    rw [iterate_eq]
    show (step s m g wc i dev).bind (fun d => some d) = step s m g wc (i + 0) dev
    simp
  | t + 1, i, dev => by
    rw [iterate_eq, iterate_eq, Option.bind_assoc]
    congr 1
    funext d
    rw [iterate_last s m g wc t (i + 1) d, show i + 1 + t = i + (t + 1) by omega]

/-- The result of an iteration. -/
structure StepSpec (g : Geo) (wc : ℝ) (a b : Dev) : Prop where
  lab : b.lab = a.lab
  label : ∀ x < g.width, ∀ y < g.height, ∃ k : Nat, b.labels x y = k ∧ Nearest g wc a x y k
  mean : ∀ k < g.nbSpx, centre g b k = if members g b.labels k = ∅ then centre g a k else mean a (members g b.labels k)
  good : Good g b
  idle : Idle g b

theorem step_spec {g : Geo} (ok : g.Ok) {wc : ℝ} (hw : |wc| ≤ 20000) {m : Nat} (h3 : 3 ≤ g.diam)
    (hm : g.diam * g.diam ≤ m) (s : Nat → Sched) (i : Nat) {a : Dev} (hg : Good g a) (hi : Idle g a) :
    ∃ b, step s m g wc i a = some b ∧ StepSpec g wc a b := by
  have hl : ∀ x < g.width, ∀ y < g.height, 0 ≤ labelOf g wc a x y ∧ labelOf g wc a x y < g.nbSpx := by
    intro x hx y hy
    obtain ⟨k, e, hk⟩ := good_label ok hw hg hx hy
    have := hk.1.1
    omega
  have hm0 : 0 < m := lt_of_lt_of_le (Nat.mul_pos (by omega) (by omega)) hm
  obtain ⟨a1, e1, l1, c1, lb1, ac1⟩ := assignment_spec ok (s (2 * i)) (m := m) (wc := wc) (dev := a) h3 hm hl
  obtain ⟨b, e2, l2, lb2, u⟩ := update_spec (g := g) (s (2 * i + 1)) hm0 a1
  have hmem : ∀ k, members g (labelOf g wc a) k = members g b.labels k := by
    intro k
    unfold members
    refine Finset.filter_congr fun p hp => ?_
    simp only [Finset.mem_product, Finset.mem_range] at hp
    rw [lb2, lb1, if_pos hp]
  have hacc : ∀ k < g.nbSpx, ∀ c < 6, a1.acc (k + c * g.nbSpx) = ∑ p ∈ members g b.labels k, part a p.1 p.2 c := by
    intro k hk c hc
    have hq : k + c * g.nbSpx < 6 * g.nbSpx := by
      interval_cases c <;> omega
    rw [ac1 k hk c hc, hi _ hq, hmem, zero_add]
  have hcnt : ∀ k < g.nbSpx, a1.acc (k + 5 * g.nbSpx) = ((members g b.labels k).card : ℝ) := by
    intro k hk
    rw [hacc k hk 5 (by omega)]
    simp [part]
  have hlabel : ∀ x < g.width, ∀ y < g.height, ∃ k : Nat, b.labels x y = k ∧ Nearest g wc a x y k := by
    intro x hx y hy
    rw [lb2, lb1, if_pos ⟨hx, hy⟩]
    exact good_label ok hw hg hx hy
  have hmean : ∀ k < g.nbSpx, centre g b k = if members g b.labels k = ∅ then centre g a k else mean a (members g b.labels k) := by
    intro k hk
    have hc : ∀ c < 5, b.clusters (k + c * g.nbSpx) = if members g b.labels k = ∅ then a.clusters (k + c * g.nbSpx)
        else (∑ p ∈ members g b.labels k, part a p.1 p.2 c) / (members g b.labels k).card := by
      intro c hc
      rw [(u k hk).1 c hc, hcnt k hk, c1, hacc k hk c (by omega)]
      by_cases he : members g b.labels k = ∅
      · rw [if_pos he, if_neg (by simp [he])]
      · rw [if_neg he, if_pos (by simpa using he)]
    have h0 := hc 0 (by omega)
    have h1 := hc 1 (by omega)
    have h2 := hc 2 (by omega)
    have h3 := hc 3 (by omega)
    have h4 := hc 4 (by omega)
    simp only [Nat.zero_mul, Nat.one_mul, Nat.add_zero] at h0 h1
    unfold centre Slic.mean
    rw [h0, h1, h2, h3, h4]
    split <;> rfl
  refine ⟨b, ?_, ⟨by rw [l2, l1], hlabel, hmean, ?_, ?_⟩⟩
  · unfold step; rw [e1]; exact e2
  · have hin : ∀ k < g.nbSpx, ∀ p ∈ members g b.labels k, p.1 < g.width ∧ p.2 < g.height ∧ Near g p.1 p.2 k := by
      intro k hk p hp
      unfold members at hp
      simp only [Finset.mem_filter, Finset.mem_product, Finset.mem_range] at hp
      obtain ⟨⟨hx, hy⟩, e⟩ := hp
      obtain ⟨k', e', hk'⟩ := hlabel p.1 hx p.2 hy
      rw [e] at e'
      have : k = k' := by exact_mod_cast e'
      subst this
      exact ⟨hx, hy, hk'.1⟩
    have hd : (0 : ℝ) < g.diam := by exact_mod_cast ok.diam_pos
    refine ⟨?_, ?_, ?_, ?_⟩
    · rw [l2, l1]; exact hg.lab
    · intro k hk
      rw [hmean k hk]
      split
      · exact hg.col k hk
      · rename_i he
        have hne := Finset.nonempty_iff_ne_empty.2 he
        have hb : ∀ p ∈ members g b.labels k, LabOk (pixel a p.1 p.2).l (pixel a p.1 p.2).a (pixel a p.1 p.2).b := by
          intro p hp
          obtain ⟨hx, hy, _⟩ := hin k hk p hp
          exact hg.lab _ hx _ hy
        refine ⟨mean_bounds hne _ fun p hp => (hb p hp).1, mean_bounds' hne _ fun p hp => (hb p hp).2.1, ?_, ?_⟩
        · rw [abs_le]
          exact ⟨mean_bounds hne _ fun p hp => (abs_le.1 (hb p hp).2.2.1).1, mean_bounds' hne _ fun p hp => (abs_le.1 (hb p hp).2.2.1).2⟩
        · rw [abs_le]
          exact ⟨mean_bounds hne _ fun p hp => (abs_le.1 (hb p hp).2.2.2).1, mean_bounds' hne _ fun p hp => (abs_le.1 (hb p hp).2.2.2).2⟩
    · intro k hk
      rw [hmean k hk]
      split
      · exact hg.posX k hk
      · rename_i he
        have hne := Finset.nonempty_iff_ne_empty.2 he
        refine ⟨mean_bounds hne _ fun p hp => ?_, mean_bounds hne _ fun p hp => ?_, mean_bounds_lt hne _ fun p hp => ?_⟩
        · exact Nat.cast_nonneg _
        · obtain ⟨_, _, _, n1, n2, _⟩ := hin k hk p hp
          obtain ⟨u1, u2⟩ := cell_bounds (x := p.1) ok.diam_pos
          have n1' : ((k % g.perRow : Nat) : ℝ) - 1 ≤ ((p.1 / g.diam : Nat) : ℝ) := by
            rw [sub_le_iff_le_add]; exact_mod_cast n1
          exact (mul_le_mul_of_nonneg_right n1' hd.le).trans u1
        · obtain ⟨_, _, _, n1, n2, _⟩ := hin k hk p hp
          obtain ⟨u1, u2⟩ := cell_bounds (x := p.1) ok.diam_pos
          have n2' : ((p.1 / g.diam : Nat) : ℝ) + 1 ≤ ((k % g.perRow : Nat) : ℝ) + 2 := by
            have : ((p.1 / g.diam : Nat) : ℝ) ≤ ((k % g.perRow : Nat) : ℝ) + 1 := by exact_mod_cast n2
            linarith
          exact u2.trans_le (mul_le_mul_of_nonneg_right n2' hd.le)
    · intro k hk
      rw [hmean k hk]
      split
      · exact hg.posY k hk
      · rename_i he
        have hne := Finset.nonempty_iff_ne_empty.2 he
        refine ⟨mean_bounds hne _ fun p hp => ?_, mean_bounds hne _ fun p hp => ?_, mean_bounds_lt hne _ fun p hp => ?_⟩
        · exact Nat.cast_nonneg _
        · obtain ⟨_, _, _, _, _, n1, n2⟩ := hin k hk p hp
          obtain ⟨u1, u2⟩ := cell_bounds (x := p.2) ok.diam_pos
          have n1' : ((k / g.perRow : Nat) : ℝ) - 1 ≤ ((p.2 / g.diam : Nat) : ℝ) := by
            rw [sub_le_iff_le_add]; exact_mod_cast n1
          exact (mul_le_mul_of_nonneg_right n1' hd.le).trans u1
        · obtain ⟨_, _, _, _, _, n1, n2⟩ := hin k hk p hp
          obtain ⟨u1, u2⟩ := cell_bounds (x := p.2) ok.diam_pos
          have n2' : ((p.2 / g.diam : Nat) : ℝ) + 1 ≤ ((k / g.perRow : Nat) : ℝ) + 2 := by
            have : ((p.2 / g.diam : Nat) : ℝ) ≤ ((k / g.perRow : Nat) : ℝ) + 1 := by exact_mod_cast n2
            linarith
          exact u2.trans_le (mul_le_mul_of_nonneg_right n2' hd.le)
  · intro q hq
    have hn : 0 < g.nbSpx := by omega
    have hc : q / g.nbSpx < 6 := by rw [Nat.div_lt_iff_lt_mul hn]; exact hq
    have hk : q % g.nbSpx < g.nbSpx := Nat.mod_lt _ hn
    have e : q = q % g.nbSpx + q / g.nbSpx * g.nbSpx := by
      have := Nat.div_add_mod q g.nbSpx
      rw [Nat.mul_comm] at this; omega
    rw [e, (u _ hk).2 _ hc, hcnt _ hk]
    split
    · rfl
    · rename_i h0
      rw [hacc _ hk _ hc]
      have : members g b.labels (q % g.nbSpx) = ∅ := by
        rw [not_not] at h0
        simpa using h0
      rw [this]; rfl

/-! ## The whole segmentation -/

theorem prepare_good {g : Geo} (ok : g.Ok) (s : Sched) {img : Nat → Nat → Nat × Nat × Nat}
    (himg : ∀ x y, (img x y).1 ≤ 255 ∧ (img x y).2.1 ≤ 255 ∧ (img x y).2.2 ≤ 255) {dev : Dev} (hi : Idle g dev) :
    ∃ a, prepare s g img dev = some a ∧ Good g a ∧ Idle g a ∧
      (∀ x < g.width, ∀ y < g.height, a.lab x y = toLab (img x y).1 (img x y).2.1 (img x y).2.2) ∧
      (∀ k < g.nbSpx, startX g k < g.width ∧ startY g k < g.height ∧ startX g k / g.diam = k % g.perRow ∧
        startY g k / g.diam = k / g.perRow ∧ centre g a k = pixel a (startX g k) (startY g k)) := by
  obtain ⟨a, e, h1, h2, h3, h4⟩ := prepare_spec ok s img dev
  have hcell : ∀ k < g.nbSpx, startX g k < g.width ∧ startY g k < g.height ∧ startX g k / g.diam = k % g.perRow ∧
      startY g k / g.diam = k / g.perRow := by
    intro k hk
    have hr : 0 < g.perRow := by
      by_contra h; have : g.perRow = 0 := by omega
      rw [ok.nb, this] at hk; omega
    have c1 := ok.row' (k % g.perRow) (Nat.mod_lt _ hr)
    have c2 := ok.col' (k / g.perRow) (by rw [Nat.div_lt_iff_lt_mul hr, Nat.mul_comm, ← ok.nb]; exact hk)
    have hd := ok.diam_pos
    have hh : g.diam / 2 < g.diam := by omega
    unfold startX startY
    refine ⟨by omega, by omega, ?_, ?_⟩
    · rw [Nat.div_eq_iff hd]; omega
    · rw [Nat.div_eq_iff hd]; omega
  refine ⟨a, e, ⟨?_, ?_, ?_, ?_⟩, ?_, h3, fun k hk => ⟨(hcell k hk).1, (hcell k hk).2.1, (hcell k hk).2.2.1, (hcell k hk).2.2.2, h4 k hk⟩⟩
  · intro x hx y hy
    rw [h3 x hx y hy]
    exact toLab_ok (himg x y).1 (himg x y).2.1 (himg x y).2.2
  · intro k hk
    obtain ⟨c1, c2, _⟩ := hcell k hk
    rw [h4 k hk]
    unfold pixel
    dsimp only
    rw [h3 _ c1 _ c2]
    exact toLab_ok (himg _ _).1 (himg _ _).2.1 (himg _ _).2.2
  · intro k hk
    obtain ⟨c1, c2, c3, c4⟩ := hcell k hk
    obtain ⟨u1, u2⟩ := cell_bounds (x := startX g k) ok.diam_pos
    rw [c3] at u1 u2
    have hd : (0 : ℝ) < g.diam := by exact_mod_cast ok.diam_pos
    rw [h4 k hk]
    unfold pixel
    dsimp only
    exact ⟨Nat.cast_nonneg _, by linarith, by linarith⟩
  · intro k hk
    obtain ⟨c1, c2, c3, c4⟩ := hcell k hk
    obtain ⟨u1, u2⟩ := cell_bounds (x := startY g k) ok.diam_pos
    rw [c4] at u1 u2
    have hd : (0 : ℝ) < g.diam := by exact_mod_cast ok.diam_pos
    rw [h4 k hk]
    unfold pixel
    dsimp only
    exact ⟨Nat.cast_nonneg _, by linarith, by linarith⟩
  · intro q hq; rw [h2]; exact hi q hq

theorem segment_good {g : Geo} (ok : g.Ok) {wc : ℝ} (hw : |wc| ≤ 20000) {m : Nat} (h3 : 3 ≤ g.diam)
    (hm : g.diam * g.diam ≤ m) (s₀ : Sched) (s : Nat → Sched) {img : Nat → Nat → Nat × Nat × Nat}
    (himg : ∀ x y, (img x y).1 ≤ 255 ∧ (img x y).2.1 ≤ 255 ∧ (img x y).2.2 ≤ 255) {dev : Dev} (hi : Idle g dev) :
    ∀ t, ∃ a, segment s₀ s m g wc t img dev = some a ∧ Good g a ∧ Idle g a ∧
      (∀ x < g.width, ∀ y < g.height, a.lab x y = toLab (img x y).1 (img x y).2.1 (img x y).2.2)
  | 0 => by
    obtain ⟨a, e, h1, h2, h3', _⟩ := prepare_good ok s₀ himg hi
    refine ⟨a, ?_, h1, h2, h3'⟩
    unfold segment; rw [e]; rfl
  | t + 1 => by
    obtain ⟨a, e, h1, h2, h3'⟩ := segment_good ok hw h3 hm s₀ s himg hi t
    obtain ⟨b, e', hb⟩ := step_spec ok hw h3 hm s (0 + t) h1 h2
    refine ⟨b, ?_, hb.good, hb.idle, by rw [hb.lab]; exact h3'⟩
    unfold segment at e ⊢
    have : (fun dev => iterate s m g wc 0 (t + 1) dev) = fun dev => (iterate s m g wc 0 t dev).bind (step s m g wc (0 + t)) := by
      funext d; exact iterate_last s m g wc t 0 d
    rw [this, ← Option.bind_assoc, e]
    exact e'

theorem segment_succ {g : Geo} {wc : ℝ} {m : Nat} (s₀ : Sched) (s : Nat → Sched) (img : Nat → Nat → Nat × Nat × Nat) (dev : Dev) (t : Nat) :
    segment s₀ s m g wc (t + 1) img dev = (segment s₀ s m g wc t img dev).bind (step s m g wc t) := by
  unfold segment
  have : (fun dev => iterate s m g wc 0 (t + 1) dev) = fun dev => (iterate s m g wc 0 t dev).bind (step s m g wc t) := by
    funext d
    rw [iterate_last s m g wc t 0 d, Nat.zero_add]
  rw [this, Option.bind_assoc]

/-! ## Energy -/

theorem mean_min (s : Finset (Nat × Nat)) (f : Nat × Nat → ℝ) (c : ℝ) :
    ∑ p ∈ s, (f p - (∑ p ∈ s, f p) / s.card) ^ 2 ≤ ∑ p ∈ s, (f p - c) ^ 2 := by
  rcases s.eq_empty_or_nonempty with rfl | hs
  · simp
  have hc : (0 : ℝ) < s.card := by exact_mod_cast hs.card_pos
  set μ := (∑ p ∈ s, f p) / s.card with hμ
  have hsum : ∑ p ∈ s, f p = s.card * μ := by rw [hμ, mul_div_cancel₀ _ hc.ne']
  have key : ∑ p ∈ s, (f p - c) ^ 2 = ∑ p ∈ s, (f p - μ) ^ 2 + s.card * (μ - c) ^ 2 := by
    have : ∀ p, (f p - c) ^ 2 = (f p - μ) ^ 2 + (2 * (μ - c)) * f p + (c ^ 2 - μ ^ 2) := fun p => by ring
    simp only [this, Finset.sum_add_distrib, ← Finset.mul_sum, Finset.sum_const, nsmul_eq_mul, hsum]
    ring
  rw [key]
  exact le_add_of_nonneg_right (mul_nonneg hc.le (sq_nonneg _))

theorem mean_best (d : Nat) (wc : ℝ) (dev : Dev) (s : Finset (Nat × Nat)) (c : Point) :
    ∑ p ∈ s, sqDist d wc (pixel dev p.1 p.2) (mean dev s) ≤ ∑ p ∈ s, sqDist d wc (pixel dev p.1 p.2) c := by
  have e : ∀ c : Point, ∑ p ∈ s, sqDist d wc (pixel dev p.1 p.2) c =
      ∑ p ∈ s, ((pixel dev p.1 p.2).l - c.l) ^ 2 + ∑ p ∈ s, ((pixel dev p.1 p.2).a - c.a) ^ 2 +
      ∑ p ∈ s, ((pixel dev p.1 p.2).b - c.b) ^ 2 + wc ^ 2 / (d : ℝ) ^ 2 * (∑ p ∈ s, ((pixel dev p.1 p.2).x - c.x) ^ 2 +
      ∑ p ∈ s, ((pixel dev p.1 p.2).y - c.y) ^ 2) := by
    intro c
    rw [← Finset.sum_add_distrib, ← Finset.sum_add_distrib, ← Finset.sum_add_distrib, Finset.mul_sum, ← Finset.sum_add_distrib]
    refine Finset.sum_congr rfl fun p _ => ?_
    unfold sqDist
    ring
  rw [e, e]
  have h1 := mean_min s (fun p => (pixel dev p.1 p.2).l) c.l
  have h2 := mean_min s (fun p => (pixel dev p.1 p.2).a) c.a
  have h3 := mean_min s (fun p => (pixel dev p.1 p.2).b) c.b
  have h4 := mean_min s (fun p => (pixel dev p.1 p.2).x) c.x
  have h5 := mean_min s (fun p => (pixel dev p.1 p.2).y) c.y
  have h6 := mul_le_mul_of_nonneg_left (add_le_add h4 h5) (show 0 ≤ wc ^ 2 / (d : ℝ) ^ 2 by positivity)
  unfold Slic.mean
  dsimp only at *
  linarith

/-- Replacing centres by means does not increase the energy. -/
theorem energy_mean {g : Geo} {wc : ℝ} {a b : Dev} (h : StepSpec g wc a b) :
    energy g wc b ≤ ∑ p ∈ Finset.range g.width ×ˢ Finset.range g.height,
      sqDist g.diam wc (pixel a p.1 p.2) (centre g a (b.labels p.1 p.2).toNat) := by
  have hp : ∀ x y, pixel b x y = pixel a x y := fun x y => by unfold pixel; rw [h.lab]
  have hmaps : ∀ p ∈ Finset.range g.width ×ˢ Finset.range g.height, (b.labels p.1 p.2).toNat ∈ Finset.range g.nbSpx := by
    intro p hpm
    simp only [Finset.mem_product, Finset.mem_range] at hpm
    obtain ⟨k, e, hk⟩ := h.label p.1 hpm.1 p.2 hpm.2
    rw [e]; simpa using hk.1.1
  have hmem : ∀ k ∈ Finset.range g.nbSpx, (Finset.range g.width ×ˢ Finset.range g.height).filter (fun p => (b.labels p.1 p.2).toNat = k) =
      members g b.labels k := by
    intro k _
    unfold members
    refine Finset.filter_congr fun p hpm => ?_
    simp only [Finset.mem_product, Finset.mem_range] at hpm
    obtain ⟨k', e, hk⟩ := h.label p.1 hpm.1 p.2 hpm.2
    rw [e]; simp
  unfold energy
  rw [← Finset.sum_fiberwise_of_maps_to hmaps, ← Finset.sum_fiberwise_of_maps_to hmaps]
  refine Finset.sum_le_sum fun k hk => ?_
  rw [hmem k hk]
  rw [Finset.mem_range] at hk
  have e1 : ∑ p ∈ members g b.labels k, sqDist g.diam wc (pixel b p.1 p.2) (centre g b (b.labels p.1 p.2).toNat) =
      ∑ p ∈ members g b.labels k, sqDist g.diam wc (pixel a p.1 p.2) (centre g b k) := by
    refine Finset.sum_congr rfl fun p hpm => ?_
    unfold members at hpm
    rw [(Finset.mem_filter.1 hpm).2, hp]; rfl
  have e2 : ∑ p ∈ members g b.labels k, sqDist g.diam wc (pixel a p.1 p.2) (centre g a (b.labels p.1 p.2).toNat) =
      ∑ p ∈ members g b.labels k, sqDist g.diam wc (pixel a p.1 p.2) (centre g a k) := by
    refine Finset.sum_congr rfl fun p hpm => ?_
    unfold members at hpm
    rw [(Finset.mem_filter.1 hpm).2]; rfl
  rw [e1, e2, h.mean k hk]
  split
  · exact le_refl _
  · exact mean_best _ _ _ _ _

theorem energy_step {g : Geo} {wc : ℝ} {a b c : Dev} (h : StepSpec g wc a b) (h' : StepSpec g wc b c) :
    energy g wc c ≤ energy g wc b := by
  refine (energy_mean h').trans ?_
  unfold energy
  refine Finset.sum_le_sum fun p hpm => ?_
  simp only [Finset.mem_product, Finset.mem_range] at hpm
  obtain ⟨k, e, hk⟩ := h.label p.1 hpm.1 p.2 hpm.2
  obtain ⟨k', e', hk'⟩ := h'.label p.1 hpm.1 p.2 hpm.2
  rw [e, e']
  exact (hk'.2 k hk.1).1

/-! ## Independence of history and order -/

/-- Two states agree on what later iterations use. -/
structure Same (g : Geo) (a b : Dev) : Prop where
  lab : ∀ x < g.width, ∀ y < g.height, a.lab x y = b.lab x y
  centre : ∀ k < g.nbSpx, centre g a k = centre g b k

theorem nearest_same {g : Geo} {wc : ℝ} {a b : Dev} (h : Same g a b) {x y k : Nat} (hx : x < g.width) (hy : y < g.height)
    (hk : Nearest g wc a x y k) : Nearest g wc b x y k := by
  have hp : pixel a x y = pixel b x y := by unfold pixel; rw [h.lab x hx y hy]
  refine ⟨hk.1, fun k' hk' => ?_⟩
  have := hk.2 k' hk'
  rw [hp, h.centre k hk.1.1, h.centre k' hk'.1] at this
  exact this

theorem nearest_unique {g : Geo} {wc : ℝ} {a : Dev} {x y k k' : Nat} (h : Nearest g wc a x y k) (h' : Nearest g wc a x y k') :
    k = k' := by
  rcases lt_trichotomy k k' with hlt | he | hlt
  · exact absurd (h'.2 k h.1).2 (fun hh => absurd (hh hlt) (not_lt.2 (h.2 k' h'.1).1))
  · exact he
  · exact absurd (h.2 k' h'.1).2 (fun hh => absurd (hh hlt) (not_lt.2 (h'.2 k h.1).1))

theorem step_same {g : Geo} {wc : ℝ} {a a' b b' : Dev} (h : Same g a a') (hb : StepSpec g wc a b) (hb' : StepSpec g wc a' b') :
    Same g b b' ∧ ∀ x < g.width, ∀ y < g.height, b.labels x y = b'.labels x y := by
  have hl : ∀ x < g.width, ∀ y < g.height, b.labels x y = b'.labels x y := by
    intro x hx y hy
    obtain ⟨k, e, hk⟩ := hb.label x hx y hy
    obtain ⟨k', e', hk'⟩ := hb'.label x hx y hy
    rw [e, e', nearest_unique (nearest_same h hx hy hk) hk']
  refine ⟨⟨fun x hx y hy => by rw [hb.lab, hb'.lab]; exact h.lab x hx y hy, fun k hk => ?_⟩, hl⟩
  have hm : members g b.labels k = members g b'.labels k := by
    unfold members
    refine Finset.filter_congr fun p hpm => ?_
    simp only [Finset.mem_product, Finset.mem_range] at hpm
    rw [hl p.1 hpm.1 p.2 hpm.2]
  rw [hb.mean k hk, hb'.mean k hk, hm, h.centre k hk]
  split
  · rfl
  · have hp : ∀ p ∈ members g b'.labels k, pixel a p.1 p.2 = pixel a' p.1 p.2 := by
      intro p hpm
      unfold members at hpm
      simp only [Finset.mem_filter, Finset.mem_product, Finset.mem_range] at hpm
      unfold pixel
      rw [h.lab _ hpm.1.1 _ hpm.1.2]
    unfold Slic.mean
    congr 2 <;> exact Finset.sum_congr rfl fun p hpm => by rw [hp p hpm]

end Litiv.Slic
