import Verif.Lemmas.WarpImg
import Mathlib.Tactic.IntervalCases
import Mathlib.Tactic.NormNum

/-!
# Properties of the image warper
-/

namespace Litiv.Warp
open Spec

/-! ## C104: the transform -/

/-- Away from the destination points, the position given to a point of the grid is its image by the best transform, which is the only best one; when no transform
is the only best one, there is no position (NaN). -/
theorem node_best (mode : Mode) (pts : List (Pt × Pt)) (v n : Pt) (hl : pts ≠ []) (h : ∀ e ∈ pts, v ≠ e.1) :
    newPoint mode pts v = some n ↔ ∃ T, UniqueBest mode pts v T ∧ n = T.app v :=
  newPoint_iff mode v pts hl h n

/-- At a destination point, the position is the source point (the first one, when a destination point is given several times). -/
theorem node_interpolates (mode : Mode) (v q : Pt) (pre post : List (Pt × Pt)) (h : ∀ e ∈ pre, v ≠ e.1) :
    newPoint mode (pre ++ (v, q) :: post) v = some q :=
  newPoint_at mode v q pre post h

/-- When the source points are the images of the destination points by a transform of the mode, the position of every point is its image by this transform, provided
that two destination points are different. -/
theorem node_exact (mode : Mode) (pts : List (Pt × Pt)) (T : Sim) (hT : Admissible mode T) (hx : ∀ e ∈ pts, e.2 = T.app e.1)
    (e e' : Pt × Pt) (he : e ∈ pts) (he' : e' ∈ pts) (hne : e.1 ≠ e'.1) (v : Pt) : newPoint mode pts v = some (T.app v) :=
  newPoint_exact mode v pts T hT hx e e' he he' hne

/-- In the similarity mode, the position is undefined exactly when all the destination points are equal (and different from the point). -/
theorem node_similarity_defined (pts : List (Pt × Pt)) (hl : pts ≠ []) (v : Pt) : newPoint .similarity pts v = none ↔
    (∀ e ∈ pts, v ≠ e.1) ∧ ∀ e ∈ pts, ∀ e' ∈ pts, e.1 = e'.1 :=
  similarity_none v pts hl

/-- In the rigid mode, two different destination points are not enough: with equal source points, the position is undefined. -/
theorem node_rigid_refuted : ¬∀ (pts : List (Pt × Pt)) (v : Pt), (∃ e ∈ pts, ∃ e' ∈ pts, e.1 ≠ e'.1) → newPoint .rigid pts v ≠ none := by
  intro h
  refine h [(⟨0, 0⟩, ⟨3, 3⟩), (⟨2, 0⟩, ⟨3, 3⟩)] ⟨1, 1⟩ ⟨_, List.mem_cons_self, (⟨2, 0⟩, ⟨3, 3⟩), by simp, ?_⟩ ?_
  · intro he
    have := congrArg Pt.x he
    norm_num at this
  · refine rigid_same_source _ ⟨3, 3⟩ _ (by simp) ?_ ?_
    · intro e he
      simp only [List.mem_cons, List.not_mem_nil, or_false] at he
      rcases he with rfl | rfl <;> · intro hh; have := congrArg Pt.y hh; norm_num at this
    · intro e he
      simp only [List.mem_cons, List.not_mem_nil, or_false] at he
      rcases he with rfl | rfl <;> rfl

/-- Two points, scaled by two. -/
def samplePts : List (Pt × Pt) := [(⟨0, 0⟩, ⟨0, 0⟩), (⟨2, 0⟩, ⟨4, 0⟩)]

theorem samplePts_exact : ∀ e ∈ samplePts, e.2 = (⟨2, 0, 0, 0⟩ : Sim).app e.1 := by
  intro e he
  simp only [samplePts, List.mem_cons, List.not_mem_nil, or_false] at he
  rcases he with rfl | rfl <;> apply pt_eq <;> norm_num [Sim.app]

theorem samplePts_two : ∃ e ∈ samplePts, ∃ e' ∈ samplePts, e.1 ≠ e'.1 := by
  refine ⟨_, List.mem_cons_self, (⟨2, 0⟩, ⟨4, 0⟩), by simp [samplePts], ?_⟩
  intro he
  have := congrArg Pt.x he
  norm_num at this

example (v : Pt) : newPoint .similarity samplePts v = some ⟨2 * v.x, 2 * v.y⟩ := by
  obtain ⟨e, he, e', he', hne⟩ := samplePts_two
  rw [node_exact .similarity samplePts ⟨2, 0, 0, 0⟩ (by intro h; cases h) samplePts_exact e e' he he' hne]
  congr 1
  apply pt_eq <;> norm_num [Sim.app]

example : ∃ T, UniqueBest .similarity samplePts ⟨5, 5⟩ T := by
  obtain ⟨e, he, e', he', hne⟩ := samplePts_two
  have h : ∀ e ∈ samplePts, (⟨5, 5⟩ : Pt) ≠ e.1 := by
    intro e he hh
    simp only [samplePts, List.mem_cons, List.not_mem_nil, or_false] at he
    have := congrArg Pt.y hh
    rcases he with rfl | rfl <;> norm_num at this
  exact ⟨_, exact_unique _ _ _ h ⟨2, 0, 0, 0⟩ (by intro h; cases h) samplePts_exact e e' he he' hne⟩

/-! ## C105: the output -/

/-- A warper is set up exactly when the grid step is positive, there is at least one pair of points, and both images have pixels. -/
theorem setup_defined (mode : Mode) (pts : List (Pt × Pt)) (g sw sh dw dh : Nat) (junk : Nat → Nat → Option Pt) :
    (∃ w, setup mode pts g sw sh dw dh junk = some w) ↔ 0 < g ∧ pts ≠ [] ∧ (0 < sw ∧ 0 < sh) ∧ 0 < dw ∧ 0 < dh := by
  constructor
  · rintro ⟨w, hw⟩
    unfold setup at hw
    split at hw
    · rename_i h
      exact ⟨h.1, h.2.1, ⟨Nat.pos_of_mul_pos_right h.2.2.1, Nat.pos_of_mul_pos_left h.2.2.1⟩, ⟨Nat.pos_of_mul_pos_right h.2.2.2, Nat.pos_of_mul_pos_left h.2.2.2⟩⟩
    · cases hw
  · rintro ⟨hg, hp, hs, hd⟩
    by_cases h2 : 2 ≤ pts.length
    · obtain ⟨w, hw, _⟩ := setup_eval mode pts g sw sh dw dh junk hg h2 hs hd
      exact ⟨w, hw⟩
    · unfold setup
      rw [if_pos ⟨hg, hp, Nat.mul_pos hs.1 hs.2, Nat.mul_pos hd.1 hd.2⟩, if_pos (by omega)]
      exact ⟨_, rfl⟩

theorem setup_inv {mode : Mode} {pts : List (Pt × Pt)} {g sw sh dw dh : Nat} {junk : Nat → Nat → Option Pt} {w : Warper}
    (h2 : 2 ≤ pts.length) (hw : setup mode pts g sw sh dw dh junk = some w) :
    0 < g ∧ (0 < sw ∧ 0 < sh) ∧ w.g = g ∧ w.sw = sw ∧ w.sh = sh ∧ w.dw = dw ∧ w.dh = dh ∧
      ∀ r c, w.delta r c = if IsNode g dh r ∧ IsNode g dw c then (newPoint mode pts ⟨c, r⟩).map (fun n => n.sub ⟨c, r⟩) else junk r c := by
  obtain ⟨hg, _, hs, hd⟩ := (setup_defined mode pts g sw sh dw dh junk).1 ⟨w, hw⟩
  obtain ⟨w', hw', h⟩ := setup_eval mode pts g sw sh dw dh junk hg h2 hs hd
  rw [hw] at hw'
  cases hw'
  exact ⟨hg, hs, h⟩

theorem setup_one {mode : Mode} {pts : List (Pt × Pt)} {g sw sh dw dh : Nat} {junk : Nat → Nat → Option Pt} {w : Warper}
    (h2 : ¬2 ≤ pts.length) (hw : setup mode pts g sw sh dw dh junk = some w) :
    0 < g ∧ (0 < sw ∧ 0 < sh) ∧ w = ⟨g, sw, sh, dw, dh, fun r c => if r < dh ∧ c < dw then some ⟨0, 0⟩ else junk r c⟩ := by
  obtain ⟨hg, hp, hs, hd⟩ := (setup_defined mode pts g sw sh dw dh junk).1 ⟨w, hw⟩
  unfold setup at hw
  rw [if_pos ⟨hg, hp, Nat.mul_pos hs.1 hs.2, Nat.mul_pos hd.1 hd.2⟩, if_pos (by omega)] at hw
  exact ⟨hg, hs, (Option.some.inj hw).symm⟩

/-- The four corner deltas are those of the transform. -/
theorem pixelDelta_eval {mode : Mode} {pts : List (Pt × Pt)} {g sw sh dw dh : Nat} {junk : Nat → Nat → Option Pt} {w : Warper}
    (h2 : 2 ≤ pts.length) (hw : setup mode pts g sw sh dw dh junk = some w) (y x : Nat) (hy : y < dh) (hx : x < dw) :
    pixelDelta w y x = cellDelta (fun r c => (newPoint mode pts ⟨c, r⟩).map (fun n => n.sub ⟨c, r⟩)) (start g y) (start g x)
      (nextNode g dh (start g y)) (nextNode g dw (start g x)) (((y - start g y : Nat) : ℝ) / (cellSize g dh (start g y) : Nat))
      (((x - start g x : Nat) : ℝ) / (cellSize g dw (start g x) : Nat)) := by
  obtain ⟨hg, hs, e1, e2, e3, e4, e5, hδ⟩ := setup_inv h2 hw
  unfold pixelDelta
  rw [e1, e4, e5]
  have n1 := start_node g dh y hy
  have n2 := start_node g dw x hx
  have n3 := next_node g dh y hy
  have n4 := next_node g dw x hx
  unfold cellDelta
  rw [hδ, hδ, hδ, hδ, if_pos ⟨n1, n2⟩, if_pos ⟨n1, n4⟩, if_pos ⟨n3, n2⟩, if_pos ⟨n3, n4⟩]

/-- The output does not depend on the initial content of the delta maps and of the output image. Outside of the output image nothing is written. -/
theorem warp_deterministic (mode : Mode) (pts : List (Pt × Pt)) (g sw sh dw dh : Nat) (junk junk' : Nat → Nat → Option Pt) (w w' : Warper)
    (hw : setup mode pts g sw sh dw dh junk = some w) (hw' : setup mode pts g sw sh dw dh junk' = some w') (ratio : ℝ) (chans : Nat)
    (inp : Nat → Nat → Nat → Nat) (old old' : Nat → Nat → Nat → Option Nat) (y x k : Nat) :
    (y < dh ∧ x < dw ∧ k < chans → warp w ratio chans inp old y x k = warp w' ratio chans inp old' y x k) ∧
    (¬(y < dh ∧ x < dw ∧ k < chans) → warp w ratio chans inp old y x k = old y x k) := by
  by_cases h2 : 2 ≤ pts.length
  · obtain ⟨hg, hs, e1, e2, e3, e4, e5, _⟩ := setup_inv h2 hw
    obtain ⟨_, _, f1, f2, f3, f4, f5, _⟩ := setup_inv h2 hw'
    constructor
    · rintro ⟨hy, hx, hk⟩
      rw [warp_pixel w ratio chans inp old y x k (by omega) (by rw [e2, e3]; exact hs) (by omega) (by omega) hk,
        warp_pixel w' ratio chans inp old' y x k (by omega) (by rw [f2, f3]; exact hs) (by omega) (by omega) hk,
        pixelDelta_eval h2 hw y x hy hx, pixelDelta_eval h2 hw' y x hy hx, e2, e3, f2, f3]
    · intro hn
      rw [warp_at _ _ _ _ _ _ _ _ (by omega), if_neg (by rw [e4, e5]; exact hn)]
  · obtain ⟨hg, hs, rfl⟩ := setup_one h2 hw
    obtain ⟨_, _, rfl⟩ := setup_one h2 hw'
    constructor
    · rintro ⟨hy, hx, hk⟩
      rw [warp_pixel _ ratio chans inp old y x k hg hs hy hx hk, warp_pixel _ ratio chans inp old' y x k hg hs hy hx hk]
      congr 1
      have n1 := (start_node g dh y hy).1
      have n2 := (start_node g dw x hx).1
      have n3 := (next_node g dh y hy).1
      have n4 := (next_node g dw x hx).1
      unfold pixelDelta cellDelta
      dsimp only
      rw [if_pos ⟨n1, n2⟩, if_pos ⟨n1, n4⟩, if_pos ⟨n3, n2⟩, if_pos ⟨n3, n4⟩, if_pos ⟨n1, n2⟩, if_pos ⟨n1, n4⟩, if_pos ⟨n3, n2⟩, if_pos ⟨n3, n4⟩]
    · intro hn
      rw [warp_at _ _ _ _ _ _ _ _ hg, if_neg hn]

/-- When the position of every point of the grid is defined, every pixel of the output is defined; its value is between the smallest and the largest values of the
same channel of the input. -/
theorem warp_range (mode : Mode) (pts : List (Pt × Pt)) (g sw sh dw dh : Nat) (junk : Nat → Nat → Option Pt) (w : Warper) (h2 : 2 ≤ pts.length)
    (hw : setup mode pts g sw sh dw dh junk = some w) (hdef : ∀ r c : Nat, r < dh → c < dw → (g ∣ r ∨ r = dh - 1) → (g ∣ c ∨ c = dw - 1) → newPoint mode pts ⟨c, r⟩ ≠ none) (ratio : ℝ) (chans : Nat)
    (inp : Nat → Nat → Nat → Nat) (old : Nat → Nat → Nat → Option Nat) (y x k lo hi : Nat) (hy : y < dh) (hx : x < dw) (hk : k < chans)
    (h : ∀ r c, r < sh → c < sw → lo ≤ inp r c k ∧ inp r c k ≤ hi) : ∃ v, warp w ratio chans inp old y x k = some v ∧ lo ≤ v ∧ v ≤ hi := by
  obtain ⟨hg, hs, e1, e2, e3, e4, e5, _⟩ := setup_inv h2 hw
  rw [warp_pixel w ratio chans inp old y x k (by omega) (by rw [e2, e3]; exact hs) (by omega) (by omega) hk, pixelDelta_eval h2 hw y x hy hx]
  have n1 := start_node g dh y hy
  have n2 := start_node g dw x hx
  have n3 := next_node g dh y hy
  have n4 := next_node g dw x hx
  obtain ⟨a, ha⟩ := Option.ne_none_iff_exists'.1 (hdef _ _ n1.1 n2.1 n1.2 n2.2)
  obtain ⟨b, hb⟩ := Option.ne_none_iff_exists'.1 (hdef _ _ n1.1 n4.1 n1.2 n4.2)
  obtain ⟨c, hc⟩ := Option.ne_none_iff_exists'.1 (hdef _ _ n3.1 n2.1 n3.2 n2.2)
  obtain ⟨d, hd⟩ := Option.ne_none_iff_exists'.1 (hdef _ _ n3.1 n4.1 n3.2 n4.2)
  unfold cellDelta
  dsimp only
  rw [ha, hb, hc, hd]
  simp only [Option.map_some]
  refine ⟨_, rfl, ?_⟩
  rw [e2, e3]
  obtain ⟨c1, c2⟩ := clamp_in sw sh _ hs
  exact bilinear_range sw sh _ _ hs c1 c2 lo hi h

/-- A pixel whose row and column are multiples of the grid step is read at its position, or at the fraction `ratio` of the way to its position. With a grid step
of one, this is every pixel. -/
theorem warp_node (mode : Mode) (pts : List (Pt × Pt)) (g sw sh dw dh : Nat) (junk : Nat → Nat → Option Pt) (w : Warper) (h2 : 2 ≤ pts.length)
    (hw : setup mode pts g sw sh dw dh junk = some w) (hdef : ∀ r c : Nat, r < dh → c < dw → (g ∣ r ∨ r = dh - 1) → (g ∣ c ∨ c = dw - 1) → newPoint mode pts ⟨c, r⟩ ≠ none) (ratio : ℝ) (chans : Nat)
    (inp : Nat → Nat → Nat → Nat) (old : Nat → Nat → Nat → Option Nat) (y x k : Nat) (hy : y < dh) (hx : x < dw) (hk : k < chans)
    (hgy : g ∣ y) (hgx : g ∣ x) (n : Pt) (hn : newPoint mode pts ⟨x, y⟩ = some n) :
    warp w ratio chans inp old y x k = some ⌊bilinear sw sh (fun r c => inp r c k) (clamp sw sh (along ⟨x, y⟩ n ratio))⌋₊ := by
  obtain ⟨hg, hs, e1, e2, e3, e4, e5, _⟩ := setup_inv h2 hw
  rw [warp_pixel w ratio chans inp old y x k (by omega) (by rw [e2, e3]; exact hs) (by omega) (by omega) hk, pixelDelta_eval h2 hw y x hy hx]
  have n3 := next_node g dh y hy
  have n4 := next_node g dw x hx
  have sy : start g y = y := by unfold start; exact Nat.mul_div_cancel' hgy
  have sx : start g x = x := by unfold start; exact Nat.mul_div_cancel' hgx
  rw [sy] at n3 ⊢
  rw [sx] at n4 ⊢
  obtain ⟨b, hb⟩ := Option.ne_none_iff_exists'.1 (hdef _ _ hy n4.1 (.inl hgy) n4.2)
  obtain ⟨c, hc⟩ := Option.ne_none_iff_exists'.1 (hdef _ _ n3.1 hx n3.2 (.inl hgx))
  obtain ⟨d, hd⟩ := Option.ne_none_iff_exists'.1 (hdef _ _ n3.1 n4.1 n3.2 n4.2)
  unfold cellDelta
  dsimp only
  rw [hn, hb, hc, hd]
  simp only [Option.map_some, Nat.sub_self, Nat.cast_zero, zero_div]
  rw [e2, e3]
  congr 4
  unfold along interp Pt.sub
  apply pt_eq <;> dsimp only <;> ring

/-- A control point at a multiple of the grid step, whose source is a pixel of the input, shows the value of its source. -/
theorem warp_control_point (mode : Mode) (pre post : List (Pt × Pt)) (g sw sh dw dh : Nat) (junk : Nat → Nat → Option Pt) (w : Warper)
    (y x r c : Nat) (hpre : ∀ e ∈ pre, (⟨x, y⟩ : Pt) ≠ e.1) (hlen : 2 ≤ (pre ++ (⟨x, y⟩, ⟨c, r⟩) :: post).length)
    (hw : setup mode (pre ++ (⟨x, y⟩, ⟨c, r⟩) :: post) g sw sh dw dh junk = some w)
    (hdef : ∀ r' c' : Nat, r' < dh → c' < dw → (g ∣ r' ∨ r' = dh - 1) → (g ∣ c' ∨ c' = dw - 1) → newPoint mode (pre ++ (⟨x, y⟩, ⟨c, r⟩) :: post) ⟨c', r'⟩ ≠ none) (chans : Nat)
    (inp : Nat → Nat → Nat → Nat) (old : Nat → Nat → Nat → Option Nat) (k : Nat) (hy : y < dh) (hx : x < dw) (hr : r < sh) (hc : c < sw) (hk : k < chans)
    (hgy : g ∣ y) (hgx : g ∣ x) : warp w 1 chans inp old y x k = some (inp r c k) := by
  rw [warp_node mode _ g sw sh dw dh junk w hlen hw hdef 1 chans inp old y x k hy hx hk hgy hgx _ (node_interpolates mode _ _ pre post hpre)]
  have e : along ⟨x, y⟩ ⟨c, r⟩ 1 = ⟨c, r⟩ := by unfold along; apply pt_eq <;> dsimp only <;> ring
  rw [e, clamp_int sw sh c r ⟨by omega, by omega⟩, Nat.min_eq_left (by omega), Nat.min_eq_left (by omega), bilinear_int sw sh _ r c hr hc]

theorem interp_affine (α β γ X Y r c rn cn : ℝ) : interp X Y (α * c + β * r + γ) (α * cn + β * r + γ) (α * c + β * rn + γ) (α * cn + β * rn + γ) =
    α * (c + Y * (cn - c)) + β * (r + X * (rn - r)) + γ := by
  unfold interp; ring

theorem frac_exact (g n x : Nat) (hg : 0 < g) (hx : x < n) (ha : g ∣ x ∨ g * (x / g) + g < n) :
    ((start g x : Nat) : ℝ) + ((x - start g x : Nat) : ℝ) / (cellSize g n (start g x) : Nat) * (((nextNode g n (start g x) : Nat) : ℝ) - (start g x : Nat)) = x := by
  rcases ha with h | h
  · have : start g x = x := by unfold start; exact Nat.mul_div_cancel' h
    rw [this]; simp
  · have hn : nextNode g n (start g x) = start g x + g := by unfold nextNode; rw [if_neg (by unfold start; omega)]
    have hc : cellSize g n (start g x) = g := by unfold cellSize; rw [if_neg (by unfold start; omega)]
    have hle : start g x ≤ x := by unfold start; exact Nat.mul_div_le x g
    rw [hn, hc, Nat.cast_sub hle, Nat.cast_add]
    have : (g : ℝ) ≠ 0 := by exact_mod_cast hg.ne'
    field_simp
    ring

/-- When the source points are the images of the destination points by a transform of the mode, every pixel is read at its image by this transform, whatever
the grid step is, except the pixels of an incomplete cell at the right or at the bottom. -/
theorem warp_exact_partial (mode : Mode) (pts : List (Pt × Pt)) (T : Sim) (hT : Admissible mode T) (hx' : ∀ e ∈ pts, e.2 = T.app e.1)
    (htwo : ∃ e ∈ pts, ∃ e' ∈ pts, e.1 ≠ e'.1) (g sw sh dw dh : Nat) (junk : Nat → Nat → Option Pt) (w : Warper)
    (hw : setup mode pts g sw sh dw dh junk = some w) (ratio : ℝ) (chans : Nat)
    (inp : Nat → Nat → Nat → Nat) (old : Nat → Nat → Nat → Option Nat) (y x k : Nat) (hy : y < dh) (hx : x < dw) (hk : k < chans)
    (hfull : (g ∣ y ∨ g * (y / g) + g < dh) ∧ (g ∣ x ∨ g * (x / g) + g < dw) ∨ (T.ax = 1 ∧ T.ay = 0)) :
    warp w ratio chans inp old y x k = some ⌊bilinear sw sh (fun r c => inp r c k) (clamp sw sh (along ⟨x, y⟩ (T.app ⟨x, y⟩) ratio))⌋₊ := by
  obtain ⟨e, he, e', he', hne⟩ := htwo
  have h2 : 2 ≤ pts.length := by
    rcases pts with _ | ⟨a, _ | ⟨b, l⟩⟩
    · cases he
    · simp only [List.mem_cons, List.not_mem_nil, or_false] at he he'
      rw [he, he'] at hne
      exact absurd rfl hne
    · simp
  have hnp := fun v => node_exact mode pts T hT hx' e e' he he' hne v
  obtain ⟨hg, hs, e1, e2, e3, e4, e5, _⟩ := setup_inv h2 hw
  rw [warp_pixel w ratio chans inp old y x k (by omega) (by rw [e2, e3]; exact hs) (by omega) (by omega) hk, pixelDelta_eval h2 hw y x hy hx]
  unfold cellDelta
  dsimp only
  rw [hnp, hnp, hnp, hnp]
  simp only [Option.map_some]
  rw [e2, e3]
  congr 4
  have hx1 : ∀ r c : ℝ, ((T.app ⟨c, r⟩).sub ⟨c, r⟩).x = (T.ax - 1) * c + (-T.ay) * r + T.bx := by
    intro r c; unfold Sim.app Pt.sub; dsimp only; ring
  have hy1 : ∀ r c : ℝ, ((T.app ⟨c, r⟩).sub ⟨c, r⟩).y = T.ay * c + (T.ax - 1) * r + T.by' := by
    intro r c; unfold Sim.app Pt.sub; dsimp only; ring
  rw [hx1, hx1, hx1, hx1, hy1, hy1, hy1, hy1, interp_affine, interp_affine]
  rcases hfull with ⟨fy, fx⟩ | ⟨t1, t2⟩
  · rw [frac_exact g dw x hg hx fx, frac_exact g dh y hg hy fy]
    unfold along Sim.app
    apply pt_eq <;> dsimp only <;> ring
  · rw [t1, t2]
    unfold along Sim.app
    rw [t1, t2]
    apply pt_eq <;> dsimp only <;> ring

/-- In an incomplete cell, the same claim is false: the last column is not read at its image, even where it holds a control point. -/
theorem warp_exact_refuted : ¬∀ (mode : Mode) (pts : List (Pt × Pt)) (T : Sim), Admissible mode T → (∀ e ∈ pts, e.2 = T.app e.1) →
    (∃ e ∈ pts, ∃ e' ∈ pts, e.1 ≠ e'.1) → ∀ (g sw sh dw dh : Nat) (junk : Nat → Nat → Option Pt) (w : Warper),
    setup mode pts g sw sh dw dh junk = some w → ∀ (chans : Nat)
    (inp : Nat → Nat → Nat → Nat) (old : Nat → Nat → Nat → Option Nat) (y x k : Nat), y < dh → x < dw → k < chans →
    (∃ q : Pt, (⟨x, y⟩, q) ∈ pts ∧ ∃ r c : Nat, r < sh ∧ c < sw ∧ q = ⟨c, r⟩) →
    warp w 1 chans inp old y x k = some ⌊bilinear sw sh (fun r c => inp r c k) (clamp sw sh (T.app ⟨x, y⟩))⌋₊ := by
  intro h
  have h2 : 2 ≤ samplePts.length := by simp [samplePts]
  obtain ⟨w, hw, _⟩ := setup_eval .similarity samplePts 5 5 1 3 1 (fun _ _ => none) (by omega) h2 ⟨by omega, by omega⟩ ⟨by omega, by omega⟩
  have := h .similarity samplePts ⟨2, 0, 0, 0⟩ (by intro h; cases h) samplePts_exact samplePts_two 5 5 1 3 1 _ w hw 1
    (fun _ c _ => if c = 4 then 255 else 0) (fun _ _ _ => none) 0 2 0 (by omega) (by omega) (by omega)
    ⟨⟨4, 0⟩, by simp [samplePts], 0, 4, by omega, by omega, by norm_num⟩
  obtain ⟨e, he, e', he', hne⟩ := samplePts_two
  have hnp := fun v => node_exact .similarity samplePts ⟨2, 0, 0, 0⟩ (by intro h; cases h) samplePts_exact e e' he he' hne v
  obtain ⟨hg, hs, e1, e2, e3, e4, e5, _⟩ := setup_inv h2 hw
  rw [warp_pixel w 1 1 _ _ 0 2 0 (by omega) (by rw [e2, e3]; exact hs) (by omega) (by omega) (by omega), pixelDelta_eval h2 hw 0 2 (by omega) (by omega)] at this
  unfold cellDelta at this
  dsimp only at this
  rw [hnp, hnp, hnp, hnp] at this
  simp only [Option.map_some] at this
  rw [e2, e3] at this
  have := Option.some.inj this
  have e : (⟨2, 0, 0, 0⟩ : Sim).app ⟨(2 : Nat), (0 : Nat)⟩ = ⟨(4 : Nat), (0 : Nat)⟩ := by apply pt_eq <;> norm_num [Sim.app]
  rw [e, clamp_int 5 1 4 0 ⟨by omega, by omega⟩] at this
  rw [bilinear_int 5 1 _ (min 0 (1 - 1)) (min 4 (5 - 1)) (by omega) (by omega)] at this
  simp only [start, nextNode, cellSize] at this
  norm_num [Sim.app, Pt.sub, interp] at this
  have ec : clamp 5 1 ⟨10 / 3, 0⟩ = ⟨10 / 3, 0⟩ := by
    unfold clamp
    apply pt_eq
    · dsimp only
      rw [min_eq_left (by norm_num), max_eq_right (by norm_num)]
    · norm_num
  rw [ec] at this
  have hb : bilinear 5 1 (fun _ c => if c = 4 then 255 else 0) ⟨10 / 3, 0⟩ = 85 := by
    unfold bilinear
    rw [Finset.sum_range_one]
    simp only [Finset.sum_range_succ, Finset.sum_range_zero]
    norm_num [tent, abs_of_nonneg, abs_of_nonpos]
  rw [hb] at this
  norm_num at this

/-- With a ratio of zero, or when every source point is its destination point, or with a single point: the output is the input, extended by its last row and
column, or cut. -/
theorem warp_copy (mode : Mode) (pts : List (Pt × Pt)) (g sw sh dw dh : Nat) (junk : Nat → Nat → Option Pt) (w : Warper)
    (hw : setup mode pts g sw sh dw dh junk = some w) (ratio : ℝ)
    (hcase : (ratio = 0 ∧ ∀ r c : Nat, r < dh → c < dw → (g ∣ r ∨ r = dh - 1) → (g ∣ c ∨ c = dw - 1) → newPoint mode pts ⟨c, r⟩ ≠ none) ∨
      ((∃ e ∈ pts, ∃ e' ∈ pts, e.1 ≠ e'.1) ∧ ∀ e ∈ pts, e.2 = e.1) ∨ pts.length = 1) (chans : Nat)
    (inp : Nat → Nat → Nat → Nat) (old : Nat → Nat → Nat → Option Nat) (y x k : Nat) (hy : y < dh) (hx : x < dw) (hk : k < chans) :
    warp w ratio chans inp old y x k = some (inp (min y (sh - 1)) (min x (sw - 1)) k) := by
  obtain ⟨hg, _, hs, hd⟩ := (setup_defined mode pts g sw sh dw dh junk).1 ⟨w, hw⟩
  have hfin : (some ⌊bilinear sw sh (fun r c => inp r c k) (clamp sw sh ⟨x, y⟩)⌋₊ : Option Nat) = some (inp (min y (sh - 1)) (min x (sw - 1)) k) := by
    rw [clamp_int sw sh x y hs, bilinear_int sw sh _ _ _ (by omega) (by omega)]
  by_cases h2 : 2 ≤ pts.length
  · rcases hcase with ⟨rfl, hdef⟩ | ⟨htwo, hid⟩ | h1
    · obtain ⟨_, _, e1, e2, e3, e4, e5, _⟩ := setup_inv h2 hw
      rw [warp_pixel w 0 chans inp old y x k (by omega) (by rw [e2, e3]; exact hs) (by omega) (by omega) hk, pixelDelta_eval h2 hw y x hy hx]
      have n1 := start_node g dh y hy
      have n2 := start_node g dw x hx
      have n3 := next_node g dh y hy
      have n4 := next_node g dw x hx
      obtain ⟨a, ha⟩ := Option.ne_none_iff_exists'.1 (hdef _ _ n1.1 n2.1 n1.2 n2.2)
      obtain ⟨b, hb⟩ := Option.ne_none_iff_exists'.1 (hdef _ _ n1.1 n4.1 n1.2 n4.2)
      obtain ⟨c, hc⟩ := Option.ne_none_iff_exists'.1 (hdef _ _ n3.1 n2.1 n3.2 n2.2)
      obtain ⟨d, hd⟩ := Option.ne_none_iff_exists'.1 (hdef _ _ n3.1 n4.1 n3.2 n4.2)
      unfold cellDelta
      dsimp only
      rw [ha, hb, hc, hd]
      simp only [Option.map_some, mul_zero, add_zero]
      rw [e2, e3]
      exact hfin
    · have hid' : ∀ v : Pt, (⟨1, 0, 0, 0⟩ : Sim).app v = v := by
        intro v; unfold Sim.app; apply pt_eq <;> dsimp only <;> ring
      rw [warp_exact_partial mode pts ⟨1, 0, 0, 0⟩ (by intro _; norm_num) (fun e he => by rw [hid', hid e he]) htwo g sw sh dw dh junk w hw ratio
        chans inp old y x k hy hx hk (.inr ⟨rfl, rfl⟩), hid']
      have : along ⟨x, y⟩ ⟨x, y⟩ ratio = ⟨x, y⟩ := by unfold along; apply pt_eq <;> dsimp only <;> ring
      rw [this]
      exact hfin
    · omega
  · obtain ⟨_, _, rfl⟩ := setup_one h2 hw
    rw [warp_pixel _ ratio chans inp old y x k hg hs hy hx hk]
    have n1 := (start_node g dh y hy).1
    have n2 := (start_node g dw x hx).1
    have n3 := (next_node g dh y hy).1
    have n4 := (next_node g dw x hx).1
    unfold pixelDelta cellDelta
    dsimp only
    rw [if_pos ⟨n1, n2⟩, if_pos ⟨n1, n4⟩, if_pos ⟨n3, n2⟩, if_pos ⟨n3, n4⟩]
    simp only [Option.map_some]
    have : ∀ X Y : ℝ, interp X Y 0 0 0 0 = 0 := by intro X Y; unfold interp; ring
    rw [this]
    simp only [zero_mul, add_zero]
    exact hfin

/-- A single control point is ignored: the claim that a control point at a multiple of the grid step shows its source needs a second point. -/
theorem warp_single_refuted : ¬∀ (mode : Mode) (g sw sh dw dh y x r c : Nat) (junk : Nat → Nat → Option Pt) (w : Warper),
    setup mode [(⟨x, y⟩, ⟨c, r⟩)] g sw sh dw dh junk = some w → ∀ (chans : Nat) (inp : Nat → Nat → Nat → Nat) (old : Nat → Nat → Nat → Option Nat) (k : Nat),
    y < dh → x < dw → r < sh → c < sw → k < chans → g ∣ y → g ∣ x → warp w 1 chans inp old y x k = some (inp r c k) := by
  intro h
  obtain ⟨w, hw⟩ := (setup_defined .rigid [(⟨(0 : Nat), (0 : Nat)⟩, ⟨(1 : Nat), (0 : Nat)⟩)] 1 2 1 2 1 (fun _ _ => none)).2 ⟨by omega, by simp, ⟨by omega, by omega⟩, by omega, by omega⟩
  have a := h .rigid 1 2 1 2 1 0 0 0 1 _ w hw 1 (fun _ c _ => c) (fun _ _ _ => none) 0 (by omega) (by omega) (by omega) (by omega) (by omega) (by simp) (by simp)
  rw [warp_copy .rigid _ 1 2 1 2 1 _ w hw 1 (.inr (.inr rfl)) 1 _ _ 0 0 0 (by omega) (by omega) (by omega)] at a
  norm_num at a

example : ∃ w, setup .similarity samplePts 2 5 3 7 6 (fun _ _ => none) = some w :=
  (setup_defined _ _ _ _ _ _ _ _).2 ⟨by omega, by simp [samplePts], ⟨by omega, by omega⟩, by omega, by omega⟩

example : ∀ r c : Nat, r < 6 → c < 7 → newPoint .similarity samplePts ⟨c, r⟩ ≠ none := by
  intro r c _ _
  obtain ⟨e, he, e', he', hne⟩ := samplePts_two
  rw [node_exact .similarity samplePts ⟨2, 0, 0, 0⟩ (by intro h; cases h) samplePts_exact e e' he he' hne]
  simp

end Litiv.Warp
