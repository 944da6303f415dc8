import Verif.Lemmas.GLPreload

/-!
# Properties of the shared memory preloading, the median blur and the neighbour function (C157-C159)
-/

namespace Litiv.GLPreload

variable {α : Type}

/-- C157: whenever all invocations of a work group have left `preload_data`, in whatever order they took their turns, the
shared array holds the pixel of the image at every position of the window, border included; nothing depends on what the
shared arrays held before. -/
theorem preload_complete (g : Shape) (hw : 3 < g.w) (hh : 3 < g.h) (ht : Truncated g.w g.h g.t)
    (img : Int → Int → α) (o : Cell) (d₀ : Cell → α) (c₀ : Fin 4 → Nat) (sched : List (Nat × Nat))
    (hs : ∀ i ∈ sched, i.1 < g.w ∧ i.2 < g.h)
    (hd : ∀ i : Nat × Nat, i.1 < g.w → i.2 < g.h → (preload g img o d₀ c₀ sched).pc i = .done)
    (x y : Int) (hx : -g.b ≤ x) (hx' : x < g.w + g.b) (hy : -g.b ≤ y) (hy' : y < g.h + g.b) :
    (preload g img o d₀ c₀ sched).data (x, y) = img (o.1 + x) (o.2 + y) :=
  window_loaded g img o _ (preload_inv g img o d₀ c₀ (quads_nonempty g hw hh ht) sched hs)
    (quads_nonempty g hw hh ht) (fun i hi => hd i hi.1 hi.2) x y hx hx' hy hy'

/-- C157: every invocation leaves `preload_data` after a bounded number of its own steps, whatever the others do. -/
theorem preload_terminates (g : Shape) (img : Int → Int → α) (o : Cell) (d₀ : Cell → α) (c₀ : Fin 4 → Nat)
    (sched : List (Nat × Nat)) (i : Nat × Nat) (hc : 2 * ((max g.w g.h + g.b) * g.b) < sched.count i) :
    (preload g img o d₀ c₀ sched).pc i = .done := by
  refine preload_done g img o d₀ c₀ sched i (lt_of_le_of_lt ?_ hc)
  refine Nat.mul_le_mul_left _ (Nat.mul_le_mul_right _ ?_)
  generalize quad g i = q
  fin_cases q <;> simp [rowLen]

/-- C157: all copies go to cells of the shared array. -/
theorem preload_in_bounds (g : Shape) (q : Fin 4) (k : Nat) (hk : k < rowLen g q * g.b) :
    0 ≤ (cell g q k).1 + g.b ∧ (cell g q k).1 + g.b < g.w + 2 * g.b ∧
    0 ≤ (cell g q k).2 + g.b ∧ (cell g q k).2 + g.b < g.h + 2 * g.b := by
  have := cell_in_window g q k hk
  omega

/-- The default work group of 12x8 with a border of two pixels. -/
def demoShape : Shape := ⟨12, 8, 2, fun x => x * 8 / 12⟩

example : Truncated demoShape.w demoShape.h demoShape.t :=
  ⟨by decide, by decide, by decide⟩

/-- A small work group, and a fair schedule of it. -/
def smallShape : Shape := ⟨4, 4, 1, fun x => x⟩

def smallSched : List (Nat × Nat) :=
  (List.replicate 11 ((List.range 4).map fun x => (List.range 4).map fun y => (3 - x, y)).flatten).flatten

def smallRun : St Int := preload smallShape (fun x y => 100 * x + y) (20, 30) (fun _ => -1) (fun _ => 7) smallSched

example : (∀ x < 4, ∀ y < 4, smallRun.pc (x, y) = .done) ∧
    smallRun.data (-1, -1) = 1929 ∧ smallRun.data (4, 4) = 2434 ∧ smallRun.data (4, -1) = 2429 := by decide +kernel

/-- Why the callers need a barrier after `preload_data`: an invocation may leave it before the window is complete. -/
theorem early_read_refuted :
    let s := preload smallShape (fun x y => 100 * x + y) (20, 30) (fun _ => (-1 : Int)) (fun _ => 7)
      ((0, 0) :: List.replicate 40 (1, 0))
    quad smallShape (0, 0) = 0 ∧ quad smallShape (1, 0) = 0 ∧ s.pc (1, 0) = .done ∧ s.data (-1, -1) = -1 := by
  decide +kernel

/-! ### Median blur -/

/-- C158: for odd kernels the blur of a pixel is the median of the binary image, with background outside of it. -/
theorem blur_is_median_partial (r : Nat) (img : Int → Int → Nat) (v : Cell) :
    directBlur (2 * r + 1) img v = median img r v.1 v.2 := by
  rw [directBlur_count, median]
  have h2 : (2 * r + 1) / 2 = r := by omega
  have hodd : (2 * r + 1) * (2 * r + 1) = 2 * (2 * r * r + 2 * r) + 1 := by ring
  rw [h2]
  by_cases h : (2 * r + 1) * (2 * r + 1) < 2 * foreground img r v.1 v.2
  · rw [if_pos h, if_pos (by omega)]
  · rw [if_neg h, if_neg (by omega)]

example : directBlur 3 (fun x y => if x = y ∨ x = y + 1 then 255 else 0) (5, 5) = 255 := by decide +kernel
example : directBlur 3 (fun x y => if x = y then 255 else 0) (5, 5) = 0 := by decide +kernel

/-- C158 does not hold for even kernels, which are accepted: three of nine pixels are enough for a kernel of size two. -/
theorem even_kernel_refuted :
    directBlur 2 (fun x y => if x = 0 ∧ y ≤ 0 then 255 else 0) (1, 0) = 0 ∧
    directBlur 2 (fun x _ => if x = 0 then 255 else 0) (1, 0) = 255 ∧
    foreground (fun x _ => if x = 0 then 255 else 0) 1 1 0 = 3 := by decide +kernel

/-- C158: with shared memory, once the work group has passed the barrier after `preload_data`, the blur of an invocation
at its own pixel is the one computed from the image. -/
theorem shared_is_direct (n : Nat) (g : Shape) (hb : g.b = n / 2) (hw : 3 < g.w) (hh : 3 < g.h)
    (ht : Truncated g.w g.h g.t) (img : Int → Int → Nat) (o : Cell) (d₀ : Cell → Nat) (c₀ : Fin 4 → Nat)
    (sched : List (Nat × Nat)) (hs : ∀ i ∈ sched, i.1 < g.w ∧ i.2 < g.h)
    (hd : ∀ i : Nat × Nat, i.1 < g.w → i.2 < g.h → (preload g img o d₀ c₀ sched).pc i = .done)
    (lx ly : Nat) (hx : lx < g.w) (hy : ly < g.h) :
    sharedBlur n (preload g img o d₀ c₀ sched).data (o.1 + lx, o.2 + ly) (lx, ly) (o.1 + lx, o.2 + ly) =
      directBlur n img (o.1 + lx, o.2 + ly) := by
  unfold sharedBlur directBlur
  refine blurOf_congr n _ _ fun d hd' => ?_
  rw [mem_kernelOffsets] at hd'
  have := preload_complete g hw hh ht img o d₀ c₀ sched hs hd (lx + d.1) (ly + d.2)
    (by omega) (by omega) (by omega) (by omega)
  dsimp only
  rw [show o.1 + (lx : Int) - (o.1 + lx) + lx + d.1 = lx + d.1 by ring,
    show o.2 + (ly : Int) - (o.2 + ly) + ly + d.2 = ly + d.2 by ring, this, Int.add_assoc, Int.add_assoc]

/-- C158: the post-processing stage, if all work groups preload before any of them stores, gives the median of the raw
mask at every pixel of the frame. -/
theorem postproc_partial (r w h fw fh : Nat) (raw : Int → Int → Nat) (loads stores : List Ev)
    (hl : ∀ e ∈ loads, ∃ gx gy, e = .load gx gy) (hs : ∀ e ∈ stores, ∃ gx gy, e = .store gx gy ∧ .load gx gy ∈ loads)
    (x y : Nat) (hx : x < fw) (hy : y < fh) (hw : 0 < w) (hh : 0 < h) (hcov : .store (x / w) (y / h) ∈ stores) :
    postProc (2 * r + 1) w h fw fh raw (loads ++ stores) x y = median raw r x y := by
  classical
  unfold postProc
  rw [List.foldl_append]
  obtain ⟨h1, h2⟩ := post_loads (2 * r + 1) w h fw fh ⟨raw, fun _ _ _ => 0⟩ loads hl
  rw [post_stores (2 * r + 1) w h fw fh raw _ stores (fun e he => by
    obtain ⟨a, b, h3, h4⟩ := hs e he
    exact ⟨a, b, h3, h2 a b h4⟩) x y, if_pos, blur_is_median_partial]
  refine ⟨x / w, y / h, hcov, ?_, ?_, ?_, ?_, by exact_mod_cast hx, by exact_mod_cast hy⟩
  · exact_mod_cast Nat.div_mul_le_self x w
  · exact_mod_cast Nat.lt_div_mul_add hw
  · exact_mod_cast Nat.div_mul_le_self y h
  · exact_mod_cast Nat.lt_div_mul_add hh

/-- A raw mask on an 8x4 frame of two work groups. -/
def rawMask (x y : Int) : Nat := if 0 ≤ y ∧ y < 4 ∧ (x = 3 ∨ (x = 5 ∧ y ≤ 1)) then 255 else 0

example : (∀ e ∈ [Ev.load 0 0, .load 1 0], ∃ gx gy, e = .load gx gy) ∧
    (∀ e ∈ [Ev.store 1 0, .store 0 0], ∃ gx gy, e = .store gx gy ∧ .load gx gy ∈ [Ev.load 0 0, .load 1 0]) := by
  simp

/-- C158 does not hold in general: the stage filters its image in place, so that the result next to the border of two
work groups depends on which one comes first; here in an order in which every work group still loads before it stores. -/
theorem postproc_refuted :
    postProc 3 4 4 8 4 rawMask [.load 0 0, .load 1 0, .store 0 0, .store 1 0] 4 1 = 255 ∧
    postProc 3 4 4 8 4 rawMask [.load 0 0, .store 0 0, .load 1 0, .store 1 0] 4 1 = 0 ∧ median rawMask 1 4 1 = 255 := by
  decide +kernel

/-! ### Random neighbours -/

/-- C159: every result is one of the eight neighbours, and every neighbour is the result for some random value. -/
theorem neighbours (b fw fh : Nat) (p q : Cell) :
    adjacent p q ↔ ∃ r : BitVec 32, randNeighbor b fw fh p r = q := by
  obtain ⟨px, py⟩ := p
  obtain ⟨qx, qy⟩ := q
  constructor
  · rintro ⟨hne, h1, h2⟩
    rw [abs_le] at h1 h2
    dsimp only at h1 h2
    have hx : qx - px = -1 ∨ qx - px = 0 ∨ qx - px = 1 := by omega
    have hy : qy - py = -1 ∨ qy - py = 0 ∨ qy - py = 1 := by omega
    have key : ∀ r : BitVec 32, ∀ d : Cell, pattern3x3 ⟨r.toNat % 8, Nat.mod_lt _ (by decide)⟩ = d →
        qx - px = d.1 → qy - py = d.2 → ∃ r : BitVec 32, randNeighbor b fw fh (px, py) r = (qx, qy) := by
      intro r d hd e1 e2
      refine ⟨r, ?_⟩
      unfold randNeighbor
      rw [hd]
      ext <;> dsimp only <;> omega
    rcases hx with hx | hx | hx <;> rcases hy with hy | hy | hy
    · exact key 5 (-1, -1) (by decide) hx hy
    · exact key 3 (-1, 0) (by decide) hx hy
    · exact key 0 (-1, 1) (by decide) hx hy
    · exact key 6 (0, -1) (by decide) hx hy
    · exfalso
      apply hne
      ext <;> dsimp only <;> omega
    · exact key 1 (0, 1) (by decide) hx hy
    · exact key 7 (1, -1) (by decide) hx hy
    · exact key 4 (1, 0) (by decide) hx hy
    · exact key 2 (1, 1) (by decide) hx hy
  · rintro ⟨r, hr⟩
    unfold randNeighbor at hr
    have all : ∀ i : Fin 8, pattern3x3 i ≠ (0, 0) ∧ |(pattern3x3 i).1| ≤ 1 ∧ |(pattern3x3 i).2| ≤ 1 := by decide
    obtain ⟨h1, h2, h3⟩ := all ⟨r.toNat % 8, Nat.mod_lt _ (by decide)⟩
    generalize pattern3x3 ⟨r.toNat % 8, Nat.mod_lt _ (by decide)⟩ = d at *
    obtain ⟨d1, d2⟩ := d
    simp only [Prod.mk.injEq] at hr
    obtain ⟨rfl, rfl⟩ := hr
    refine ⟨fun he => ?_, ?_, ?_⟩
    · simp only [Prod.mk.injEq] at he
      apply h1
      ext <;> dsimp only <;> omega
    · simpa using h2
    · simpa using h3

/-- C159: for a position at least one pixel further inside than the border, the neighbour is inside. -/
theorem neighbour_inside_partial (b fw fh : Nat) (p : Cell) (r : BitVec 32) (hp : insideFrame (b + 1) fw fh p) :
    insideFrame b fw fh (randNeighbor b fw fh p r) := by
  obtain ⟨_, h1, h2⟩ := (neighbours b fw fh p _).mpr ⟨r, rfl⟩
  rw [abs_le] at h1 h2
  unfold insideFrame at *
  push_cast at hp
  omega

example : insideFrame 3 20 10 (5, 6) := by unfold insideFrame; decide

/-- C159 does not hold at the border: the call of `clamp` has no effect. -/
theorem neighbour_inside_refuted :
    insideFrame 0 20 10 (0, 0) ∧ ¬ insideFrame 0 20 10 (randNeighbor 0 20 10 (0, 0) 5) := by
  unfold insideFrame
  decide +kernel

end Litiv.GLPreload
