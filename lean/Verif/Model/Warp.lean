import Mathlib.Analysis.Real.Sqrt
import Mathlib.Algebra.Order.Floor.Semiring

/-!
# Model of the image warper of modules/imgproc/src/imwarp.cpp (compile-time settings `USE_RIGID_PRESCALE 0`, `DIST_EXP_ALPHA 1.0`)

`double` values are exact real numbers; a value that would be NaN is `none`. Integer indices are natural numbers (no overflow).
-/

namespace Litiv.Warp

/-- `cv::Point2d`. -/
structure Pt where
  /-- abscissa -/
  x : ℝ
  /-- ordinate -/
  y : ℝ

/-- `WarpModes`, `imwarp.hpp:26-30` (without the custom mode, which is left to derived classes). -/
inductive Mode where
  | rigid
  | similarity
  deriving DecidableEq

/-- `Point2d::dot`. -/
def Pt.dot (a b : Pt) : ℝ := a.x * b.x + a.y * b.y

/-- The orthogonal vector, `imwarp.cpp:183,190,195`. -/
def Pt.perp (a : Pt) : Pt := ⟨-a.y, a.x⟩

/-- Difference of points. -/
def Pt.sub (a b : Pt) : Pt := ⟨a.x - b.x, a.y - b.y⟩

/-- Sum of points. -/
def Pt.add (a b : Pt) : Pt := ⟨a.x + b.x, a.y + b.y⟩

/-- Multiple of a point. -/
def Pt.smul (k : ℝ) (a : Pt) : Pt := ⟨k * a.x, k * a.y⟩

/-- `interp` for `double`, `imwarp.cpp:37-40`. -/
def interp (x y v11 v12 v21 v22 : ℝ) : ℝ := (v11 * (1 - y) + v12 * y) * (1 - x) + (v21 * (1 - y) + v22 * y) * x

/-- `interp` for `uchar`: the result is truncated, `imwarp.cpp:39`. -/
noncomputable def interpByte (x y : ℝ) (v11 v12 v21 v22 : Nat) : Nat := ⌊interp x y v11 v12 v21 v22⌋₊

/-- The positions visited by the loops over columns and rows, `imwarp.cpp:144-148,149-153` (and `imwarp.cpp:227-236`), from `pos` on; `none` when the
fuel is not enough. -/
def nodeLoop (g W : Nat) : Nat → Nat → Option (List Nat)
  | 0, _ => none
  | fuel + 1, pos =>
    if W ≤ pos ∧ pos < W + g - 1 then (nodeLoop g W fuel (W - 1 + g)).map fun l => (W - 1) :: l
    else if W ≤ pos then some []
    else (nodeLoop g W fuel (pos + g)).map fun l => pos :: l

/-- The accumulated sums of the first loop over the points, `imwarp.cpp:154-155`, and the weights `vL2SqrDists`, `imwarp.cpp:128`. -/
structure Acc where
  /-- `dInvDistSum` -/
  inv : ℝ
  /-- `vDestPtDistSum` -/
  dest : Pt
  /-- `vSourcePtDistSum` -/
  source : Pt
  /-- the weights -/
  ws : List ℝ

/-- The first loop over the points (destination, source), `imwarp.cpp:157-170` (`imwarp.cpp:240-251`); `inl` when a destination point is at `v`, with its
source point. -/
noncomputable def gather (v : Pt) : List (Pt × Pt) → Acc → Pt ⊕ Acc
  | [], a => .inr a
  | (p, q) :: l, a =>
    open Classical in
    if v.x = p.x ∧ v.y = p.y then .inl q
    else
      let w := 1 / ((v.x - p.x) * (v.x - p.x) + (v.y - p.y) * (v.y - p.y))
      gather v l ⟨a.inv + w, a.dest.add (p.smul w), a.source.add (q.smul w), a.ws ++ [w]⟩

/-- `dMIU` of the rigid mode, `imwarp.cpp:178-188`. -/
noncomputable def rigidMu (v wd wq : Pt) (pts : List ((Pt × Pt) × ℝ)) : ℝ :=
  let s := pts.foldl (fun s e =>
    open Classical in
    if v.x = e.1.1.x ∧ v.y = e.1.1.y then s
    else
      let i := e.1.1.sub wd
      let j := e.1.2.sub wq
      (s.1 + e.2 * j.dot i, s.2 + e.2 * j.dot i.perp)) ((0 : ℝ), (0 : ℝ))
  Real.sqrt (s.1 * s.1 + s.2 * s.2)

/-- `dMIU` of the similarity mode, `imwarp.cpp:259-265`. -/
noncomputable def similarityMu (v wd : Pt) (pts : List ((Pt × Pt) × ℝ)) : ℝ :=
  pts.foldl (fun s e =>
    open Classical in
    if v.x = e.1.1.x ∧ v.y = e.1.1.y then s
    else
      let i := e.1.1.sub wd
      s + e.2 * i.dot i) 0

/-- The last loop over the points, `imwarp.cpp:189-201` (`imwarp.cpp:266-278`). -/
noncomputable def moved (v wd : Pt) (mu : ℝ) (pts : List ((Pt × Pt) × ℝ)) : Pt :=
  let c := v.sub wd
  pts.foldl (fun s e =>
    open Classical in
    if v.x = e.1.1.x ∧ v.y = e.1.1.y then s
    else
      let i := e.1.1.sub wd
      let q := e.1.2
      let t : Pt := ⟨i.dot c * q.x - i.perp.dot c * q.y, -i.dot c.perp * q.x + i.perp.dot c.perp * q.y⟩
      s.add (t.smul (e.2 / mu))) ⟨0, 0⟩

/-- The position assigned to `v`, `imwarp.cpp:154-203` (`imwarp.cpp:237-280`). When `dMIU` is zero, the terms of the sum of `imwarp.cpp:200` are infinite with both
signs, or zero times infinity: both coordinates are NaN. -/
noncomputable def newPoint (mode : Mode) (pts : List (Pt × Pt)) (v : Pt) : Option Pt :=
  match gather v pts ⟨0, ⟨0, 0⟩, ⟨0, 0⟩, []⟩ with
  | .inl q => some q
  | .inr a =>
    let wd := a.dest.smul (1 / a.inv)
    let wq := a.source.smul (1 / a.inv)
    let wpts := pts.zip a.ws
    let mu := if mode = .rigid then rigidMu v wd wq wpts else similarityMu v wd wpts
    open Classical in
    if mu = 0 then none else some ((moved v wd mu wpts).add wq)

/-- A warper after `initialize`, `imwarp.hpp:58-64`. -/
structure Warper where
  /-- `m_nGridSize` -/
  g : Nat
  /-- `m_oSourceSize.width` -/
  sw : Nat
  /-- `m_oSourceSize.height` -/
  sh : Nat
  /-- `m_oDestSize.width` -/
  dw : Nat
  /-- `m_oDestSize.height` -/
  dh : Nat
  /-- `m_oDeltaX` and `m_oDeltaY` at a row and a column -/
  delta : Nat → Nat → Option Pt

/-- Assignment to the delta maps, `imwarp.cpp:208-209` (`imwarp.cpp:281-282`). -/
noncomputable def setDelta (mode : Mode) (pts : List (Pt × Pt)) (d : Nat → Nat → Option Pt) (row col : Nat) : Nat → Nat → Option Pt := fun r c =>
  if r = row ∧ c = col then (newPoint mode pts ⟨col, row⟩).map fun n => n.sub ⟨col, row⟩ else d r c

/-- `initialize` and `computeTransform`, `imwarp.cpp:52-68,122-284`. `junk` is the content of the new delta maps. `none` is an exception, or a loop that does
not end. The points are pairs (destination, source), both lists having the same size. -/
noncomputable def setup (mode : Mode) (pts : List (Pt × Pt)) (g sw sh dw dh : Nat) (junk : Nat → Nat → Option Pt) : Option Warper :=
  if 0 < g ∧ pts ≠ [] ∧ 0 < sw * sh ∧ 0 < dw * dh then
    if pts.length < 2 then some ⟨g, sw, sh, dw, dh, fun r c => if r < dh ∧ c < dw then some ⟨0, 0⟩ else junk r c⟩
    else
      (nodeLoop g dw (dw + 1) 0).bind fun cols => (nodeLoop g dh (dh + 1) 0).map fun rows =>
        ⟨g, sw, sh, dw, dh, cols.foldl (fun d col => rows.foldl (fun d row => setDelta mode pts d row col) d) junk⟩
  else none

/-- The four deltas of a cell, interpolated, `imwarp.cpp:95-98`. -/
noncomputable def cellDelta (d : Nat → Nat → Option Pt) (r c rn cn : Nat) (x y : ℝ) : Option Pt :=
  match d r c, d r cn, d rn c, d rn cn with
  | some a, some b, some e, some f => some ⟨interp x y a.x b.x e.x f.x, interp x y a.y b.y e.y f.y⟩
  | _, _, _, _ => none

/-- The position read in the input for a pixel of a cell, `imwarp.cpp:95-100`: the cell starts at `r`, `c`, ends at `rn`, `cn`, has `ch` rows and `cw`
columns; the pixel is `i`, `j` in the cell. -/
noncomputable def samplePos (w : Warper) (ratio : ℝ) (r c rn cn ch cw i j : Nat) : Option Pt :=
  (cellDelta w.delta r c rn cn ((i : ℝ) / ch) ((j : ℝ) / cw)).map fun d =>
    ⟨max (min ((c : ℝ) + j + d.x * ratio) ((w.sw : ℝ) - 1)) 0, max (min ((r : ℝ) + i + d.y * ratio) ((w.sh : ℝ) - 1)) 0⟩

/-- The value read at a position of the input, `imwarp.cpp:101-114`; `none` when it is out of bounds. -/
noncomputable def readPos (sw sh : Nat) (inp : Nat → Nat → Nat → Nat) (p : Pt) (ch : Nat) : Option Nat :=
  let rl := ⌊p.y⌋₊
  let cl := ⌊p.x⌋₊
  let rh := ⌈p.y⌉₊
  let chi := ⌈p.x⌉₊
  if rl < sh ∧ rh < sh ∧ cl < sw ∧ chi < sw then
    some (interpByte (p.y - rl) (p.x - cl) (inp rl cl ch) (inp rl chi ch) (inp rh cl ch) (inp rh chi ch))
  else none

/-- The pixels of a cell, `imwarp.cpp:81-116`; the state is the output (row, column, channel), where `none` is an undefined value. -/
noncomputable def warpCell (w : Warper) (ratio : ℝ) (chans : Nat) (inp : Nat → Nat → Nat → Nat) (out : Nat → Nat → Nat → Option Nat) (r c : Nat) :
    Nat → Nat → Nat → Option Nat :=
  let rn := if r + w.g ≥ w.dh then w.dh - 1 else r + w.g
  let cn := if c + w.g ≥ w.dw then w.dw - 1 else c + w.g
  let ch := if r + w.g ≥ w.dh then w.dh - 1 - r + 1 else w.g
  let cw := if c + w.g ≥ w.dw then w.dw - 1 - c + 1 else w.g
  (List.range ch).foldl (fun out i => (List.range cw).foldl (fun out j => (List.range chans).foldl (fun out k =>
    fun r' c' k' => if r' = r + i ∧ c' = c + j ∧ k' = k then (samplePos w ratio r c rn cn ch cw i j).bind fun p => readPos w.sw w.sh inp p k
      else out r' c' k') out) out) out

/-- `warp`, `imwarp.cpp:70-120`; `old` is the content of the output after `create`. -/
noncomputable def warp (w : Warper) (ratio : ℝ) (chans : Nat) (inp : Nat → Nat → Nat → Nat) (old : Nat → Nat → Nat → Option Nat) :
    Nat → Nat → Nat → Option Nat :=
  (List.range' 0 ((w.dh + w.g - 1) / w.g) w.g).foldl (fun out r =>
    (List.range' 0 ((w.dw + w.g - 1) / w.g) w.g).foldl (fun out c => warpCell w ratio chans inp out r c) out) old

end Litiv.Warp
