import Verif.Model.LSS

/-!
# Model of the shape context descriptor, `modules/features2d/src/SC.cpp` (CPU version)

Points are complex numbers (abscissa, ordinate), numbers are exact reals; the code uses `float` and `double`. `std::atan2(y,x)` is `Complex.arg ⟨x, y⟩`.
Contours come from `cv::findContours` and are an input of the model; the structuring element of `cv::dilate`, drawn by `cv::circle`, is an input too.
-/

namespace Litiv.SC

open Classical

/-- Parameters of an extractor, `SC.cpp:27-44,85-103`. -/
structure Cfg where
  /-- `m_nAngularBins` -/
  A : Nat
  /-- `m_nRadialBins` -/
  R : Nat
  /-- `m_nInnerRadius` or `m_dInnerRadius` -/
  inner : ℝ
  /-- `m_nOuterRadius` or `m_dOuterRadius` -/
  outer : ℝ
  /-- `m_bUseRelativeSpace` -/
  relative : Bool
  /-- `m_bRotationInvariant` -/
  rot : Bool
  /-- `m_bNormalizeBins` -/
  normalize : Bool
  /-- `m_bNonZeroInitBins` -/
  nonzero : Bool

/-- The checks of the constructors, `SC.cpp:45-48,104-107`. -/
structure Cfg.Valid (c : Cfg) : Prop where
  ang : 0 < c.A
  rad : 0 < c.R
  inner : 0 < c.inner
  outer : 0 < c.outer ∧ c.inner < c.outer

/-- The loop of `scdesc_generate_radmask`, `SC.cpp:337-339`: `m` limits remain, `acc` is `dAccDelta`. -/
noncomputable def radLoop (logMin delta : ℝ) : Nat → ℝ → List ℝ
  | 0, _ => []
  | m + 1, acc => (2 : ℝ) ^ (logMin + acc) :: radLoop logMin delta m (acc + delta)

/-- `m_vRadialLimits`, `SC.cpp:325-340`. -/
noncomputable def radLimits (c : Cfg) : List ℝ :=
  if c.R = 1 then [c.outer]
  else
    let delta := (Real.logb 2 c.outer - Real.logb 2 c.inner) / ((c.R : ℝ) - 1)
    c.inner :: radLoop (Real.logb 2 c.inner) delta (c.R - 1) delta

/-- The loop of `scdesc_generate_angmask`, `SC.cpp:346-347`. -/
noncomputable def angLoop (delta : ℝ) : Nat → ℝ → List ℝ
  | 0, _ => []
  | m + 1, acc => (acc + delta) :: angLoop delta m (acc + delta)

/-- `m_vAngularLimits`, `SC.cpp:342-348`. -/
noncomputable def angLimits (c : Cfg) : List ℝ := angLoop (2 * Real.pi / c.A) c.A 0

/-- `FLT_EPSILON`. -/
noncomputable def eps : ℝ := 1 / 2 ^ 23

/-- `std::fmod`: the quotient is truncated. -/
noncomputable def fmod (x m : ℝ) : ℝ := if 0 ≤ x / m then x - m * ⌊x / m⌋ else x - m * ⌈x / m⌉

/-- `std::round`: halves are rounded away from zero. -/
noncomputable def cround (x : ℝ) : Int := if 0 ≤ x then ⌊x + 1 / 2⌋ else ⌈x - 1 / 2⌉

/-- `vMassCenter`, `SC.cpp:443-449`. -/
noncomputable def massCenter (contour : List ℂ) : ℂ :=
  let s := contour.foldl (fun s p => s + p) 0
  ⟨s.re / contour.length, s.im / contour.length⟩

/-- `m_oDistMap` before the division, `SC.cpp:455-457`. -/
noncomputable def keyDist (k p : ℂ) : ℝ := Real.sqrt ((k.im - p.im) ^ 2 + (k.re - p.re) ^ 2)

/-- `m_oAngMap`, `SC.cpp:458-467`. -/
noncomputable def keyAng (rot : Bool) (mass k p : ℂ) : ℝ :=
  if keyDist k p < 1 / 100 then 0
  else
    let a := Complex.arg ⟨-(k.re - p.re), k.im - p.im⟩
    let a := if rot then a - Complex.arg ⟨(p - mass).re, -(p - mass).im⟩ else a
    fmod (a + 2 * Real.pi + eps) (2 * Real.pi)

/-- `cv::mean` of the distances, `SC.cpp:472`. -/
noncomputable def meanDist (keys contour : List ℂ) : ℝ :=
  ((keys.map fun k => (contour.map fun p => keyDist k p).sum).sum) / (keys.length * contour.length)

/-- The divisor of the distances, `SC.cpp:470-474`. -/
noncomputable def scale (c : Cfg) (keys contour : List ℂ) : ℝ := if c.relative then meanDist keys contour + eps else 1

/-- The search for a bin, `SC.cpp:498-503,504-509`: the first limit above the value. -/
noncomputable def findBin (limits : List ℝ) (v : ℝ) : Option Nat := limits.findIdx? fun l => decide (v < l)

/-- The bin of a contour point, `SC.cpp:494-511`. -/
noncomputable def mapBin (c : Cfg) (mass : ℂ) (sc : ℝ) (k p : ℂ) : Option Nat :=
  if |k.re - p.re| < 1 / 100 ∧ |k.im - p.im| < 1 / 100 then none
  else
    match findBin (radLimits c) (keyDist k p / sc), findBin (angLimits c) (keyAng c.rot mass k p) with
    | some r, some a => some (a + r * c.A)
    | _, _ => none

/-- The bin of a contour point in the lookup mask, `SC.cpp:568-572`; the mask has `2*outer+1` rows and columns. -/
noncomputable def lookBin (m : LSS.Mask) (outer : Nat) (k p : ℂ) : Option Nat :=
  let row := cround (p.im - k.im) + outer
  let col := cround (p.re - k.re) + outer
  let n : Int := 2 * outer + 1
  if row < 0 ∨ n ≤ row ∨ col < 0 ∨ n ≤ col ∨ m.cell (row * n + col).toNat = -1 then none
  else some (m.cell (row * n + col).toNat).toNat

/-- The loop over the contour points for one descriptor, `SC.cpp:493-512,565-601`. -/
noncomputable def accum (bin : ℂ → Option Nat) (contour : List ℂ) (d : Nat → ℝ) : Nat → ℝ :=
  contour.foldl (fun d p =>
    match bin p with
    | none => d
    | some b => fun b' => if b' = b then d b' + 1 else d b') d

/-- The initial value of bins, `SC.cpp:486,554`. -/
noncomputable def initVal (c : Cfg) : ℝ := if c.nonzero then max (10 / ((c.R * c.A : Nat) : ℝ)) (1 / 2) else 0

/-- Normalization of a descriptor, `SC.cpp:613,618-623`. -/
noncomputable def normDesc (D : Nat) (d : Nat → ℝ) : Nat → ℝ :=
  let n := Real.sqrt (((List.range D).map fun b => d b ^ 2).sum)
  if n > 1 / 100000 then fun b => d b / n else fun _ => Real.sqrt (1 / D)

/-- `scdesc_norm` for one descriptor, when it is requested, `SC.cpp:514-515,603-604`. -/
noncomputable def finish (c : Cfg) (d : Nat → ℝ) : Nat → ℝ := if c.normalize then normDesc (c.R * c.A) d else d

/-- How contour points are given bins: with the two maps, `SC.cpp:487,493-512`, or with the lookup mask, `SC.cpp:59-61,565-572`.
The lookup mask is used when distances are absolute and angles are not relative, `SC.cpp:236-239,260-263,305-308`. -/
noncomputable def binOf (c : Cfg) (outer : Nat) (keys contour : List ℂ) (k p : ℂ) : Option Nat :=
  if !c.relative && !c.rot then (LSS.getLogPolarMask (outer * 2 + 1) c.R c.A true c.inner).bind fun m => lookBin m outer k p
  else mapBin c (if c.rot then massCenter contour else 0) (scale c keys contour) k p

/-- `m_oDistMask(row,col)==0`, `SC.cpp:52-56,411-413`: no set pixel of the image under the structuring element. -/
def farFrom (kernel : Int → Int → Bool) (rows cols : Nat) (img : Int → Int → Bool) (r q : Int) : Bool :=
  !(List.range rows).any fun (r' : Nat) => (List.range cols).any fun (q' : Nat) => img r' q' && kernel (r' - r) (q' - q)

/-- The test of `SC.cpp:562-563`, only made with the lookup mask. -/
def skipped (c : Cfg) (kernel : Int → Int → Bool) (rows cols : Nat) (img : Int → Int → Bool) (r q : Int) : Bool :=
  !c.relative && !c.rot && farFrom kernel rows cols img r q

/-- One iteration over the key points, when the output has one row for each key point, `SC.cpp:488-513,558-602`.
`none`: out of bounds of the distance mask. -/
noncomputable def listStep (c : Cfg) (outer : Nat) (kernel : Int → Int → Bool) (rows cols : Nat) (img : Int → Int → Bool) (keys contour : List ℂ) (k : ℂ) :
    Option (Nat → ℝ) :=
  let r := cround k.im
  let q := cround k.re
  if !c.relative && !c.rot && !decide (0 ≤ r ∧ r < rows ∧ 0 ≤ q ∧ q < cols) then none
  else some (if skipped c kernel rows cols img r q then fun _ => initVal c else accum (binOf c outer keys contour k) contour fun _ => initVal c)

/-- The descriptors of `detectAndCompute`, `SC.cpp:303-308`: `scdesc_fill_desc` and `scdesc_fill_desc_direct` with one row for each key point,
`SC.cpp:477-516,518-605`, for at least one key point. Rows are distinct, so the parallel loop is the sequential one. -/
noncomputable def fillList (c : Cfg) (outer : Nat) (kernel : Int → Int → Bool) (rows cols : Nat) (img : Int → Int → Bool) (keys contour : List ℂ) :
    Option (List (Nat → ℝ)) :=
  (keys.mapM (listStep c outer kernel rows cols img keys contour)).map fun ds => ds.map (finish c)

/-- One iteration over the key points, when the output is a map of descriptors with the size of the image, `SC.cpp:488-513,558-602`. `none`: out of bounds. -/
noncomputable def mapStep (c : Cfg) (outer : Nat) (kernel : Int → Int → Bool) (rows cols : Nat) (img : Int → Int → Bool) (keys contour : List ℂ)
    (d : Int → Int → Nat → ℝ) (k : ℂ) : Option (Int → Int → Nat → ℝ) :=
  let r := cround k.im
  let q := cround k.re
  if 0 ≤ r ∧ r < rows ∧ 0 ≤ q ∧ q < cols then
    some (if skipped c kernel rows cols img r q then d
      else fun r' q' => if r' = r ∧ q' = q then accum (binOf c outer keys contour k) contour (d r q) else d r' q')
  else none

/-- The map of `compute2`, `SC.cpp:236-239,260-263`: `scdesc_fill_desc` and `scdesc_fill_desc_direct` with a map of descriptors, for at least one key
point. The parallel loop of the latter visits the key points in the order `order`; what two threads do to the same pixel at the same time is not modelled. -/
noncomputable def fillMap (c : Cfg) (outer : Nat) (kernel : Int → Int → Bool) (rows cols : Nat) (img : Int → Int → Bool) (keys contour order : List ℂ) :
    Option (Int → Int → Nat → ℝ) :=
  (order.foldlM (mapStep c outer kernel rows cols img keys contour) fun _ _ _ => initVal c).map fun d r q => finish c (d r q)

/-- All the pixels of an image, `SC.cpp:225-229`. -/
def allPixels (rows cols : Nat) : List ℂ := (List.range rows).flatMap fun (r : Nat) => (List.range cols).map fun (q : Nat) => ⟨(q : ℝ), (r : ℝ)⟩

/-- What an extractor keeps between calls: `m_oCurrImageSize`, `m_bUsingFullKeyPtMap`, `m_oKeyPts`. -/
structure St where
  /-- rows and columns of the last image -/
  size : Nat × Nat
  /-- whether the key points are all the pixels -/
  full : Bool
  /-- the key points -/
  keys : List ℂ

/-- A call of a public function. -/
inductive Op where
  /-- `compute2(image, map)`, `SC.cpp:221-240` -/
  | dense (size : Nat × Nat)
  /-- `compute2(image, keypoints, map)`, `SC.cpp:242-264`; the contour points of the image -/
  | sparse (size : Nat × Nat) (keys contour : List ℂ)
  /-- `detectAndCompute`, `SC.cpp:279-309`; the key points that remain after the mask -/
  | detect (size : Nat × Nat) (kept : List ℂ)

/-- The state after a call; for the first two kinds, `keys` are those of which descriptors are computed. -/
noncomputable def step (s : St) : Op → St
  | .dense size => if !s.full || s.size ≠ size then ⟨size, true, allPixels size.1 size.2⟩ else { s with size := size }
  | .sparse size keys contour => ⟨size, false, if keys = [] then contour else keys⟩
  | .detect size kept => if kept = [] then { s with size := size } else ⟨size, false, kept⟩

/-- The state of a new extractor, `SC.cpp:44,103`. -/
def St.new : St := ⟨(0, 0), false, []⟩

/-- The state after a sequence of calls. -/
noncomputable def run (ops : List Op) : St := ops.foldl step St.new

/-- The matrix of the caller after `compute2(image, cv::Mat&)`, `SC.cpp:212-219`: `old` is its size and content before, if any; the local matrix shares
its data unless `create` has to allocate another size. -/
def output {α : Type} (old : Option ((Nat × Nat) × α)) (size : Nat × Nat) (result : α) : Option ((Nat × Nat) × α) :=
  match old with
  | none => some (size, result)
  | some (s, a) => if s = size then some (size, result) else some (s, a)

/-- The mean point of a bin, `SC.cpp:386-389,392-395`. -/
noncomputable def binPoint (c : Cfg) (b : Nat) : ℂ :=
  let r := b / c.A
  let a := b % c.A
  let rad := ((radLimits c).getD r 0 + if r = 0 then 0 else (radLimits c).getD (r - 1) 0) / 2
  let ang := ((angLimits c).getD a 0 + if a = 0 then 0 else (angLimits c).getD (a - 1) 0) / 2
  ⟨rad * Real.cos ang, rad * Real.sin ang⟩

/-- The mean of the cells of a bin of the lookup mask, `SC.cpp:354-371`; the corner if it has none. -/
noncomputable def maskPoint (m : LSS.Mask) (n b : Nat) : ℂ :=
  let cells := (List.range (n * n)).filter fun k => m.cell k = (b : Int)
  if cells = [] then 0
  else
    ⟨(cells.map fun k => ((k % n : Nat) : ℝ)).sum / cells.length, (cells.map fun k => ((k / n : Nat) : ℝ)).sum / cells.length⟩

/-- The distance between two points, `SC.cpp:377,397`. -/
noncomputable def cost (p q : ℂ) : ℝ := Real.sqrt ((q.re - p.re) ^ 2 + (q.im - p.im) ^ 2)

/-- `m_oEMDCostMap`, `SC.cpp:350-404`, at the bins `b` and `o`. -/
noncomputable def emdCost (c : Cfg) (outer : Nat) (b o : Nat) : Option ℝ :=
  if !c.relative && !c.rot then
    (LSS.getLogPolarMask (outer * 2 + 1) c.R c.A true c.inner).map fun m =>
      cost (maskPoint m (outer * 2 + 1) b) (maskPoint m (outer * 2 + 1) o) / ((outer : ℝ) / 2)
  else some (cost (binPoint c b) (binPoint c o) / ((radLimits c).getLastD 0 / 2))

end Litiv.SC
