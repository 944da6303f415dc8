import Mathlib.Analysis.SpecialFunctions.Complex.Arg
import Mathlib.Analysis.SpecialFunctions.Log.Base
import Mathlib.Analysis.SpecialFunctions.Pow.Real

/-!
# Model of the local self-similarity descriptor

`modules/utils/src/opencv.cpp:33-99` (`getLogPolarMask`) and `modules/features2d/src/LSS.cpp:30-338`.

Numbers are exact reals; the code uses `float`. The loops over the cells of a mask are written with arbitrary functions in the place of the
floating-point geometry (distance, angle), so that what is shown for all such functions holds for the rounded ones as well.
-/

namespace Litiv.LSS

open Classical

/-! ## Masks -/

/-- A mask with its first and last used cell (`oOutputMask`, `*pnFirstMaskIdx`, `*pnLastMaskIdx`); cells are numbered row by row. -/
structure Mask where
  cell : Nat → Int
  first : Nat
  last : Nat

/-- The loops over the cells, `opencv.cpp:42-49,56-58,69-73,81-83,91-95`: `f row col` is the bin, if any. -/
def scan (n : Nat) (f : Nat → Nat → Option Int) : Mask :=
  (List.range (n * n)).foldl (fun (m : Mask) (k : Nat) =>
    match f (k / n) (k % n) with
    | none => m
    | some v => ⟨fun k' => if k' = k then v else m.cell k', min m.first k, max m.last k⟩) ⟨fun _ => -1, n * n - 1, 0⟩

/-- A cell of the mask of Lienhart, `opencv.cpp:59-69`. `dist dy dx` is `fDist`, `turn dy dx` is `int((fAng*nAngularBins)/float(2*M_PI))`. -/
noncomputable def lienhartCell (n R A : Nat) (rings : List ℝ) (dist : Int → Int → ℝ) (turn : Int → Int → Nat) (r c : Nat) : Option Int :=
  let ctr : Nat := (n - 1) / 2
  if r = ctr ∧ c = ctr then none
  else
    let dy : Int := (ctr : Int) - r
    let dx : Int := (ctr : Int) - c
    let b := rings.findIdx fun (d : ℝ) => decide (dist dy dx ≤ d)
    if b < R then some (((turn dy dx % A * R + (R - 1 - b) : Nat)) : Int) else none

/-- A cell of the mask of Chatfield, `opencv.cpp:84-91`. `rad dy dx` is `nRadBinIdx`, `deg dy dx` is the rounded angle. -/
def chatfieldCell (n R A : Nat) (rad : Int → Int → Int) (deg : Int → Int → Nat) (r c : Nat) : Option Int :=
  let dy : Int := (r : Int) - (n / 2 : Nat)
  let dx : Int := (c : Int) - (n / 2 : Nat)
  if dy = 0 ∧ dx = 0 then none
  else
    let b := rad dy dx
    if 0 ≤ b ∧ b < R then
      some (((deg dy dx + 360 / A / 2) % 360 / (360 / A) : Nat) * (R : Int) + ((R : Int) - 1 - b))
    else none

/-- `vRadBinDists`, `opencv.cpp:51-55`, exactly. -/
noncomputable def ringDists (n R : Nat) (off : ℝ) : List ℝ :=
  (List.range R).map fun (k : Nat) =>
    ((((R : ℝ) ^ (1 / (R : ℝ))) ^ (k + 1) - 1) / ((R : ℝ) - 1) * ((n - 1) / 2 : Nat)) + (if k = R - 1 then 0 else off)

/-- Distance to the centre, `opencv.cpp:61,86`. -/
noncomputable def dist (dy dx : Int) : ℝ := Real.sqrt ((dy * dy + dx * dx : Int) : ℝ)

/-- `int((fAng*nAngularBins)/float(2*M_PI))`, `opencv.cpp:67-68` (`std::atan2(dx, dy)`). -/
noncomputable def turn (A : Nat) (dy dx : Int) : Nat := ⌊((Complex.arg ⟨(dy : ℝ), (dx : ℝ)⟩ + Real.pi) * A) / (2 * Real.pi)⌋₊

/-- `nRadBinIdx`, `opencv.cpp:79-80,87` (distances are at least one; conversion to `int` truncates). -/
noncomputable def radBin (n R : Nat) (dy dx : Int) : Int := ⌊Real.logb 10 (dist dy dx) * ((R : ℝ) / Real.logb 10 ((n / 2 : Nat) : ℝ))⌋

/-- The rounded angle in degrees, `opencv.cpp:89-90` (`std::atan2(dy, dx)`). -/
noncomputable def deg (dy dx : Int) : Nat :=
  let a := Complex.arg ⟨(dx : ℝ), (dy : ℝ)⟩ / Real.pi * 180
  ⌊(if a < 0 then a + 360 else a) + 1 / 2⌋₊

/-- `getLogPolarMask`, `opencv.cpp:33-99`. `none`: a failed check, a division by zero (`nAngBinSize`), or a conversion of an infinite number to
`int` (Chatfield's mask of size 3, whose `std::log10(nPatchRadius)` is zero). -/
noncomputable def getLogPolarMask (n R A : Nat) (lienhart : Bool) (off : ℝ) : Option Mask :=
  if 0 < n ∧ n % 2 = 1 ∧ 0 < R ∧ 0 < A ∧ (lienhart = true ∨ off = 0) ∧ 0 ≤ off then
    if lienhart then some (scan n (lienhartCell n R A (ringDists n R off) dist (turn A)))
    else if 1 < n ∧ 360 / A = 0 then none
    else if n = 3 then none
    else some (scan n (chatfieldCell n R A (radBin n R) deg))
  else none

/-! ## Descriptors -/

/-- The parameters of the object, `LSS.cpp:30-41`: outer radius, patch size, bins (`nRadialBins*nAngularBins`), noise, normalization, mask. -/
structure Par where
  outer : Nat
  patch : Nat
  bins : Nat
  var : ℝ
  normalize : Bool
  mask : Mask

/-- `m_nCorrWinSize`, `LSS.cpp:37`. -/
def Par.win (p : Par) : Nat := p.outer * 2 + p.patch

/-- `m_nCorrPatchSize`, `LSS.cpp:38`. -/
def Par.corr (p : Par) : Nat := p.win - p.patch + 1

/-- An image of bytes after the optional blur, `LSS.cpp:222-226,272-276`. -/
structure Image where
  rows : Nat
  cols : Nat
  chans : Nat
  px : Nat → Nat → Nat → Int

/-- The constructor, `LSS.cpp:30-51`. -/
noncomputable def construct (inner outer patch A R : Nat) (var : ℝ) (normalize lienhart : Bool) : Option Par :=
  if 0 < patch ∧ patch % 2 = 1 ∧ 0 < outer ∧ patch ≤ outer ∧ inner < outer ∧ 0 < R ∧ 0 < A ∧ 0 < var then
    (getLogPolarMask (outer * 2 + patch - patch + 1) R A lienhart inner).map fun (m : Mask) => ⟨outer, patch, R * A, var, normalize, m⟩
  else none

/-- The largest `float`. -/
noncomputable def fltMax : ℝ := (2 ^ 24 - 1) * 2 ^ 104

/-- `cv::matchTemplate(…, cv::TM_SQDIFF)` at cell `k` (by contract), `LSS.cpp:245-247,299-301`: the sum of the squared differences between the
template and the part of the window that starts at row `k / corr` and column `k % corr`. -/
noncomputable def corrAt (p : Par) (im : Image) (r c k : Nat) : ℝ :=
  ((((List.range p.patch).flatMap fun (i : Nat) => (List.range p.patch).flatMap fun (j : Nat) => (List.range im.chans).map fun (ch : Nat) =>
    (im.px (r - p.win / 2 + k / p.corr + i) (c - p.win / 2 + k % p.corr + j) ch - im.px (r - p.patch / 2 + i) (c - p.patch / 2 + j) ch) ^ 2).sum : Int) : ℝ)

/-- One cell of the loop over the mask, `LSS.cpp:258-260,312-314`. A bin outside of the buffer is an error. -/
noncomputable def binStep (p : Par) (im : Image) (r c : Nat) (t : List ℝ) (k : Nat) : Option (List ℝ) :=
  let v := p.mask.cell k
  if v ≠ -1 then
    if 0 ≤ v ∧ v < t.length then some (t.set v.toNat (min (t.getD v.toNat 0) (corrAt p im r c k))) else none
  else some t

/-- The descriptor of a pixel, `LSS.cpp:245-262,299-316`. `none`: the window leaves the image, or an index is out of bounds. -/
noncomputable def describe (p : Par) (im : Image) (r c : Nat) : Option (List ℝ) :=
  if p.win / 2 ≤ r ∧ p.win / 2 ≤ c ∧ r - p.win / 2 + p.win ≤ im.rows ∧ c - p.win / 2 + p.win ≤ im.cols then
    ((List.range' p.mask.first (p.mask.last + 1 - p.mask.first)).foldlM (binStep p im r c) (List.replicate p.bins fltMax)).map
      fun (t : List ℝ) => t.map fun (x : ℝ) => Real.exp (x * (-1 / p.var))
  else none

/-- `std::fill_n(ptr, n, 0.0f)` in a matrix of `N` elements, `LSS.cpp:284-285,296-297`. -/
noncomputable def fill (N start n : Nat) (buf : Nat → ℝ) : Option (Nat → ℝ) :=
  if start + n ≤ N then some fun k => if start ≤ k ∧ k < start + n then 0 else buf k else none

/-- Storing a descriptor, `LSS.cpp:262,316`. -/
noncomputable def store (N start : Nat) (d : List ℝ) (buf : Nat → ℝ) : Option (Nat → ℝ) :=
  if start + d.length ≤ N then some fun k => if start ≤ k ∧ k < start + d.length then d.getD (k - start) 0 else buf k else none

/-- One pixel of the dense loop, `LSS.cpp:298-317`. -/
noncomputable def pixel (p : Par) (im : Image) (r : Nat) (buf : Nat → ℝ) (c : Nat) : Option (Nat → ℝ) :=
  (describe p im r c).bind fun (d : List ℝ) => store (im.rows * im.cols * p.bins) ((r * im.cols + c) * p.bins) d buf

/-- One row of the dense loop, `LSS.cpp:289-318`. -/
noncomputable def row (p : Par) (im : Image) (buf : Nat → ℝ) (r : Nat) : Option (Nat → ℝ) :=
  let N := im.rows * im.cols * p.bins
  let w := p.win / 2
  (fill N (r * im.cols * p.bins) (p.bins * w) buf).bind fun (b1 : Nat → ℝ) =>
  (fill N ((r * im.cols + (im.cols - w)) * p.bins) (p.bins * w) b1).bind fun (b2 : Nat → ℝ) =>
  ((List.range (im.cols - w - w)).map fun (j : Nat) => w + j).foldlM (pixel p im r) b2

/-- The rows of the dense loop, `LSS.cpp:289`. -/
def rowIters (p : Par) (im : Image) : List Nat := (List.range (im.rows - p.win / 2 - p.win / 2)).map fun (i : Nat) => p.win / 2 + i

/-- One descriptor of `ssdescs_norm`, `LSS.cpp:331-336`. -/
noncomputable def normStep (D : Nat) (buf : Nat → ℝ) (d : Nat) : Nat → ℝ :=
  let nrm := Real.sqrt (((List.range D).map fun (i : Nat) => buf (d * D + i) ^ 2).sum)
  fun k => if d * D ≤ k ∧ k < d * D + D then (if 1 / 1000000 < nrm then buf k / nrm else Real.sqrt (1 / D)) else buf k

/-- `ssdescs_norm`, `LSS.cpp:323-338`, for `n` descriptors. -/
noncomputable def normAll (D n : Nat) (buf : Nat → ℝ) : Nat → ℝ := (List.range n).foldl (normStep D) buf

/-- The dense `ssdescs_impl`, `LSS.cpp:268-321`, with the rows in the given order (they are distributed over threads). `old` is the content of
the reused output matrix. -/
noncomputable def dense (p : Par) (im : Image) (order : List Nat) (old : Nat → ℝ) : Option (Nat → ℝ) :=
  let N := im.rows * im.cols * p.bins
  let w := p.win / 2
  if p.win ≤ im.cols ∧ p.win ≤ im.rows then
    (fill N 0 (p.bins * w * im.cols) old).bind fun (b1 : Nat → ℝ) =>
    (fill N ((im.rows - w) * im.cols * p.bins) (p.bins * w * im.cols) b1).bind fun (b2 : Nat → ℝ) =>
    (order.foldlM (row p im) b2).map fun (b : Nat → ℝ) => if p.normalize then normAll p.bins (im.rows * im.cols) b else b
  else none

/-- `cv::KeyPointsFilter::runByImageBorder` (by contract) for keypoints at pixels (row, column), `LSS.cpp:175-177,217`. -/
def keep (p : Par) (im : Image) (kps : List (Nat × Nat)) : List (Nat × Nat) :=
  kps.filter fun k => decide (p.win / 2 ≤ k.1 ∧ k.1 < im.rows - p.win / 2 ∧ p.win / 2 ≤ k.2 ∧ k.2 < im.cols - p.win / 2)

/-- The keypoint `ssdescs_impl` without map, `LSS.cpp:213-266` (`bGenDescMap=false`): one descriptor for each kept keypoint. -/
noncomputable def keypoints (p : Par) (im : Image) (kps : List (Nat × Nat)) : Option (List (List ℝ)) :=
  if p.win ≤ im.cols ∧ p.win ≤ im.rows then
    ((keep p im kps).mapM fun (k : Nat × Nat) => describe p im k.1 k.2).map fun (ds : List (List ℝ)) =>
      if p.normalize then ds.map fun (d : List ℝ) => (List.range p.bins).map fun (i : Nat) => normStep p.bins (fun k => d.getD k 0) 0 i else ds
  else none

/-- The keypoint `ssdescs_impl` with map, `LSS.cpp:213-266` (`bGenDescMap=true`). The result is an empty matrix (`some none`) without keypoints. -/
noncomputable def keypointMap (p : Par) (im : Image) (kps : List (Nat × Nat)) (old : Nat → ℝ) : Option (Option (Nat → ℝ)) :=
  if p.win ≤ im.cols ∧ p.win ≤ im.rows then
    if keep p im kps = [] then some none
    else ((keep p im kps).foldlM (fun (b : Nat → ℝ) (k : Nat × Nat) => pixel p im k.1 b k.2) old).map fun (b : Nat → ℝ) =>
      some (if p.normalize then normAll p.bins (im.rows * im.cols) b else b)
  else none

/-- `validateROI`, `LSS.cpp:179-186`. `none`: the inner rectangle has a negative size. -/
def validateROI (p : Par) (rows cols : Nat) (roi : Nat → Nat → Bool) : Option (Nat → Nat → Bool) :=
  let b := p.win / 2
  if b * 2 ≤ cols ∧ b * 2 ≤ rows then
    some fun r c => if b ≤ r ∧ r < b + (rows - b * 2) ∧ b ≤ c ∧ c < b + (cols - b * 2) then roi r c else false
  else none

/-- `calcDistance`, `LSS.hpp:99-103`. -/
noncomputable def calcDistance (a b : List ℝ) : ℝ := Real.sqrt ((List.zipWith (fun (u v : ℝ) => (u - v) ^ 2) a b).sum)

end Litiv.LSS
