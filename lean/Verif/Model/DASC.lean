import Mathlib.Analysis.SpecialFunctions.Pow.Real
import Mathlib.Analysis.SpecialFunctions.Sqrt
import Verif.Model.LBSP

/-!
# Model of the DASC descriptor, `modules/features2d/src/DASC.cpp`

Numbers are exact reals; the code uses `float`. Images are functions of a row and a column; the sizes are given apart. The input of the model is the
image after the conversion to one channel in `[0,1]` and the optional Gaussian filter of OpenCV, `DASC.cpp:287-297,386-396`.
-/

namespace Litiv.DASC

/-- A `cv::Mat_<float>`: row, then column. -/
abbrev Img := Nat → Nat → ℝ

/-- `pretrained::anRP1`, `DASC.cpp:28-37`, by pairs (row, column). -/
def rp1 : List (Int × Int) := [
  (5, -9), (-14, -5), (10, 0), (-12, 4), (-4, -6), (-13, -7), (-6, -11), (5, 14), (3, 9), (10, 11), (10, -2), (15, 3), (6, 5), (14, 5), (14, -5), (-9, -5),
  (8, 10), (-8, -10), (-3, -15), (-11, 6), (12, 4), (9, 3), (-7, 13), (3, -15), (-15, 3), (13, 0), (4, -12), (-6, -11), (12, -2), (-4, -12), (-5, 14), (-3, -15),
  (10, -11), (11, 10), (-10, 0), (-11, -10), (-9, 5), (8, 6), (-12, -4), (13, 7), (15, 0), (-15, 3), (5, 14), (-11, 10), (5, -6), (-13, -7), (3, -15), (-9, -5),
  (-6, -8), (0, 13), (-7, 13), (-9, 3), (0, 15), (11, -6), (10, 11), (5, 14), (-11, 10), (14, -5), (8, 10), (0, 15), (-5, 14), (11, 6), (8, -6), (-7, 13),
  (-13, 0), (-11, -6), (-8, -13), (2, 12), (-7, 13), (4, 6), (-10, -11), (-6, -11), (-10, -11), (5, -9), (-14, -5), (-3, -15), (-4, 12), (10, -2), (13, 7), (-15, 0),
  (10, 2), (5, 14), (-5, -14), (-13, 0), (5, -14), (0, 5), (10, 8), (-12, 4), (-12, 4), (-10, 8), (-15, -3), (14, 5), (-10, -8), (15, 0), (-2, -10), (-7, 1),
  (0, 15), (14, -5), (3, -9), (-13, 0), (0, 15), (2, 12), (-10, 8), (13, 7), (-5, -6), (5, 14), (15, 3), (-8, -13), (-9, 3), (-5, 9), (5, -9), (0, -13),
  (6, -11), (15, 3), (0, -15), (13, 7), (6, 11), (-2, 10), (-15, -3), (6, -8), (11, -6), (-14, 5), (-5, -6), (3, -7), (-15, 0), (6, -8), (14, 5), (0, 13)]

/-- `pretrained::anRP2`, `DASC.cpp:39-48`, by pairs (row, column). -/
def rp2 : List (Int × Int) := [
  (0, -13), (1, 7), (12, 2), (-10, -11), (-3, -9), (0, 15), (-11, 10), (-15, -3), (-2, -12), (-15, 3), (5, 14), (-12, 2), (15, 0), (-11, -6), (-8, -6), (-2, 10),
  (0, -8), (-8, 6), (-4, -12), (-9, -5), (10, -8), (5, -6), (11, 10), (-13, 0), (12, 2), (-8, -13), (-11, 10), (10, 8), (-10, 11), (0, -8), (4, 12), (11, 10),
  (11, -10), (6, -11), (-3, 9), (-11, 6), (-14, 5), (8, 13), (0, -15), (4, 12), (14, 5), (5, 14), (-10, -2), (13, 0), (-15, -3), (-3, 15), (7, -3), (-14, 5),
  (13, 7), (4, -6), (13, -8), (-15, 3), (0, 15), (-14, -5), (-14, -5), (14, -5), (5, -9), (11, -6), (-3, 15), (-10, -8), (-3, 15), (14, 5), (10, -2), (5, 14),
  (-3, -15), (6, 4), (0, 15), (-5, 14), (11, 6), (-3, -7), (-5, 14), (12, -4), (8, -13), (9, -3), (7, 1), (-14, -5), (-8, -10), (8, 10), (0, 15), (-5, -14),
  (0, -15), (-8, 6), (-7, -3), (8, 6), (0, -10), (-7, -3), (-11, -10), (8, 10), (10, 11), (-15, 0), (-11, 6), (-2, 10), (-12, 2), (15, 0), (-10, 8), (10, -11),
  (3, -7), (-6, -8), (9, 3), (5, -2), (8, 10), (10, -2), (14, -5), (-10, -11), (-13, -7), (0, 15), (-6, 11), (-10, 8), (5, 9), (-3, 15), (-8, -6), (-5, -14),
  (3, 15), (12, -2), (-4, -12), (3, -4), (8, -13), (0, -13), (0, -10), (10, 11), (-5, -6), (-13, 7), (-8, -10), (-11, -10), (5, 14), (8, -13), (8, 10), (-15, -3)]

/-- `pretrained::anRPDiff`, `DASC.cpp:50,53`: `static_diff(a,b)` is `b-a`. -/
def rpDiff : List (Int × Int) := rp1.zipWith (fun a b => (b.1 - a.1, b.2 - a.2)) rp2

/-- `pretrained::nLUTSize`, `DASC.cpp:26`. -/
def lut : Nat := 128

/-- `static_absmax`, `DASC.cpp:51-52`. -/
def absmax (a b : Int) : Int := max (if a < 0 then -a else a) (if b < 0 then -b else b)

/-- `lv::static_reduce` for arrays, `cxx.hpp:581-598`, over the array read backwards. -/
def reduce (op : Int → Int → Int) : List Int → Int
  | [] => 0
  | [a] => a
  | a :: l => op a (reduce op l)

/-- `pretrained::nRPAbsMax`, `DASC.cpp:54`. -/
def border : Int :=
  let flat (l : List (Int × Int)) : List Int := l.flatMap fun p => [p.1, p.2]
  reduce absmax ((flat rp1).zipWith absmax (flat rp2)).reverse

/-- `pretrained::nMaxPatternDiam`, `DASC.cpp:55`. -/
def diam : Int := border * 2 + 1

/-- Writes the values of `f` at the pixels of a list, one after the other; the loops of `features2d.hpp:35-45`. -/
def fill (l : List (Nat × Nat)) (f : Nat → Nat → ℝ) (m : Img) : Img :=
  l.foldl (fun m p r q => if r = p.1 ∧ q = p.2 then f p.1 p.2 else m r q) m

/-- The pixels of two nested loops, rows outside. -/
def loops (r0 r1 q0 q1 : Nat) : List (Nat × Nat) := (List.range' r0 (r1 - r0)).flatMap fun r => (List.range' q0 (q1 - q0)).map fun q => (r, q)

/-- `lv::localDiff`, `features2d.hpp:29-46`; `old` is the content of the output before. The last loops go over columns first; their order is not kept. -/
def localDiff (dr dq rows cols : Nat) (img old : Img) : Img :=
  let m := fill (loops dr rows dq cols) (fun r q => img (r - dr) (q - dq) - img r q) old
  let m := fill (loops 0 dr 0 cols) (fun _ _ => 0) m
  fill (loops dr rows 0 dq) (fun _ _ => 0) m

/-- The two loops over a row in `lTransfDomRecursFilter_H`, `DASC.cpp:270-273`. -/
noncomputable def rowPass (n : Nat) (v x : Nat → ℝ) : Nat → ℝ :=
  let x := (List.range (n - 1)).foldl (fun x i => Function.update x (i + 1) (x (i + 1) + v (i + 1) * (x i - x (i + 1)))) x
  (List.range (n - 1)).reverse.foldl (fun x i => Function.update x i (x i + v (i + 1) * (x (i + 1) - x i))) x

/-- `lTransfDomRecursFilter_H`, `DASC.cpp:266-275`; rows do not depend on each other. -/
noncomputable def hPass (rows cols : Nat) (v x : Img) : Img := fun r => if r < rows then rowPass cols (v r) (x r) else x r

/-- `cv::transpose`, `DASC.cpp:278,280`. -/
def transpose (x : Img) : Img := fun r q => x q r

/-- `DASC::recursFilter`, `DASC.cpp:261-282`: `vh i` is `oRef_V_dHdx` and `vvt i` is `oRef_V_dVdy_t` at the iteration `i`. -/
noncomputable def recursFilter (iters rows cols : Nat) (vh vvt : Nat → Img) (x : Img) : Img :=
  (List.range iters).foldl (fun x i => transpose (hPass cols rows (vvt i) (transpose (hPass rows cols (vh i) x)))) x

/-- `fBase`, `DASC.cpp:310`. -/
noncomputable def base (sigmaS : ℝ) (iters i : Nat) : ℝ :=
  Real.exp (-Real.sqrt 2 / (sigmaS * Real.sqrt 3 * (2 : ℝ) ^ (iters - (i + 1)) / Real.sqrt ((4 : ℝ) ^ iters - 1)))

/-- `m_oRef_dVdy` or `m_oRef_dHdx`, `DASC.cpp:303-304`. -/
noncomputable def ref (sigmaS sigmaR : ℝ) (diff : Img) : Img := fun r q => 1 + sigmaS / sigmaR * |diff r q|

/-- `m_oRef_V_dHdx`, `DASC.cpp:305-317`; `old` is what the buffer of the differences held before. -/
noncomputable def weightH (sigmaS sigmaR : ℝ) (iters rows cols : Nat) (img old : Img) (i : Nat) : Img :=
  fun r q => base sigmaS iters i ^ ref sigmaS sigmaR (localDiff 0 1 rows cols img old) r q

/-- `m_oRef_V_dVdy_t`, `DASC.cpp:305-317`. -/
noncomputable def weightVt (sigmaS sigmaR : ℝ) (iters rows cols : Nat) (img old : Img) (i : Nat) : Img :=
  fun q r => base sigmaS iters i ^ ref sigmaS sigmaR (localDiff 1 0 rows cols img old) r q

/-- The recursive filter guided by an image, `DASC.cpp:301-319`; `oldX`, `oldY` are what the buffers held before. -/
noncomputable def rf (sigmaS sigmaR : ℝ) (iters rows cols : Nat) (img oldX oldY : Img) (x : Img) : Img :=
  recursFilter iters rows cols (weightH sigmaS sigmaR iters rows cols img oldX) (weightVt sigmaS sigmaR iters rows cols img oldY) x

/-- `m_oLookupImage`, `DASC.cpp:326-338,418-430`, for the offset `o`. -/
noncomputable def lookup (rows cols : Nat) (img : Img) (o : Int × Int) : Img := fun r q =>
  if 0 ≤ (r : Int) + o.1 ∧ (r : Int) + o.1 < rows ∧ 0 ≤ (q : Int) + o.2 ∧ (q : Int) + o.2 < cols then img ((r : Int) + o.1).toNat ((q : Int) + o.2).toNat
  else 0

/-- `m_oLookupImage_Sqr`, `DASC.cpp:332,336,424,428`. -/
noncomputable def lookupSqr (rows cols : Nat) (img : Img) (o : Int × Int) : Img := fun r q =>
  if 0 ≤ (r : Int) + o.1 ∧ (r : Int) + o.1 < rows ∧ 0 ≤ (q : Int) + o.2 ∧ (q : Int) + o.2 < cols then
    img ((r : Int) + o.1).toNat ((q : Int) + o.2).toNat * img ((r : Int) + o.1).toNat ((q : Int) + o.2).toNat
  else 0

/-- `m_oLookupImage_Mix`, `DASC.cpp:333,336,425,428`. -/
noncomputable def lookupMix (rows cols : Nat) (img : Img) (o : Int × Int) : Img := fun r q =>
  if 0 ≤ (r : Int) + o.1 ∧ (r : Int) + o.1 < rows ∧ 0 ≤ (q : Int) + o.2 ∧ (q : Int) + o.2 < cols then
    img r q * img ((r : Int) + o.1).toNat ((q : Int) + o.2).toNat
  else 0

/-- `LOCAL_EPS`, `DASC.cpp:20`. -/
noncomputable def eps : ℝ := 1 / 10 ^ 10

/-- A value of a descriptor from the five means at a pixel, `DASC.cpp:347-349,439-441`. The square root of a negative number is NaN in the code and 0 here:
neither is above `LOCAL_EPS`. -/
noncomputable def value (mean meanSqr lmean lmeanSqr mix : ℝ) : ℝ :=
  let denom := Real.sqrt ((meanSqr - mean * mean) * (lmeanSqr - lmean * lmean))
  let diff := mix - mean * lmean
  if eps < denom then min (Real.exp (-(1 - diff / denom) * 2)) 1 else 1

/-- A value of a descriptor before the normalization, `DASC.cpp:325-355,417-447`; `filter` is `recursFilter` or `guidedFilter`. -/
noncomputable def raw (filter : Img → Img) (rows cols : Nat) (img : Img) (r q k : Nat) : ℝ :=
  let a := rp1.getD k (0, 0)
  let d := rpDiff.getD k (0, 0)
  let r' : Int := r + a.1
  let q' : Int := q + a.2
  if 0 < r' ∧ r' < rows ∧ 0 < q' ∧ q' < cols then
    let at' (m : Img) : ℝ := m r'.toNat q'.toNat
    value (at' (filter img)) (at' (filter fun r q => img r q * img r q)) (at' (filter (lookup rows cols img d)))
      (at' (filter (lookupSqr rows cols img d))) (at' (filter (lookupMix rows cols img d)))
  else 0

/-- The normalization of a descriptor, `DASC.cpp:356-365,448-457`. -/
noncomputable def normalize (d : Nat → ℝ) : Nat → ℝ :=
  let n := Real.sqrt (((List.range lut).map fun k => d k ^ 2).sum)
  if eps < n then fun k => d k / n else fun _ => Real.sqrt (1 / lut)

/-- The dense descriptors of an image, `DASC::dasc_rf_impl` and `DASC::dasc_gf_impl`. `none`: the image is too small, `DASC.cpp:286,385`. -/
noncomputable def dense (filter : Img → Img) (rows cols : Nat) (img : Img) : Option (Nat → Nat → Nat → ℝ) :=
  if diam ≤ cols ∧ diam ≤ rows then some fun r q => normalize (raw filter rows cols img r q) else none

/-- `DASC::dasc_rf_impl`, `DASC.cpp:284-366`. -/
noncomputable def denseRF (sigmaS sigmaR : ℝ) (iters rows cols : Nat) (img oldX oldY : Img) : Option (Nat → Nat → Nat → ℝ) :=
  dense (rf sigmaS sigmaR iters rows cols img oldX oldY) rows cols img

/-- What `DASC::guidedFilter` uses of OpenCV: `cv::resize` to the smaller size with nearest neighbours, `cv::resize` back with bilinear interpolation and
`cv::blur` on images of the smaller size. With `m_nSubSamplFrac` equal to 1 the first two copy the image. -/
structure CV where
  down : Img → Img
  up : Img → Img
  blur : Img → Img

/-- `m_oNormVar_SubSampl`, `DASC.cpp:370-374` and `DASC.cpp:406-409`: the slope at each pixel of the smaller image. -/
noncomputable def slope (cv : CV) (epsilon : ℝ) (img x : Img) : Img :=
  let i := cv.down img
  let p := cv.down x
  let bi := cv.blur i
  let bp := cv.blur p
  let bcross := cv.blur fun r q => i r q * p r q
  let bsqr := cv.blur fun r q => i r q * i r q
  fun r q => (bcross r q - bi r q * bp r q) / (bsqr r q - bi r q * bi r q + epsilon)

/-- `m_oNormVarDiff_SubSampl`, `DASC.cpp:375`. -/
noncomputable def offset (cv : CV) (epsilon : ℝ) (img x : Img) : Img :=
  let bi := cv.blur (cv.down img)
  let bp := cv.blur (cv.down x)
  fun r q => bp r q - slope cv epsilon img x r q * bi r q

/-- `DASC::guidedFilter`, `DASC.cpp:368-381`: `img` guides, `x` is filtered (`oRef`). -/
noncomputable def guidedFilter (cv : CV) (epsilon : ℝ) (img x : Img) : Img :=
  let a := cv.up (cv.blur (slope cv epsilon img x))
  let b := cv.up (cv.blur (offset cv epsilon img x))
  fun r q => a r q * img r q + b r q

/-- `DASC::dasc_gf_impl`, `DASC.cpp:383-458`. -/
noncomputable def denseGF (cv : CV) (epsilon : ℝ) (rows cols : Nat) (img : Img) : Option (Nat → Nat → Nat → ℝ) :=
  dense (guidedFilter cv epsilon img) rows cols img

/-- The key points of `detectAndCompute`, `DASC.cpp:184-194`: all pixels or those given, without those near the border, then without those where the mask
is zero. By contract, `cv::KeyPointsFilter::runByPixelsMask` reads the mask at `(int)(x+0.5)`, and `given` is `none` to detect. -/
def keyPoints (rows cols : Nat) (mask : Option (Int → Int → Bool)) (given : Option (List LBSP.KP)) : List LBSP.KP :=
  let all : List LBSP.KP := (List.range rows).flatMap fun (r : Nat) => (List.range cols).map fun (q : Nat) => ⟨(q : Rat), (r : Rat)⟩
  let l := LBSP.runByImageBorder rows cols border.toNat (given.getD all)
  match mask with
  | none => l
  | some m => l.filter fun k => m (LBSP.trunc (k.y + 1 / 2)) (LBSP.trunc (k.x + 1 / 2))

/-- `DASC::detectAndCompute`, `DASC.cpp:179-213`: the key points and their descriptors. `none`: the image is too small or out of bounds. -/
noncomputable def detectAndCompute (filter : Img → Img) (rows cols : Nat) (img : Img) (mask : Option (Int → Int → Bool)) (given : Option (List LBSP.KP)) :
    Option (List LBSP.KP × List (Nat → ℝ)) :=
  let l := keyPoints rows cols mask given
  if l = [] then some (l, [])
  else
    (dense filter rows cols img).bind fun d =>
      (l.mapM fun k =>
        let r := LBSP.trunc k.y
        let q := LBSP.trunc k.x
        if 0 ≤ r ∧ r < rows ∧ 0 ≤ q ∧ q < cols then some (d r.toNat q.toNat) else none).map fun ds => (l, ds)

end Litiv.DASC
