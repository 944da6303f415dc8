import Verif.Model.Bits
import Mathlib.Data.Rat.Floor
import Mathlib.Data.Fin.VecNotation

/-!
# Model of modules/features2d: LBSP descriptors (LBSP.hpp, LBSP.cpp) and of lv::validateKeyPoints

Bytes are `BitVec 8`, descriptors `BitVec 16` (`ushort`). An SSE register of sixteen bytes is a function
`Fin 16 → BitVec 8`. Address arithmetic is done in 64 bits with wrap-around, as in the code (`size_t`).
`none` is an out-of-bounds read, a failed `lvAssert_` or an exception of OpenCV. `lvDbgAssert` checks are not part of the
model: it describes release builds.
-/

namespace Litiv.LBSP

/-- A two-dimensional 8-bit `cv::Mat`: header fields and the bytes from its data pointer on. -/
structure Img where
  rows : Nat
  cols : Nat
  ch : Nat
  /-- `step.p[0]`, in bytes -/
  step : Nat
  data : List (BitVec 8)

/-- x offsets of the sixteen neighbours, `LBSP.hpp:285`. -/
def offX : Fin 16 → Int := ![-2, 2, 0, 0, -2, 2, 2, -2, 0, -1, 0, 1, -1, 1, 1, -1]

/-- y offsets of the sixteen neighbours, `LBSP.hpp:286`. -/
def offY : Fin 16 → Int := ![0, 0, -2, 2, 2, -2, 2, -2, 1, 0, -1, 0, -1, 1, -1, 1]

/-- `s_anIdxLUT_16bitdbcross`, `LBSP.hpp:263-273` (pairs x, y). -/
def idxLUT : Fin 16 → Int × Int := ![
  (-2, 0), (2, 0), (0, -2), (0, 2),
  (-2, 2), (2, -2), (2, 2), (-2, -2),
  (0, 1), (-1, 0), (0, -1), (1, 0),
  (-1, -1), (1, 1), (1, -1), (-1, 1)]

/-- `s_anIdxLUT_16bitdbcross_GradX`, `LBSP.hpp:274`. -/
def gradXLUT : Fin 16 → Int := ![1, -1, 0, 0, 1, -1, -1, 1, 0, 1, 0, -1, 1, -1, -1, 1]

/-- `s_anIdxLUT_16bitdbcross_GradY`, `LBSP.hpp:275`. -/
def gradYLUT : Fin 16 → Int := ![0, 0, -1, 1, 1, -1, 1, -1, 1, 0, -1, 0, -1, 1, -1, 1]

/-- `s_nDesc_16bitdbcross_GradX_Pos`, `LBSP.hpp:276`. -/
def gradXPos : BitVec 16 := BitVec.ofNat 16 (1 <<< 0 + 1 <<< 4 + 1 <<< 7 + 1 <<< 9 + 1 <<< 12 + 1 <<< 15)

/-- `s_nDesc_16bitdbcross_GradX_Neg`, `LBSP.hpp:277`. -/
def gradXNeg : BitVec 16 := BitVec.ofNat 16 (1 <<< 1 + 1 <<< 5 + 1 <<< 6 + 1 <<< 11 + 1 <<< 13 + 1 <<< 14)

/-- `s_nDesc_16bitdbcross_GradY_Pos`, `LBSP.hpp:278`. -/
def gradYPos : BitVec 16 := BitVec.ofNat 16 (1 <<< 3 + 1 <<< 4 + 1 <<< 6 + 1 <<< 8 + 1 <<< 13 + 1 <<< 15)

/-- `s_nDesc_16bitdbcross_GradY_Neg`, `LBSP.hpp:279`. -/
def gradYNeg : BitVec 16 := BitVec.ofNat 16 (1 <<< 2 + 1 <<< 5 + 1 <<< 7 + 1 <<< 10 + 1 <<< 12 + 1 <<< 14)

/-- The byte offset from the data pointer at which neighbour `n` of pixel `(x, y)`, channel `c` is read,
`LBSP.hpp:164-166, 182, 307`: `int` operands are converted to `size_t` and all sums and products wrap. -/
def addr (m : Img) (x y : Int) (c : Nat) (n : Fin 16) : BitVec 64 :=
  BitVec.ofInt 64 y * BitVec.ofNat 64 m.step + BitVec.ofInt 64 x * BitVec.ofNat 64 m.ch + BitVec.ofNat 64 c +
    (BitVec.ofNat 64 m.step * BitVec.ofInt 64 (offY n) + BitVec.ofNat 64 m.ch * BitVec.ofInt 64 (offX n))

/-- Sixteen optional bytes as an optional array. -/
def sequence (f : Fin 16 → Option (BitVec 8)) : Option (Fin 16 → BitVec 8) :=
  if h : ∀ n, (f n).isSome = true then some fun n => (f n).get (h n) else none

/-- `computeDescriptor_lookup` of one channel, `LBSP.hpp:155-168`, `lookup_16bits_dbcross`, `LBSP.hpp:288-310`; `none` when
a byte outside the buffer is read. -/
def lookup (m : Img) (x y : Int) (c : Nat) : Option (Fin 16 → BitVec 8) :=
  sequence fun n => m.data[(addr m x y c n).toNat]?

/-- The sixteen bits `f 0 … f 15` put into a 16-bit word by shifting and or-ing, bit by bit. -/
def orBits (f : Fin 16 → Bool) : BitVec 16 :=
  (List.finRange 16).foldl (fun r n => r ||| ((BitVec.ofBool (f n)).setWidth 16 <<< n.val)) 0

/-- The scalar `computeDescriptor_threshold`, `LBSP.hpp:197-202`. -/
def thresholdScalar (vals : Fin 16 → BitVec 8) (ref thr : BitVec 8) : BitVec 16 :=
  orBits fun n => decide (thr < Bits.l1distU (vals n) ref)

/-- `_mm_set1_epi8`. -/
def set1 (x : BitVec 8) : Fin 16 → BitVec 8 := fun _ => x
/-- `_mm_max_epu8`. -/
def maxU (a b : Fin 16 → BitVec 8) : Fin 16 → BitVec 8 := fun n => if (a n).ult (b n) then b n else a n
/-- `_mm_min_epu8`. -/
def minU (a b : Fin 16 → BitVec 8) : Fin 16 → BitVec 8 := fun n => if (a n).ult (b n) then a n else b n
/-- `_mm_sub_epi8`. -/
def sub8 (a b : Fin 16 → BitVec 8) : Fin 16 → BitVec 8 := fun n => a n - b n
/-- `_mm_xor_si128`. -/
def xor8 (a b : Fin 16 → BitVec 8) : Fin 16 → BitVec 8 := fun n => a n ^^^ b n
/-- `_mm_and_si128`. -/
def and8 (a b : Fin 16 → BitVec 8) : Fin 16 → BitVec 8 := fun n => a n &&& b n
/-- `_mm_or_si128`. -/
def or8 (a b : Fin 16 → BitVec 8) : Fin 16 → BitVec 8 := fun n => a n ||| b n
/-- `_mm_andnot_si128`: the first operand is complemented. -/
def andnot8 (a b : Fin 16 → BitVec 8) : Fin 16 → BitVec 8 := fun n => ~~~(a n) &&& b n
/-- `_mm_cmpgt_epi8`: signed comparison, all ones when greater. -/
def cmpgt8 (a b : Fin 16 → BitVec 8) : Fin 16 → BitVec 8 := fun n => bif (b n).slt (a n) then BitVec.allOnes 8 else 0
/-- `_mm_movemask_epi8`, converted to `desc_t`: the top bit of each byte. -/
def movemask (a : Fin 16 → BitVec 8) : BitVec 16 := orBits fun n => (a n).msb

/-- The SSE4.1 `computeDescriptor_threshold`, `LBSP.hpp:204-211, 222`. -/
def thresholdSSE41 (vals : Fin 16 → BitVec 8) (ref thr : BitVec 8) : BitVec 16 :=
  let refs := set1 ref
  let dist := sub8 (maxU vals refs) (minU vals refs)
  movemask (cmpgt8 (xor8 dist (set1 0x80)) (set1 (thr ^^^ 0x80)))

/-- The SSE2 `computeDescriptor_threshold`, `LBSP.hpp:204-208, 212-222`. -/
def thresholdSSE2 (vals : Fin 16 → BitVec 8) (ref thr : BitVec 8) : BitVec 16 :=
  let flip := set1 0x80
  let dist := xor8 vals flip
  let refs := xor8 (set1 ref) flip
  let cmp := cmpgt8 dist refs
  let dist1 := sub8 dist refs
  let dist2 := sub8 refs dist
  let dist := or8 (and8 cmp dist1) (andnot8 cmp dist2)
  movemask (cmpgt8 (xor8 dist flip) (set1 (thr ^^^ 0x80)))

/-- The build-time choice of an implementation, `LBSP.hpp:196-224`. -/
inductive Impl | scalar | sse2 | sse41

/-- `computeDescriptor_threshold`, `LBSP.hpp:192-225`. -/
def threshold : Impl → (Fin 16 → BitVec 8) → BitVec 8 → BitVec 8 → BitVec 16
  | .scalar => thresholdScalar
  | .sse2 => thresholdSSE2
  | .sse41 => thresholdSSE41

/-- `computeDescriptor` of one channel, `LBSP.hpp:104-109`. -/
def descriptor (impl : Impl) (m : Img) (ref : BitVec 8) (x y : Int) (c : Nat) (thr : BitVec 8) : Option (BitVec 16) :=
  (lookup m x y c).map fun vals => threshold impl vals ref thr

/-! ## Gradients -/

/-- The threshold of channel `c` in `computeDescriptor_gradient`, `LBSP.hpp:244, 247`: computed in `size_t`, passed as
`uchar`. -/
def gradThr (absOffset relShift : Nat) (ref : BitVec 8) : BitVec 8 :=
  BitVec.ofNat 8 ((ref.toNat >>> relShift + absOffset) / 2)

/-- The channel selection loop of `computeDescriptor_gradient`, `LBSP.hpp:244-253`: starts from the last channel and
takes an earlier one only when its count is strictly greater; the state is (magnitude, descriptor). -/
def gradSelect (desc : Nat → BitVec 16) (ch : Nat) : BitVec 8 × BitVec 16 :=
  (List.range (ch - 1)).foldl
    (fun s cn => if s.1 < Bits.popcount 8 (n := 2) (desc cn) then (Bits.popcount 8 (n := 2) (desc cn), desc cn) else s)
    (Bits.popcount 8 (n := 2) (desc (ch - 1)), desc (ch - 1))

/-- `computeDescriptor_gradient` with its default output types `char` and `uchar`, `LBSP.hpp:236-257`; `vals c` are the
sixteen neighbours in channel `c`. Results: gradient x, gradient y (signed bytes), magnitude. -/
def gradient (impl : Impl) (absOffset relShift ch : Nat) (vals : Nat → Fin 16 → BitVec 8) (refs : Nat → BitVec 8) :
    BitVec 8 × BitVec 8 × BitVec 8 :=
  let s := gradSelect (fun c => threshold impl (vals c) (refs c) (gradThr absOffset relShift (refs c))) ch
  (Bits.popcount 8 (n := 2) (s.2 &&& gradXPos) - Bits.popcount 8 (n := 2) (s.2 &&& gradXNeg),
   Bits.popcount 8 (n := 2) (s.2 &&& gradYPos) - Bits.popcount 8 (n := 2) (s.2 &&& gradYNeg),
   s.1)

/-! ## Whole images and keypoints -/

/-- A keypoint position; floats are rationals. -/
structure KP where
  x : Rat
  y : Rat
  deriving DecidableEq

/-- Conversion of a `float` to `int` by truncation, `(int)pt.x`. -/
def trunc (q : Rat) : Int := if 0 ≤ q then ⌊q⌋ else ⌈q⌉

/-- `cv::saturate_cast<int>(float)` (`cvRound`): to nearest, ties to even. Applied by OpenCV when a `cv::Point2f` is
converted to a `cv::Point`. -/
def cvRound (q : Rat) : Int :=
  if q - ⌊q⌋ < 1 / 2 then ⌊q⌋ else if 1 / 2 < q - ⌊q⌋ then ⌊q⌋ + 1 else if ⌊q⌋ % 2 = 0 then ⌊q⌋ else ⌊q⌋ + 1

/-- `cv::KeyPointsFilter::runByImageBorder` with border `b > 0` (OpenCV): nothing is kept in an image of at most `2*b`
columns or rows; otherwise the keypoints whose rounded position lies in the inner rectangle are kept. -/
def runByImageBorder (rows cols b : Nat) (kps : List KP) : List KP :=
  if rows ≤ 2 * b ∨ cols ≤ 2 * b then []
  else kps.filter fun k => decide ((b : Int) ≤ cvRound k.x ∧ cvRound k.x < cols - b ∧ (b : Int) ≤ cvRound k.y ∧
    cvRound k.y < rows - b)

/-- `LBSP::validateKeyPoints`, `LBSP.cpp:362-364`. -/
def validateKeyPoints (rows cols : Nat) (kps : List KP) : List KP := runByImageBorder rows cols (5 / 2) kps

/-- `lv::validateKeyPoints`, `utils/opencv.hpp:1103-1116`: range check on the position, then a read of the ROI at the
rounded position (`none` when that is outside). `roi` is given by rows. -/
def validateKeyPointsROI (rows cols : Nat) (roi : Int → Int → BitVec 8) : List KP → Option (List KP)
  | [] => some []
  | k :: ks =>
    if 0 ≤ k.x ∧ k.x < cols ∧ 0 ≤ k.y ∧ k.y < rows then
      if 0 ≤ cvRound k.x ∧ cvRound k.x < cols ∧ 0 ≤ cvRound k.y ∧ cvRound k.y < rows then
        (validateKeyPointsROI rows cols roi ks).map fun r => if roi (cvRound k.y) (cvRound k.x) ≠ 0 then k :: r else r
      else none
    else validateKeyPointsROI rows cols roi ks

/-- `LBSP::validateROI`, `LBSP.cpp:366-373`: a new zero mask into which the inner rectangle is copied; OpenCV throws when
the rectangle has a negative size. Pixels are given as a function of row and column. -/
def validateROI (rows cols : Nat) (roi : Nat → Nat → BitVec 8) : Option (Nat → Nat → BitVec 8) :=
  if rows = 0 ∨ cols = 0 then none
  else if cols < 5 / 2 * 2 ∨ rows < 5 / 2 * 2 then none
  else some fun y x =>
    if 5 / 2 ≤ x ∧ x < 5 / 2 + (cols - 5 / 2 * 2) ∧ 5 / 2 ≤ y ∧ y < 5 / 2 + (rows - 5 / 2 * 2) then roi y x else 0

/-- A descriptor map: descriptor of row `y`, column `x`, channel `c`. -/
abbrev Map := Int → Int → Nat → BitVec 16

/-- Writing the `ch` descriptors of one pixel. -/
def Map.put (o : Map) (ch : Nat) (y x : Int) (d : Nat → BitVec 16) : Map :=
  fun y' x' c => if y' = y ∧ x' = x ∧ c < ch then d c else o y' x' c

/-- Reading channel `c` of pixel `(y, x)` of a matrix (`at`, `ptr`), `none` outside the buffer. -/
def Img.get (m : Img) (y x : Int) (c : Nat) : Option (BitVec 8) :=
  m.data[(BitVec.ofInt 64 y * BitVec.ofNat 64 m.step + BitVec.ofInt 64 x * BitVec.ofNat 64 m.ch + BitVec.ofNat 64 c).toNat]?

/-- The threshold used by an extractor built with an absolute threshold, `LBSP.cpp:26-31, 105, 166`:
`cv::saturate_cast<uchar>((int)nThreshold)` of a 64-bit value. -/
def absThreshold (n : BitVec 64) : BitVec 8 := BitVec.ofNat 8 (min 255 (n.setWidth 32).toInt.toNat)

/-- The descriptors of all channels of one pixel: reference values are read from `ref`, thresholds are a function of
the reference value (a constant for an absolute threshold; `saturate_cast<uchar>(ref*fThreshold+nThresholdOffset)` for a
relative one, whose floating-point value is left open), `LBSP.cpp:111, 120, 136-137, 145-149, 171, 185-187, 213-215, 229-234`. -/
def pixelDesc (impl : Impl) (m ref : Img) (thr : BitVec 8 → BitVec 8) (y x : Int) : Option (Nat → BitVec 16) :=
  (List.range m.ch).foldlM (fun (o : Nat → BitVec 16) c => do
    let r ← ref.get y x c
    let d ← descriptor impl m r x y c (thr r)
    pure fun c' => if c' = c then d else o c') (fun _ => 0)

/-- The loop over pixels of the dense and keypoint versions that write to a map, `LBSP.cpp:106-121, 133-150, 167-188,
209-235`. The map's previous content is kept where nothing is written (`cv::Mat::create` does not clear). -/
def describe (impl : Impl) (m ref : Img) (thr : BitVec 8 → BitVec 8) : List (Int × Int) → Map → Option Map
  | [], o => some o
  | (y, x) :: ps, o => do
    let d ← pixelDesc impl m ref thr y x
    describe impl m ref thr ps (o.put m.ch y x d)

/-- The pixels visited by the dense loops, `LBSP.cpp:109-110, 118-119, 134-135, 143-144`. -/
def densePixels (rows cols : Nat) : List (Int × Int) :=
  (List.range' (5 / 2) (rows - 5 / 2 - 5 / 2)).flatMap fun (y : Nat) =>
    (List.range' (5 / 2) (cols - 5 / 2 - 5 / 2)).map fun (x : Nat) => ((y : Int), (x : Int))

/-- The release-mode assertions on the images, `LBSP.cpp:101-102`: continuous, one or three channels, a reference of the
same size and type. A continuous reference has the same step. -/
def accepted (m : Img) (ref : Option Img) : Bool :=
  decide (m.rows ≠ 0 ∧ m.cols ≠ 0 ∧ (m.ch = 1 ∨ m.ch = 3) ∧ m.step = m.cols * m.ch) &&
    match ref with
    | none => true
    | some r => decide (r.rows = m.rows ∧ r.cols = m.cols ∧ r.ch = m.ch ∧ r.step = r.cols * r.ch)

/-- Dense `LBSP::compute2`, `LBSP.cpp:241-247`; `ref` is the image of `setReference`, `old` the map's previous content. -/
def compute2 (impl : Impl) (m : Img) (ref : Option Img) (thr : BitVec 8 → BitVec 8) (old : Map) : Option Map :=
  if accepted m ref then describe impl m (ref.getD m) thr (densePixels m.rows m.cols) old else none

/-- Keypoint `LBSP::compute2`, `LBSP.cpp:249-260`: the filtered keypoints, and the map (`none` inside when released). -/
def compute2KP (impl : Impl) (m : Img) (ref : Option Img) (thr : BitVec 8 → BitVec 8) (kps : List KP) (old : Map) :
    Option (List KP × Option Map) :=
  if m.rows = 0 ∨ m.cols = 0 then none
  else
    let kps := runByImageBorder m.rows m.cols (5 / 2) kps
    if kps = [] then some (kps, none)
    else if accepted m ref then
      (describe impl m (ref.getD m) thr (kps.map fun k => (trunc k.y, trunc k.x)) old).map fun o => (kps, some o)
    else none

/-- `LBSP::detectAndCompute` with given keypoints and no mask, `LBSP.cpp:276-303`: one row of descriptors per keypoint. -/
def computeKP (impl : Impl) (m : Img) (ref : Option Img) (thr : BitVec 8 → BitVec 8) (kps : List KP) :
    Option (List KP × List (Nat → BitVec 16)) :=
  if m.rows = 0 ∨ m.cols = 0 then none
  else
    let kps := runByImageBorder m.rows m.cols (5 / 2) kps
    if kps = [] then some (kps, [])
    else if accepted m ref then
      (kps.mapM fun k => pixelDesc impl m (ref.getD m) thr (trunc k.y) (trunc k.x)).map fun ds => (kps, ds)
    else none

/-- The loop of `LBSP::reshapeDesc`, `LBSP.cpp:317-318, 323-329`: the single-channel version rounds the position
(`at(cv::Point2f)`), the three-channel version truncates it; `none` outside the map or the descriptor matrix. -/
def reshapeLoop (rows cols ch : Nat) : List KP → List (Nat → BitVec 16) → Map → Option Map
  | [], _, o => some o
  | _ :: _, [], _ => none
  | p :: kps, d :: ds, o =>
    let y := if ch = 1 then cvRound p.y else trunc p.y
    let x := if ch = 1 then cvRound p.x else trunc p.x
    if 0 ≤ y ∧ y < rows ∧ 0 ≤ x ∧ x < cols then reshapeLoop rows cols ch kps ds (o.put ch y x d) else none

/-- `LBSP::reshapeDesc`, `LBSP.cpp:305-330`: a zero map, filled keypoint by keypoint; `none` on a failed assertion. -/
def reshapeDesc (rows cols ch : Nat) (kps : List KP) (ds : List (Nat → BitVec 16)) : Option Map :=
  if kps = [] ∨ ds.length = 0 ∨ rows = 0 ∨ cols = 0 ∨ ¬(ch = 1 ∨ ch = 3) then none
  else reshapeLoop rows cols ch kps ds fun _ _ _ => 0

/-! ## Comparing descriptor maps -/

/-- `LBSP::calcDistances` of one position with `d1.length` channels, `LBSP.cpp:375-397`: accumulated in a byte. -/
def calcDistance (d1 d2 : List (BitVec 16)) : BitVec 8 := Bits.hdistArr 8 (n := 2) d1 d2

/-- One output value of `LBSP::calcDescImgDiff`, `LBSP.cpp:349, 356`: `255/16` and its multiples are exact in `float`;
the conversion to `uchar` truncates. -/
def diffPixel (a b : BitVec 16) : BitVec 8 := BitVec.ofNat 8 (255 * (Bits.hdist 8 (n := 2) a b).toNat / 16)

/-- One merged output value of `LBSP::calcDescImgDiff`, `LBSP.cpp:351-354`: thirds (`255/16/3 = 85/16`, exact) are
truncated one by one and accumulated in a byte. -/
def diffMerged (a b : List (BitVec 16)) : BitVec 8 :=
  (a.zip b).foldl (fun r p => r + BitVec.ofNat 8 (85 * (Bits.hdist 8 (n := 2) p.1 p.2).toNat / 16)) 0

/-! ## Shader -/

/-- The terms of the generated shader function, `LBSP.cpp:407-423`: offset (x, y) and shift. -/
def glslTerms : List ((Int × Int) × Nat) := [
  ((-1, 1), 15), ((1, -1), 14), ((1, 1), 13), ((-1, -1), 12), ((1, 0), 11), ((0, -1), 10), ((-1, 0), 9), ((0, 1), 8),
  ((-2, -2), 7), ((2, 2), 6), ((2, -2), 5), ((-2, 2), 4), ((0, 2), 3), ((0, -2), 2), ((2, 0), 1), ((-2, 0), 0)]

/-- The terms of the shared-memory variant, `LBSP.cpp:429-444`: indices are (row, column) offsets, written here as read. -/
def glslTermsShared : List ((Int × Int) × Nat) := [
  ((1, -1), 15), ((-1, 1), 14), ((1, 1), 13), ((-1, -1), 12), ((0, 1), 11), ((-1, 0), 10), ((0, -1), 9), ((1, 0), 8),
  ((-2, -2), 7), ((2, 2), 6), ((-2, 2), 5), ((2, -2), 4), ((2, 0), 3), ((-2, 0), 2), ((0, 2), 1), ((0, -2), 0)]

/-- The value of the generated shader function for one channel, `LBSP.cpp:407-423`: 32-bit sum of shifted comparison
results; `img dx dy` is the texel at that offset. -/
def glslDesc (img : Int → Int → BitVec 8) (ref thr : BitVec 8) : BitVec 32 :=
  (glslTerms.map fun t =>
    (BitVec.ofBool (decide (thr.toNat < ((img t.1.1 t.1.2).toNat - ref.toNat : Int).natAbs))).setWidth 32 <<< t.2).sum

/-- The shared-memory variant, `LBSP.cpp:425-445`: the preloaded tile is indexed by row then column. -/
def glslDescShared (img : Int → Int → BitVec 8) (ref thr : BitVec 8) : BitVec 32 :=
  (glslTermsShared.map fun t =>
    (BitVec.ofBool (decide (thr.toNat < ((img t.1.2 t.1.1).toNat - ref.toNat : Int).natAbs))).setWidth 32 <<< t.2).sum

end Litiv.LBSP
