import Verif.Model.LBSP
import Verif.Model.Maxima
import Verif.Model.IEEE

/-!
# Model of the LBSP edge detector

`modules/imgproc/src/EdgeDetectorLBSP.cpp`, with its compile-time settings `USE_5x5_NON_MAX_SUPP`, `USE_MIN_GRAD_ORIENT` and
`USE_3_AXIS_ORIENT` set to 1 (lines 22-24), without Gaussian smoothing (`m_dGaussianKernelSigma` is always 0) and without the
optional `cv::normalize` of `apply`.

Images and tables are functions of row, column (and channel); buffers are not linearised, except for the local maximum tests, which
work on the linear buffer. Every access outside a buffer makes the result `none`, as does the use of an exhausted stack.
Buffers kept from earlier calls have arbitrary content.
-/

namespace Litiv.EdgeLBSP

/-- Rows, columns, channels. -/
abbrev Image := Nat → Nat → Nat → BitVec 8

/-- A map of sixteen values per pixel and channel (`m_vvuLBSPLookupMaps`). -/
abbrev Table := Nat → Nat → Nat → Fin 16 → BitVec 8

/-! ## Image pyramid and lookup tables -/

/-- `nCurrScaleRows-nROIBorderSize`, `EdgeDetectorLBSP.cpp:106, 111`: a subtraction of `size_t`. -/
def limit (n : Nat) : Nat := (BitVec.ofNat 64 n - 2).toNat

/-- The columns of a row, all treated as border, `EdgeDetectorLBSP.cpp:98-102`. -/
def borderRow (w y : Nat) : List (Nat × Nat × Bool) := (List.range w).map fun (x : Nat) => (y, x, true)

/-- The columns of a row that is not a border row, `EdgeDetectorLBSP.cpp:107-141`. -/
def mixedRow (w y : Nat) : List (Nat × Nat × Bool) :=
  ((List.range 2).map fun (x : Nat) => (y, x, true)) ++
  ((List.range' 2 (limit w - 2)).map fun (x : Nat) => (y, x, false)) ++
  ((List.range' (max 2 (limit w)) (w - max 2 (limit w))).map fun (x : Nat) => (y, x, true))

/-- All the pixels visited at one level, in order, with a flag for those treated as border, `EdgeDetectorLBSP.cpp:103-144`. -/
def visits (h w : Nat) : List (Nat × Nat × Bool) :=
  (List.range 2).flatMap (borderRow w) ++
  (List.range' 2 (limit h - 2)).flatMap (mixedRow w) ++
  (List.range' (max 2 (limit h)) (h - max 2 (limit h))).flatMap (borderRow w)

/-- The sixteen values stored for a pixel: sixteen copies of the pixel on the border (`EdgeDetectorLBSP.cpp:75-88`), the LBSP
neighbours elsewhere (line 116, `LBSP.hpp:170-184`). -/
def vals (img : Image) (y x : Nat) (border : Bool) (c : Nat) (n : Fin 16) : BitVec 8 :=
  if border then img y x c else img ((y : Int) + LBSP.offY n).toNat ((x : Int) + LBSP.offX n).toNat c

/-- The pixel of the next level: the same pixel on the border (`EdgeDetectorLBSP.cpp:89-96`), the mean of the sixteen neighbours,
rounded down, elsewhere (lines 117-135). -/
def nextVal (img : Image) (y x : Nat) (border : Bool) (c : Nat) : BitVec 8 :=
  if border then img y x c
  else BitVec.ofNat 8 (((List.finRange 16).foldl (fun (s : Nat) (n : Fin 16) => s + (vals img y x false c n).toNat) 0) / 16)

/-- One visit, `EdgeDetectorLBSP.cpp:74-97` and `112-136`; `more` says whether there is a next level (`nNextScaleMapSize`). -/
def visit (h w : Nat) (img : Image) (more : Bool) (s : Table × Image) (v : Nat × Nat × Bool) : Option (Table × Image) :=
  let y := v.1
  let x := v.2.1
  let border := v.2.2
  if y < h ∧ x < w ∧ (border = true ∨ (2 ≤ y ∧ y + 2 < h ∧ 2 ≤ x ∧ x + 2 < w)) then
    let lut : Table := fun y' x' => if y' = y ∧ x' = x then vals img y x border else s.1 y' x'
    if more ∧ y % 2 = 0 ∧ x % 2 = 0 then
      (if y / 2 < (h + 1) / 2 ∧ x / 2 < (w + 1) / 2 then
        some (lut, fun y' x' => if y' = y / 2 ∧ x' = x / 2 then nextVal img y x border else s.2 y' x')
      else none)
    else some (lut, s.2)
  else none

/-- One level of the pyramid: size, image and lookup table. -/
structure Level where
  h : Nat
  w : Nat
  img : Image
  lut : Table

/-- `apply_internal_lookup`, `EdgeDetectorLBSP.cpp:40-146`: `n` levels from an image of `h × w` pixels; `old` are the tables and
images of earlier calls, by number of levels left. -/
def pyramid (old : Nat → Table × Image) : Nat → Nat → Nat → Image → Option (List Level)
  | 0, _, _, _ => some []
  | n + 1, h, w, img =>
    match (visits h w).foldlM (visit h w img (decide (n ≠ 0))) (old n) with
    | none => none
    | some (lut, next) =>
      match pyramid old n ((h + 1) / 2) ((w + 1) / 2) next with
      | none => none
      | some rest => some (⟨h, w, img, lut⟩ :: rest)

/-! ## Gradient map -/

/-- The first three of the four bytes of a gradient map element: x and y gradient (signed), magnitude (unsigned). -/
structure Cell where
  gx : BitVec 8
  gy : BitVec 8
  mag : BitVec 8
deriving DecidableEq

/-- The gradient of a pixel of a level, `EdgeDetectorLBSP.cpp:225-231`. -/
def cellOf (impl : LBSP.Impl) (ch : Nat) (lv : Level) (y x : Nat) : Cell :=
  let g := LBSP.gradient impl 20 2 ch (lv.lut y x) (lv.img y x)
  ⟨g.1, g.2.1, g.2.2⟩

/-- Order of the bytes of a word in memory. -/
inductive Endian
  | little
  | big
deriving DecidableEq

/-- `nDefaultGradMapVal4Ch`, `EdgeDetectorLBSP.cpp:188`: `(CHAR_MAX<<24)|(CHAR_MAX<<16)|(UCHAR_MAX)<<8`. -/
def defaultWord : BitVec 32 := 127#32 <<< 24 ||| 127#32 <<< 16 ||| 255#32 <<< 8

/-- Byte `k` in memory of a 32-bit word. -/
def byteOf (e : Endian) (w : BitVec 32) (k : Nat) : BitVec 8 :=
  match e with
  | .little => w.extractLsb' (8 * k) 8
  | .big => w.extractLsb' (8 * (3 - k)) 8

/-- What `std::fill` of 32-bit words leaves in an element, `EdgeDetectorLBSP.cpp:189`. -/
def defaultCell (e : Endian) : Cell := ⟨byteOf e defaultWord 0, byteOf e defaultWord 1, byteOf e defaultWord 2⟩

/-- `std::min(a,b,lAbsCharComp)`, `EdgeDetectorLBSP.cpp:190`. -/
def minAbs (a b : BitVec 8) : BitVec 8 := if b.toInt.natAbs < a.toInt.natAbs then b else a

/-- `std::min(a,b)` of two `uchar`. -/
def minU (a b : BitVec 8) : BitVec 8 := if b.toNat < a.toNat then b else a

/-- Update of an element by the gradient `g` of a level, `EdgeDetectorLBSP.cpp:233-234, 241`. -/
def merge (g old : Cell) : Cell := ⟨minAbs g.gx old.gx, minAbs g.gy old.gy, minU g.mag old.mag⟩

/-- The gradient map (`oGradMap`), in image coordinates: there are two more rows and columns on each side. -/
abbrev Map := Int → Int → Cell

/-- The element is in the map. -/
def inMap (R C : Nat) (y x : Int) : Bool := decide (-2 ≤ y ∧ y < (R : Int) + 2 ∧ -2 ≤ x ∧ x < (C : Int) + 2)

/-- A write to the gradient map. -/
def setCell (R C : Nat) (m : Map) (y x : Int) (v : Cell) : Option Map :=
  if inMap R C y x then some fun y' x' => if y' = y ∧ x' = x then v else m y' x' else none

/-- One pixel of a level, `EdgeDetectorLBSP.cpp:223-257`; `up` says whether the level is above 0. -/
def pixelStep (R C : Nat) (up : Bool) (G : Nat → Nat → Cell) (r : Nat) (m : Map) (c : Nat) : Option Map :=
  match setCell R C m r c (merge (G r c) (m r c)) with
  | none => none
  | some m1 =>
    if up then
      [(0, 0), (0, 1), (1, 0), (1, 1)].foldlM (fun (m' : Map) (d : Nat × Nat) =>
        setCell R C m' ((2 * r + d.1 : Nat) : Int) ((2 * c + d.2 : Nat) : Int) (m' r c)) m1
    else some m1

/-- The pixels of a row, from right to left, `EdgeDetectorLBSP.cpp:222-258`. -/
def rowStep (R C : Nat) (up : Bool) (w : Nat) (G : Nat → Nat → Cell) (m : Map) (r : Nat) : Option Map :=
  (List.range w).reverse.foldlM (pixelStep R C up G r) m

/-- A level above 0, rows from the bottom up, `EdgeDetectorLBSP.cpp:213-262` (the two rows above the image, -1 and -2, are only used
at level 0). -/
def levelStep (R C : Nat) (h w : Nat) (G : Nat → Nat → Cell) (m : Map) : Option Map :=
  (List.range h).reverse.foldlM (rowStep R C true w G) m

/-- The map before the first level, `EdgeDetectorLBSP.cpp:182-183, 189`: the two rows above and below the image are zero, and the
words from the first to the last pixel of the image get the default value. -/
def initMap (e : Endian) (R C : Nat) (old : Map) : Map := fun y x =>
  if y < 0 ∨ (R : Int) ≤ y then ⟨0, 0, 0⟩
  else if (y = 0 ∧ x < 0) ∨ (y = (R : Int) - 1 ∧ (C : Int) ≤ x) then old y x
  else defaultCell e

/-! ## Suppression of pixels that are not local maxima -/

/-- The bytes of the gradient map in memory, `EdgeDetectorLBSP.cpp:173-180`: rows of `W` elements of four bytes. -/
def bytes (W : Nat) (m : Map) (i : Int) : Int :=
  let cell := m (i / 4 / W - 2) (i / 4 % W - 2)
  if i % 4 = 0 then cell.gx.toNat else if i % 4 = 1 then cell.gy.toNat else if i % 4 = 2 then cell.mag.toNat else 0

/-- Choice of the axis from the gradient and local maximum test, `EdgeDetectorLBSP.cpp:280-309`. The products of the fixed-point
comparison are below 2^24. -/
def peak (W : Nat) (g : Int → Int) (i : Int) (gx gy : BitVec 8) : Bool :=
  let colStep : BitVec 64 := 4
  let rowStep := BitVec.ofNat 64 (W * 4)
  let ax := gx.toInt.natAbs
  let ay := gy.toInt.natAbs * 2 ^ 15
  let t22 := ax * 13573
  if ay < t22 then Maxima.isLocalMaximumHorizontal 2 g i colStep rowStep
  else
    let t67 := t22 + ax * 2 ^ 16
    if t67 < ay then Maxima.isLocalMaximumVertical 2 g i colStep rowStep
    else if gx ≠ 0 ∨ gy ≠ 0 then Maxima.isLocalMaximumDiagonal 2 g i colStep rowStep (gx.msb == gy.msb)
    else Maxima.isLocalMaximumDiagonal 2 g i colStep rowStep true || Maxima.isLocalMaximumDiagonal 2 g i colStep rowStep false

/-- The pixel may belong to an edge (label `_edge_good` reached), `EdgeDetectorLBSP.cpp:277-317`. -/
def goodAt (C : Nat) (low : Nat) (m : Map) (y x : Nat) : Bool :=
  let W := C + 4
  if low ≤ (m y x).mag.toNat then
    peak W (bytes W m) ((((y : Int) + 2) * W + ((x : Int) + 2)) * 4 + 2) (m y x).gx (m y x).gy
  else false

/-! ## Hysteresis -/

/-- Labels (`oEdgeTempMask`), stack of positions (top first) and stack capacity. -/
structure Scan where
  lab : Int → Int → BitVec 8
  stack : List (Int × Int)
  cap : Nat

/-- A write to the label map. -/
def setLab (s : Scan) (y x : Int) (v : BitVec 8) : Scan :=
  { s with lab := fun y' x' => if y' = y ∧ x' = x then v else s.lab y' x' }

/-- `stack_push`, `EdgeDetectorLBSP.cpp:198-202`. -/
def push (R C : Nat) (s : Scan) (y x : Int) : Option Scan :=
  if inMap R C y x = true ∧ s.stack.length < s.cap then some { setLab s y x 2 with stack := (y, x) :: s.stack } else none

/-- `stack_check_size`, `EdgeDetectorLBSP.cpp:207-215`. -/
def reserve (n : Nat) (s : Scan) : Scan :=
  if s.stack.length + n > s.cap then { s with cap := max (s.cap * 2) (s.stack.length + n) } else s

/-- One column of the suppression pass, `EdgeDetectorLBSP.cpp:269-332`; the flag is `nNeighbMax`. -/
def nmsCol (R C : Nat) (good strong : Nat → Bool) (y : Nat) (a : Scan × Bool) (x : Nat) : Option (Scan × Bool) :=
  if good x then
    if !a.2 && strong x && decide (a.1.lab ((y : Int) + 1) x ≠ 2) then
      (push R C a.1 y x).map fun (s : Scan) => (s, true)
    else some (setLab a.1 y x 0, a.2)
  else some (setLab a.1 y x 1, false)

/-- One row of the suppression pass, `EdgeDetectorLBSP.cpp:264-333`. -/
def nmsRow (R C : Nat) (good strong : Nat → Bool) (y : Nat) (s : Scan) : Option Scan :=
  let s1 := setLab (setLab (setLab (setLab s y (-2) 1) y (-1) 1) y C 1) y ((C : Int) + 1) 1
  ((List.range C).foldlM (nmsCol R C good strong y) (reserve C s1, false)).map Prod.fst

/-- Level 0: the rows from the bottom up, down to two rows above the image; each row of gradients is followed by the suppression of
the row two rows below, `EdgeDetectorLBSP.cpp:213-335`. -/
def baseRow (R C : Nat) (G : Nat → Nat → Cell) (low high : Nat) (a : Map × Scan) (r : Int) : Option (Map × Scan) :=
  match (if 0 ≤ r then rowStep R C false C G a.1 r.toNat else some a.1) with
  | none => none
  | some m1 =>
    let m2 : Map := fun y x => if y = r ∧ (x = -2 ∨ x = -1 ∨ x = C ∨ x = (C : Int) + 1) then ⟨0, 0, 0⟩ else m1 y x
    if r < (R : Int) - 2 then
      let y := (r + 2).toNat
      (nmsRow R C (goodAt C low m2 y) (fun (x : Nat) => decide (high ≤ (m2 y x).mag.toNat)) y a.2).map fun (s : Scan) => (m2, s)
    else some (m2, a.2)

/-- The eight neighbours, in the order of `EdgeDetectorLBSP.cpp:342-357`. -/
def dirs : List (Int × Int) := [(0, -1), (0, 1), (-1, -1), (-1, 0), (-1, 1), (1, -1), (1, 0), (1, 1)]

/-- One neighbour in the hysteresis loop. -/
def visitN (R C : Nat) (p : Int × Int) (s : Scan) (d : Int × Int) : Option Scan :=
  if inMap R C (p.1 + d.1) (p.2 + d.2) then
    if s.lab (p.1 + d.1) (p.2 + d.2) = 0 then push R C s (p.1 + d.1) (p.2 + d.2) else some s
  else none

/-- The hysteresis loop, `EdgeDetectorLBSP.cpp:339-358`, with at most `fuel` rounds (`none` if they do not suffice). -/
def flood (R C : Nat) : Nat → Scan → Option Scan
  | 0, s => if s.stack = [] then some s else none
  | fuel + 1, s =>
    match s.stack with
    | [] => some s
    | p :: rest =>
      match dirs.foldlM (visitN R C p) { reserve 8 s with stack := rest } with
      | none => none
      | some s' => flood R C fuel s'

/-- Buffers kept from earlier calls: gradient map, label map and stack size. -/
structure Left where
  map : Map
  lab : Int → Int → BitVec 8
  cap : Nat

/-- Labels, stack and capacity before the first row, `EdgeDetectorLBSP.cpp:184-185, 194-197`. -/
def initScan (R C : Nat) (old : Left) : Scan :=
  ⟨fun y x => if y < 0 ∨ (R : Int) ≤ y then 1 else old.lab y x, [], max (max 1024 ((R + 4) * (C + 4) / 8)) old.cap⟩

/-- All the levels from the coarsest to level 0, suppression and hysteresis: `apply_internal_threshold`,
`EdgeDetectorLBSP.cpp:165-363`, for an image of `R × C` pixels. `levels` are sizes and gradients by level. -/
def threshold (e : Endian) (R C : Nat) (levels : List (Nat × Nat × (Nat → Nat → Cell))) (low high : Nat) (old : Left) :
    Option (Nat → Nat → BitVec 8) :=
  match levels with
  | [] => none
  | base :: above =>
    match above.reverse.foldlM (fun (m : Map) (l : Nat × Nat × (Nat → Nat → Cell)) => levelStep R C l.1 l.2.1 l.2.2 m)
        (initMap e R C old.map) with
    | none => none
    | some m =>
      match ((List.range (R + 2)).reverse.map fun (k : Nat) => (k : Int) - 2).foldlM (baseRow R C base.2.2 low high)
          (m, initScan R C old) with
      | none => none
      | some (_, s) =>
        (flood R C (s.stack.length + R * C) s).map fun (s' : Scan) => fun y x => - (s'.lab y x >>> 1)

/-! ## Public functions -/

/-- The detection threshold used for `dDetThreshold`, `EdgeDetectorLBSP.cpp:389-391`: 8 (half of `LBSP::MAX_GRAD_MAG`) outside [0,1].
The product by 16 is exact. -/
def detThreshold (d : ℚ) : Nat := if d < 0 ∨ 1 < d then 8 else ⌊d * 16⌋.toNat

/-- The low hysteresis threshold, `EdgeDetectorLBSP.cpp:170`: a product of `double`, truncated. -/
def lowThreshold (rd : ℚ → ℚ) (factor : ℚ) (high : Nat) : Nat := ⌊rd (high * factor)⌋.toNat

/-- Pyramid and thresholding of an image, `EdgeDetectorLBSP.cpp:392-393`. -/
def detect (impl : LBSP.Impl) (e : Endian) (rd : ℚ → ℚ) (factor : ℚ) (n R C ch : Nat) (img : Image) (high : Nat)
    (oldP : Nat → Table × Image) (old : Left) : Option (Nat → Nat → BitVec 8) :=
  match pyramid oldP n R C img with
  | none => none
  | some ls =>
    threshold e R C (ls.map fun (l : Level) => (l.h, l.w, cellOf impl ch l)) (lowThreshold rd factor high) high old

/-- `apply_threshold`, `EdgeDetectorLBSP.cpp:377-394`. -/
def applyThreshold (impl : LBSP.Impl) (e : Endian) (rd : ℚ → ℚ) (factor : ℚ) (n R C ch : Nat) (img : Image) (d : ℚ)
    (oldP : Nat → Table × Image) (old : Left) : Option (Nat → Nat → BitVec 8) :=
  detect impl e rd factor n R C ch img (detThreshold d) oldP old

/-- `oTempEdgeMask/double(LBSP::MAX_GRAD_MAG)`: rounded to nearest. -/
def scaled (v : BitVec 8) : Nat := Lut.roundEven ((v.toNat : ℚ) / 16) |>.toNat

/-- Saturated addition of 8-bit values. -/
def satAdd (a : BitVec 8) (n : Nat) : BitVec 8 := BitVec.ofNat 8 (min 255 (a.toNat + n))

/-- `apply` without normalization, `EdgeDetectorLBSP.cpp:396-414`; `old t` are the buffers before round `t`. The pyramid is built
once in the code; here it is rebuilt for each threshold (the same result). -/
def apply (impl : LBSP.Impl) (e : Endian) (rd : ℚ → ℚ) (factor : ℚ) (n R C ch : Nat) (img : Image)
    (oldP : Nat → Table × Image) (old : Nat → Left) : Option (Nat → Nat → BitVec 8) :=
  (List.range 16).foldlM (fun (acc : Nat → Nat → BitVec 8) (t : Nat) =>
    (detect impl e rd factor n R C ch img t oldP (old t)).map fun (m : Nat → Nat → BitVec 8) =>
      fun y x => satAdd (acc y x) (scaled (m y x))) (fun _ _ => 0)

end Litiv.EdgeLBSP
