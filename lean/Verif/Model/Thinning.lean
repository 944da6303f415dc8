/-!
# Model of `lv::thinning`

`modules/imgproc/src/imgproc.cpp:25-152`. An image of type `CV_8UC1` is a function from row and column to a byte together
with its size; the functions below only read and write inside the image (`rows`/`cols`), the values outside are never looked
at by the results.
-/

namespace Litiv.Thinning

/-- Content of a `CV_8UC1` matrix. -/
abbrev Img := Nat → Nat → BitVec 8

/-- Pixels of a `rows x cols` image in row-major order (iteration order of `oOutput.begin<uchar>()`, imgproc.cpp:148). -/
def pixels (rows cols : Nat) : List (Nat × Nat) :=
  (List.range rows).flatMap fun (y : Nat) => (List.range cols).map fun (x : Nat) => (y, x)

/-- Pixels visited by the two nested loops `for(int y=1; y<rows-1; ++y) for(int x=1; x<cols-1; ++x)`
(imgproc.cpp:36,51 and :78-79), in order. The sizes are at least 4 (imgproc.cpp:133), so the subtractions do not wrap. -/
def interior (rows cols : Nat) : List (Nat × Nat) :=
  (List.range' 1 (rows - 2)).flatMap fun (y : Nat) => (List.range' 1 (cols - 2)).map fun (x : Nat) => (y, x)

/-- `oInput.at<uchar>(y,x) = v`. -/
def set (f : Img) (y x : Nat) (v : BitVec 8) : Img := fun y' x' => if y' = y ∧ x' = x then v else f y' x'

/-! ## Zhang-Suen -/

/-- Values under the six column pointers kept from one column to the next, imgproc.cpp:32-34, 43-49. -/
structure Roll where
  no : BitVec 8
  ne : BitVec 8
  me : BitVec 8
  ea : BitVec 8
  so : BitVec 8
  se : BitVec 8

/-- Decision for one pixel, imgproc.cpp:63-70: `A` transitions from unset to set around the pixel, `B` set neighbours. -/
def zsDecide (bIter : Bool) (no ne ea se so sw we nw : BitVec 8) : Bool :=
  let s (v : BitVec 8) : Bool := decide (0 < v.toNat)
  let t (a b : BitVec 8) : Nat := (!(s a) && s b).toNat
  let A := t no ne + t ne ea + t ea se + t se so + t so sw + t sw we + t we nw + t nw no
  let B := (s no).toNat + (s ne).toNat + (s ea).toNat + (s se).toNat + (s so).toNat + (s sw).toNat + (s we).toNat + (s nw).toNat
  let m1 := if !bIter then (s no).toNat * (s ea).toNat * (s so).toNat else (s no).toNat * (s ea).toNat * (s we).toNat
  let m2 := if !bIter then (s ea).toNat * (s so).toNat * (s we).toNat else (s no).toNat * (s so).toNat * (s we).toNat
  decide (A = 1) && decide (B ≥ 2) && decide (B ≤ 6) && decide (m1 = 0) && decide (m2 = 0)

/-- The column loop, imgproc.cpp:51-72: `n` columns starting at column `x`; `mk` is the marker row written so far. -/
def zsCols (bIter : Bool) (above curr below : Nat → BitVec 8) : Nat → Nat → Roll → (Nat → BitVec 8) → (Nat → BitVec 8)
  | 0, _, _, mk => mk
  | n + 1, x, r, mk =>
    let nw := r.no
    let no := r.ne
    let ne := above (x + 1)
    let we := r.me
    let me := r.ea
    let ea := curr (x + 1)
    let sw := r.so
    let so := r.se
    let se := below (x + 1)
    let mk' := if zsDecide bIter no ne ea se so sw we nw then (fun x' => if x' = x then 255 else mk x') else mk
    zsCols bIter above curr below n (x + 1) ⟨no, ne, me, ea, so, se⟩ mk'

/-- The row loop, imgproc.cpp:29-31, 36-49: `n` rows starting at row `y`, with the row pointers shifted by one each time. -/
def zsRows (f : Img) (cols : Nat) (bIter : Bool) : Nat → Nat → (Nat → BitVec 8) → (Nat → BitVec 8) → Img → Img
  | 0, _, _, _, mk => mk
  | n + 1, y, pCurr, pBelow, mk =>
    let above := pCurr
    let curr := pBelow
    let below := f (y + 1)
    let row := zsCols bIter above curr below (cols - 2) 1 ⟨above 0, above 1, curr 0, curr 1, below 0, below 1⟩ (mk y)
    zsRows f cols bIter n (y + 1) curr below (fun y' => if y' = y then row else mk y')

/-- `thinning_internal_ZhangSuen`, imgproc.cpp:25-75: the marker starts at zero and `oInput &= ~oTempMarker` at the end. -/
def zsPass (rows cols : Nat) (bIter : Bool) (f : Img) : Img :=
  let mk := zsRows f cols bIter (rows - 2) 1 (f 0) (f 1) (fun _ _ => 0)
  fun y x => f y x &&& ~~~(mk y x)

/-! ## Lam-Lee-Suen -/

/-- What reading `anLUT[8]`, one element past the end of `std::array<uchar,8>`, yields: `none` stands for undefined behaviour,
`some v` for a byte `v` found in memory. It may depend on the round of the outer loop, `bIter`, the image content at the time, the
row and the column; the reads of lines 108 and 111 for the same pixel find the same byte (lines 96 and 99 reduce the index
modulo 8). -/
abbrev Oob := Nat → Bool → Img → Nat → Nat → Option (BitVec 8)

/-- `anLUT`, imgproc.cpp:82-91. -/
def lut (f : Img) (i j : Nat) : List (BitVec 8) :=
  [f (i + 1) j, f (i + 1) (j - 1), f i (j - 1), f (i - 1) (j - 1), f (i - 1) j, f (i - 1) (j + 1), f i (j + 1), f (i + 1) (j + 1)]

/-- `bool(anLUT[k])`. -/
def rd (L : List (BitVec 8)) (oob : Option (BitVec 8)) (k : Nat) : Option Bool :=
  ((L[k]?).or oob).map (· != 0)

/-- `a || b` with `b` evaluated only when `a` is false. -/
def orM (a b : Option Bool) : Option Bool := a.bind fun (x : Bool) => bif x then some true else b

/-- `!a && b` with `b` evaluated only when `a` is false. -/
def norM (a b : Option Bool) : Option Bool := a.bind fun (x : Bool) => bif x then some false else b

/-- Sum of four conditions. -/
def sum4 (g : Nat → Option Bool) : Option Nat :=
  (g 0).bind fun (a : Bool) => (g 1).bind fun (b : Bool) => (g 2).bind fun (c : Bool) => (g 3).bind fun (d : Bool) =>
    some (a.toNat + b.toNat + c.toNat + d.toNat)

/-- The counters `x_h`, `n1`, `n2`, imgproc.cpp:92-117. `fixed` is true when `_MSC_VER` or the macro
`USE_IMGPROC_THINNING_MATLAB_IMPL_FIX` is set: lines 96-99 then run in addition to lines 108-111, not instead of them.
Simplification: the three sums are accumulated one after the other (they do not interact). -/
def counters (fixed : Bool) (L : List (BitVec 8)) (oob : Option (BitVec 8)) : Option (Nat × Nat × Nat) :=
  (sum4 fun k => norM (rd L oob (2 * (k + 1) - 2)) (orM (rd L oob (2 * (k + 1) - 1)) (rd L oob (2 * (k + 1))))).bind fun (xh : Nat) =>
  (sum4 fun k => orM (rd L none (2 * (k + 1) - 2)) (rd L none (2 * (k + 1) - 1))).bind fun (n1 : Nat) =>
  (sum4 fun k => orM (rd L oob (2 * (k + 1) - 1)) (rd L oob (2 * (k + 1)))).bind fun (n2 : Nat) =>
  bif fixed then
    (sum4 fun k => norM (rd L none (2 * (k + 1) - 2)) (orM (rd L none (2 * (k + 1) - 1)) (rd L none ((2 * (k + 1)) % 8)))).bind fun (xh' : Nat) =>
    (sum4 fun k => orM (rd L none (2 * (k + 1) - 2)) (rd L none (2 * (k + 1) - 1))).bind fun (n1' : Nat) =>
    (sum4 fun k => orM (rd L none (2 * (k + 1) - 1)) (rd L none ((2 * (k + 1)) % 8))).bind fun (n2' : Nat) =>
    some (xh + xh', n1 + n1', n2 + n2')
  else some (xh, n1, n2)

/-- Conditions G3 and G3', imgproc.cpp:121-122. -/
def g3 (bIter : Bool) (L : List (BitVec 8)) : Bool :=
  let b (k : Nat) : Bool := L.getD k 0 != 0
  (!bIter && !((b 1 || b 2 || !(b 7)) && b 0)) || (bIter && !((b 5 || b 6 || !(b 3)) && b 4))

/-- Decision for one set pixel, imgproc.cpp:92-125. -/
def llsDecide (fixed bIter : Bool) (L : List (BitVec 8)) (oob : Option (BitVec 8)) : Option Bool :=
  (counters fixed L oob).map fun (c : Nat × Nat × Nat) =>
    let nMin := min c.2.1 c.2.2
    decide (c.1 = 1) && decide (nMin ≥ 2) && decide (nMin ≤ 3) && g3 bIter L

/-- One step of the in-place scan, imgproc.cpp:80-125. -/
def llsPixel (fixed bIter : Bool) (oob : Img → Nat → Nat → Option (BitVec 8)) (f : Img) (p : Nat × Nat) : Option Img :=
  if f p.1 p.2 = 0 then some f
  else (llsDecide fixed bIter (lut f p.1 p.2) (oob f p.1 p.2)).map fun (d : Bool) =>
    if d then set f p.1 p.2 0 else f

/-- `thinning_internal_LamLeeSuen`, imgproc.cpp:77-128. -/
def llsPass (rows cols : Nat) (fixed bIter : Bool) (oob : Img → Nat → Nat → Option (BitVec 8)) (f : Img) : Option Img :=
  (interior rows cols).foldlM (llsPixel fixed bIter oob) f

/-! ## The outer loop -/

/-- `ThinningMode`, imgproc.hpp:33-36. -/
inductive Mode
  | zhangSuen
  | lamLeeSuen
  deriving DecidableEq

/-- How the code was compiled and what lies behind the lookup array in memory. -/
structure Build where
  fixed : Bool
  oob : Oob

/-- The two passes of one round of the loop, imgproc.cpp:140-147. -/
def round (b : Build) (mode : Mode) (rows cols n : Nat) (f : Img) : Option Img :=
  match mode with
  | .zhangSuen => some (zsPass rows cols true (zsPass rows cols false f))
  | .lamLeeSuen => (llsPass rows cols b.fixed false (b.oob n false) f).bind (llsPass rows cols b.fixed true (b.oob n true))

/-- `std::equal` over the two images, imgproc.cpp:148. -/
def same (rows cols : Nat) (f g : Img) : Bool := (pixels rows cols).all fun p => f p.1 p.2 == g p.1 p.2

/-- Outcome of running the loop for a number of rounds. -/
inductive Outcome
  | running
  | undefined
  | done (out : Img)

/-- The loop `do … while(!bEq)`, imgproc.cpp:139-151, for at most `fuel` rounds; `n` counts the rounds done. -/
def loop (b : Build) (mode : Mode) (rows cols : Nat) : Nat → Nat → Img → Img → Outcome
  | 0, _, _, _ => .running
  | fuel + 1, n, prev, cur =>
    match round b mode rows cols n cur with
    | none => .undefined
    | some out => bif same rows cols out prev then .done out else loop b mode rows cols fuel (n + 1) out out

/-- `lv::thinning`, imgproc.cpp:130-152, watched for `fuel` rounds; `none` when the size assertion fails. -/
def thinning (b : Build) (mode : Mode) (rows cols : Nat) (fuel : Nat) (f : Img) : Option Outcome :=
  if rows > 3 ∧ cols > 3 then some (loop b mode rows cols fuel 0 (fun _ _ => 0) f) else none

end Litiv.Thinning
