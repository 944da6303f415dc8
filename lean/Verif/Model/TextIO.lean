import Verif.Model.IEEE
import Mathlib.Data.Int.Log
import Mathlib.Data.Nat.Digits.Defs

/-!
# Model of plain text archives, `lv::write` and `lv::read` with `MatArchive_PLAINTEXT`,
`modules/utils/src/opencv.cpp:450-478, 544-572`

A file is a list of characters. Text output of numbers is that of `std::ostream` with its default settings (decimal, six
significant digits, `%g`), correctly rounded; text input is that of `std::istream`. Numbers in the archive are followed
by white space, so that reading a number takes the whole word (a number followed by other characters fails here, where
a stream would leave them for the next read). File opening and errors are left out; fewer than `2^31` elements.
-/

namespace Litiv.TextIO

/-! ### Numbers as text -/

/-- A value of type `double`. -/
inductive Val where
  | num (q : ℚ)
  | inf (neg : Bool)
  | nan
deriving DecidableEq

/-- The character of a digit. -/
def digitChar (d : Nat) : Char := Char.ofNat (48 + d)

/-- The digit of a character, if it is one. -/
def charDigit (c : Char) : Option Nat := if 48 ≤ c.toNat ∧ c.toNat ≤ 57 then some (c.toNat - 48) else none

/-- The last `w` decimal digits of a number, the most significant first. -/
def digitsW : Nat → Nat → List Nat
  | 0, _ => []
  | w + 1, n => digitsW w (n / 10) ++ [n % 10]

/-- All decimal digits of a number (output of integers). -/
def digitsAll (n : Nat) : List Nat := if n = 0 then [0] else (Nat.digits 10 n).reverse

/-- Output of an integer, `ssStr << (int32_t)…`, `ssStr << (uint64_t)…`, opencv.cpp:455-463. -/
def showInt (n : Int) : List Char :=
  (if n < 0 then ['-'] else []) ++ (digitsAll n.natAbs).map digitChar

/-- Removal of trailing zeros (`%g` without `#`). -/
def strip (l : List Nat) : List Nat := (l.reverse.dropWhile (· == 0)).reverse

/-- Whole and fractional digits; no point without the latter. -/
def render (i f : List Nat) : List Char := i.map digitChar ++ (if f = [] then [] else '.' :: f.map digitChar)

/-- The exponent and the six digits (as a number) of a positive number: the nearest decimal number with six digits, ties to
even. -/
def sixDigits (a : ℚ) : Nat × Int :=
  let e := Int.log 10 a
  let m := (Lut.roundEven (a / (10 : ℚ) ^ (e - 5))).toNat
  if m = 1000000 then (100000, e + 1) else (m, e)

/-- `%g` of the number `m * 10^(e-5)` with the six digits `m`. -/
def showG (m : Nat) (e : Int) : List Char :=
  let ds := digitsW 6 m
  if -4 ≤ e ∧ e < 6 then
    if 0 ≤ e then render (ds.take (e.toNat + 1)) (strip (ds.drop (e.toNat + 1)))
    else render [0] (strip (List.replicate ((-e).toNat - 1) 0 ++ ds))
  else
    render (ds.take 1) (strip (ds.drop 1)) ++ 'e' :: (if e < 0 then '-' else '+') ::
      ((if e.natAbs < 10 then [0] else []) ++ digitsAll e.natAbs).map digitChar

/-- Output of a `double`, `ssStr << *pdData++`, opencv.cpp:469-471. -/
def showVal : Val → List Char
  | .num q => if q = 0 then ['0'] else (if q < 0 then ['-'] else []) ++ showG (sixDigits |q|).1 (sixDigits |q|).2
  | .inf neg => (if neg then ['-'] else []) ++ ['i', 'n', 'f']
  | .nan => ['n', 'a', 'n']

/-- The value of a list of digits. -/
def number (ds : List Nat) : Nat := ds.foldl (fun a d => 10 * a + d) 0

/-- The digits at the start of a text, and the rest. -/
def takeDigits : List Char → List Nat × List Char
  | [] => ([], [])
  | c :: cs => match charDigit c with
    | some d => (d :: (takeDigits cs).1, (takeDigits cs).2)
    | none => ([], c :: cs)

/-- An optional sign. -/
def takeSign : List Char → Bool × List Char
  | '-' :: cs => (true, cs)
  | '+' :: cs => (false, cs)
  | cs => (false, cs)

/-- Input of an integer from a word. -/
def readInt (w : List Char) : Option Int :=
  let (neg, cs) := takeSign w
  let (ds, rest) := takeDigits cs
  if ds ≠ [] ∧ rest = [] then some (if neg then -(number ds : Int) else (number ds : Int)) else none

/-- The fractional digits, if there is a point. -/
def takeFrac : List Char → List Nat × List Char
  | '.' :: cs => takeDigits cs
  | cs => ([], cs)

/-- The exponent, if there is one; `none`: malformed. -/
def takeExp : List Char → Option Int
  | [] => some 0
  | 'e' :: cs => readInt cs
  | _ => none

/-- The exact decimal value of a word. -/
def readDec (w : List Char) : Option ℚ :=
  let (neg, cs) := takeSign w
  let (i, cs) := takeDigits cs
  let (f, cs) := takeFrac cs
  if i ++ f = [] then none
  else (takeExp cs).map (fun e => (if neg then -1 else 1) * (number (i ++ f) : ℚ) * (10 : ℚ) ^ (e - (f.length : Int)))

/-- Input of a `double`, `ssStr >> *pdData++`, opencv.cpp:565-567: the nearest `double`. Words such as `inf` and `nan` have no
digits and are refused. -/
def readVal (w : List Char) : Option Val := (readDec w).map (fun q => .num (IEEE.fl 53 q))

/-! ### Streams -/

/-- White space. -/
def space (c : Char) : Bool := c == ' ' || c == '\n'

/-- `ssStr >> sFieldName`: white space is skipped, then a word is taken. -/
def word (t : List Char) : Option (List Char × List Char) :=
  let t := t.dropWhile space
  if t = [] then none else some (t.takeWhile (fun c => !space c), t.dropWhile (fun c => !space c))

/-- `std::getline`; nothing left: failure. -/
def getline (t : List Char) : Option (List Char × List Char) :=
  if t = [] then none else some (t.takeWhile (· ≠ '\n'), (t.dropWhile (· ≠ '\n')).tail)

/-! ### Matrices -/

/-- OpenCV depths. -/
inductive Depth where
  | u8 | s8 | u16 | s16 | s32 | f32 | f64
deriving DecidableEq

/-- The number of a depth (`CV_8U` … `CV_64F`). -/
def Depth.code : Depth → Int
  | .u8 => 0 | .s8 => 1 | .u16 => 2 | .s16 => 3 | .s32 => 4 | .f32 => 5 | .f64 => 6

/-- The depth with a number; `convertTo` masks the number, here others fail. -/
def Depth.ofCode : Int → Option Depth
  | 0 => some .u8 | 1 => some .s8 | 2 => some .u16 | 3 => some .s16 | 4 => some .s32 | 5 => some .f32 | 6 => some .f64
  | _ => none

/-- Bytes of an element of one channel. -/
def Depth.bytes : Depth → Nat
  | .u8 => 1 | .s8 => 1 | .u16 => 2 | .s16 => 2 | .s32 => 4 | .f32 => 4 | .f64 => 8

/-- The range of a whole-number depth. -/
def Depth.range : Depth → Option (Int × Int)
  | .u8 => some (0, 255) | .s8 => some (-128, 127) | .u16 => some (0, 65535) | .s16 => some (-32768, 32767)
  | .s32 => some (-2147483648, 2147483647) | .f32 => none | .f64 => none

/-- `cv::saturate_cast` of a `double`: nearest whole number, ties to even, clamped to the range; nearest `float`. `none`: an infinity
or a NaN for a whole-number depth, where the result depends on the processor. -/
def saturate (d : Depth) : Val → Option Val
  | .num q => match d.range with
    | some (lo, hi) => some (.num ((max lo (min hi (Lut.roundEven q)) : Int) : ℚ))
    | none => some (.num (if d = .f32 then IEEE.fl 24 q else q))
  | v => match d.range with
    | some _ => none
    | none => some v

/-- A matrix: depth, channels, size of each dimension, and its elements in order, each with a value per channel. -/
structure Mat where
  depth : Depth
  channels : Nat
  sizes : List Nat
  elems : List (List Val)
deriving DecidableEq

/-- Number of elements. -/
def Mat.total (m : Mat) : Nat := m.sizes.prod

/-- `type()`: depth and channels in one number, `CV_MAKETYPE`. -/
def Mat.type (m : Mat) : Int := m.depth.code + 8 * ((m.channels : Int) - 1)

/-- The values of an element separated by spaces, opencv.cpp:469-471. -/
def showElem : List Val → List Char
  | [] => []
  | v :: vs => showVal v ++ (vs.map (fun v => ' ' :: showVal v)).flatten

/-- The elements, with line breaks after each row of the last dimension, opencv.cpp:468-476. -/
def showElems (width : Nat) : Nat → List (List Val) → List Char
  | _, [] => []
  | k, e :: es => showElem e ++ (if (k + 1) % width = 0 then '\n' else ' ') :: showElems width (k + 1) es

/-- A field of the header: its name, a space, its text and a line break. -/
def field (name text : List Char) : List Char := name ++ ' ' :: (text ++ ['\n'])

/-- `lv::write(…,MatArchive_PLAINTEXT)`, opencv.cpp:440-442, 450-478: the text of the file. Version and date stamps are inputs. -/
def write (version date : List Char) (m : Mat) : List Char :=
  field "htag".toList version ++ (field "date".toList date ++
  (field "nDataType".toList (showInt m.type) ++ (field "nDataDepth".toList (showInt m.depth.code) ++
  (field "nChannels".toList (showInt m.channels) ++ (field "nElemSize".toList (showInt ((m.depth.bytes * m.channels : Nat) : Int)) ++
  (field "nElemCount".toList (showInt (m.total : Int)) ++ (field "nDims".toList (showInt (m.sizes.length : Int)) ++
  ("anSizes".toList ++ ((m.sizes.map (fun (s : Nat) => ' ' :: showInt (s : Int))).flatten ++ ('\n' :: '\n' ::
    showElems (m.sizes.getLastD 1) 0 m.elems))))))))))

/-- A stamp in the header, opencv.cpp:548-549. -/
def readStamp (name : List Char) (t : List Char) : Option (List Char) := do
  let (w, t) ← word t
  if w = name then do
    let (_, t) ← getline t
    pure t
  else none

/-- A number in the header, opencv.cpp:551-558; 32 bits (`nElemSize` and `nElemCount`: 64 bits, not limited here). -/
def readField (name : List Char) (t : List Char) : Option (Int × List Char) := do
  let (w, t) ← word t
  let (v, t) ← word t
  let n ← readInt v
  if w = name then pure (n, t) else none

/-- The sizes, opencv.cpp:561-562. -/
def readSizes : Nat → List Char → Option (List Int × List Char)
  | 0, t => some ([], t)
  | n + 1, t => do
    let (w, t) ← word t
    let s ← readInt w
    let (r, t) ← readSizes n t
    pure (s :: r, t)

/-- Values, opencv.cpp:565-567. -/
def readVals : Nat → List Char → Option (List Val × List Char)
  | 0, t => some ([], t)
  | n + 1, t => do
    let (w, t) ← word t
    let v ← readVal w
    let (r, t) ← readVals n t
    pure (v :: r, t)

/-- The elements, opencv.cpp:564-568. -/
def readElems (channels : Nat) : Nat → List Char → Option (List (List Val) × List Char)
  | 0, t => some ([], t)
  | n + 1, t => do
    let (e, t) ← readVals channels t
    let (r, t) ← readElems channels n t
    pure (e :: r, t)

/-- `lv::read(…,MatArchive_PLAINTEXT)`, opencv.cpp:536-537, 544-572; `none`: an assertion fails. -/
def read (t : List Char) : Option Mat := do
  let t ← readStamp "htag".toList t
  let t ← readStamp "date".toList t
  let (_, t) ← readField "nDataType".toList t
  let (depth, t) ← readField "nDataDepth".toList t
  let (channels, t) ← readField "nChannels".toList t
  let (_, t) ← readField "nElemSize".toList t
  let (_, t) ← readField "nElemCount".toList t
  let (dims, t) ← readField "nDims".toList t
  let (w, t) ← word t
  if w = "anSizes".toList ∧ 0 ≤ dims ∧ 0 < channels then do
    let (sizes, t) ← readSizes dims.toNat t
    let sizes := sizes.map Int.toNat
    let d ← Depth.ofCode depth
    let (elems, _) ← readElems channels.toNat sizes.prod t
    let elems ← elems.mapM (fun e => e.mapM (saturate d))
    pure ⟨d, channels.toNat, sizes, elems⟩
  else none

end Litiv.TextIO
