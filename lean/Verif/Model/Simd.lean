import Mathlib.Data.Nat.Notation

/-!
# SIMD helpers, packed YCbCr rows and the aligned matrix allocator

Models `modules/utils/include/litiv/utils/simd.hpp`, the row loops of `cvtBGRToPackedYCbCr`
and `cvtPackedYCbCrToBGR`, and `AlignedMatAllocator::allocate`
(`modules/utils/include/litiv/utils/opencv.hpp`).

A 128-bit register is its sixteen bytes, least significant first; wider lanes are read from
and written to bytes.  Each intrinsic follows its published semantics.
-/

namespace Litiv.Simd

/-- a byte -/
abbrev Byte := BitVec 8

/-- a 128-bit register: bytes 0 to 15 (other indices carry no meaning) -/
abbrev Reg := Nat → Byte

/-! ## Lanes -/

/-- 16-bit lane `i`, as an unsigned number -/
def u16 (r : Reg) (i : Nat) : Nat := (r (2 * i)).toNat + 256 * (r (2 * i + 1)).toNat

/-- 32-bit lane `i`, as an unsigned number -/
def u32 (r : Reg) (i : Nat) : Nat := u16 r (2 * i) + 65536 * u16 r (2 * i + 1)

/-- 64-bit lane `i`, as an unsigned number -/
def u64 (r : Reg) (i : Nat) : Nat := u32 r (2 * i) + 4294967296 * u32 r (2 * i + 1)

/-- register from 16-bit lanes (values are reduced modulo 2^16) -/
def mk16 (f : Nat → Nat) : Reg := fun k => BitVec.ofNat 8 (f (k / 2) / 256 ^ (k % 2))

/-- register from 32-bit lanes (values are reduced modulo 2^32) -/
def mk32 (f : Nat → Nat) : Reg := fun k => BitVec.ofNat 8 (f (k / 4) / 256 ^ (k % 4))

/-- register from 64-bit lanes (values are reduced modulo 2^64) -/
def mk64 (f : Nat → Nat) : Reg := fun k => BitVec.ofNat 8 (f (k / 8) / 256 ^ (k % 8))

/-- a 32-bit pattern read as a signed number -/
def s32 (x : Nat) : Int := if x < 2 ^ 31 then x else x - 2 ^ 32

/-- `_MM_SHUFFLE(z,y,x,w)` -/
def shuf (z y x w : Nat) : Nat := z * 64 + y * 16 + x * 4 + w

/-- field `i` of a shuffle immediate -/
def sel (imm i : Nat) : Nat := imm / 4 ^ i % 4

/-! ## Intrinsics -/

/-- `_mm_setzero_si128` -/
def setzero : Reg := fun _ => 0#8
/-- `_mm_set1_epi8` -/
def set1_epi8 (b : Byte) : Reg := fun _ => b
/-- `_mm_set1_epi16` -/
def set1_epi16 (v : Nat) : Reg := mk16 (fun _ => v)
/-- `_mm_sad_epu8` -/
def sad_epu8 (a b : Reg) : Reg := mk64 (fun i =>
  (List.range 8).foldl (fun s k => s +
    (((a (8 * i + k)).toNat : Int) - (b (8 * i + k)).toNat).natAbs) 0)
/-- `_mm_srli_si128`: shift right by `n` bytes -/
def srli_si128 (r : Reg) (n : Nat) : Reg := fun k => if k + n < 16 then r (k + n) else 0#8
/-- `_mm_srli_epi16` (shift count below 16) -/
def srli_epi16 (r : Reg) (n : Nat) : Reg := mk16 (fun i => u16 r i / 2 ^ n)
/-- `_mm_slli_epi16` (shift count below 16) -/
def slli_epi16 (r : Reg) (n : Nat) : Reg := mk16 (fun i => u16 r i * 2 ^ n)
/-- `_mm_add_epi32` -/
def add_epi32 (a b : Reg) : Reg := mk32 (fun i => u32 a i + u32 b i)
/-- `_mm_add_epi64` -/
def add_epi64 (a b : Reg) : Reg := mk64 (fun i => u64 a i + u64 b i)
/-- `_mm_sub_epi8` -/
def sub_epi8 (a b : Reg) : Reg := fun k => a k - b k
/-- `_mm_min_epu8` -/
def min_epu8 (a b : Reg) : Reg := fun k => if (a k).toNat ≤ (b k).toNat then a k else b k
/-- `_mm_max_epi32` (signed) -/
def max_epi32 (a b : Reg) : Reg :=
  mk32 (fun i => if s32 (u32 b i) < s32 (u32 a i) then u32 a i else u32 b i)
/-- `_mm_mullo_epi16` -/
def mullo_epi16 (a b : Reg) : Reg := mk16 (fun i => u16 a i * u16 b i)
/-- `_mm_mullo_epi32` -/
def mullo_epi32 (a b : Reg) : Reg := mk32 (fun i => u32 a i * u32 b i)
/-- `_mm_mul_epu32`: full products of the even 32-bit lanes -/
def mul_epu32 (a b : Reg) : Reg := mk64 (fun i => u32 a (2 * i) * u32 b (2 * i))
/-- `_mm_shuffle_epi32` -/
def shuffle_epi32 (r : Reg) (imm : Nat) : Reg := fun k => r (4 * sel imm (k / 4) + k % 4)
/-- `_mm_shufflelo_epi16`: permutes the low four words -/
def shufflelo_epi16 (r : Reg) (imm : Nat) : Reg :=
  fun k => if k < 8 then r (2 * sel imm (k / 2) + k % 2) else r k
/-- `_mm_unpacklo_epi8` -/
def unpacklo_epi8 (a b : Reg) : Reg := fun k => if k % 2 = 0 then a (k / 2) else b (k / 2)
/-- `_mm_unpackhi_epi8` -/
def unpackhi_epi8 (a b : Reg) : Reg := fun k => if k % 2 = 0 then a (k / 2 + 8) else b (k / 2 + 8)
/-- `_mm_unpacklo_epi32` -/
def unpacklo_epi32 (a b : Reg) : Reg :=
  mk32 (fun i => if i % 2 = 0 then u32 a (i / 2) else u32 b (i / 2))
/-- `_mm_and_si128` -/
def and_si128 (a b : Reg) : Reg := fun k => a k &&& b k
/-- `_mm_or_si128` -/
def or_si128 (a b : Reg) : Reg := fun k => a k ||| b k
/-- `_mm_xor_si128` -/
def xor_si128 (a b : Reg) : Reg := fun k => a k ^^^ b k
/-- `_mm_cmpeq_epi32` -/
def cmpeq_epi32 (a b : Reg) : Reg :=
  mk32 (fun i => if u32 a i = u32 b i then 4294967295 else 0)
/-- `_mm_movemask_epi8`: the top bits of the sixteen bytes -/
def movemask_epi8 (r : Reg) : Nat :=
  (List.range 16).foldl (fun s k => s + (if 128 ≤ (r k).toNat then 2 ^ k else 0)) 0
/-- `_mm_testz_si128(a,b)`: whether `a & b` is zero -/
def testz (a b : Reg) : Bool := (List.range 16).all (fun k => decide (a k &&& b k = 0#8))
/-- `_mm_testc_si128(a,b)`: whether `~a & b` is zero -/
def testc (a b : Reg) : Bool := (List.range 16).all (fun k => decide (~~~ (a k) &&& b k = 0#8))
/-- `_mm_cvtsi128_si32`, as a bit pattern -/
def cvt_si32 (r : Reg) : Nat := u32 r 0
/-- a signed word saturated to an unsigned byte -/
def sat8 (x : Nat) : Byte := if 32768 ≤ x then 0#8 else if 255 < x then 255#8 else BitVec.ofNat 8 x
/-- `_mm_packus_epi16` -/
def packus_epi16 (a b : Reg) : Reg :=
  fun k => if k < 8 then sat8 (u16 a k) else sat8 (u16 b (k - 8))
/-- `_mm_minpos_epu16`: the smallest word in word 0, its first position in word 1 -/
def minpos_epu16 (r : Reg) : Reg :=
  let p := (List.range 8).foldl (fun p i => if u16 r i < u16 r p then i else p) 0
  mk16 (fun i => if i = 0 then u16 r p else if i = 1 then p else 0)
/-- `_mm_extract_epi16` (zero-extended) -/
def extract_epi16 (r : Reg) (i : Nat) : Nat := u16 r i

/-! ## `lv` helpers -/

/-- `cmp_zero_128i` (simd.hpp 52-60); `sse4` selects the branch of the preprocessor -/
def cmpZero (sse4 : Bool) (r : Reg) : Bool :=
  if sse4 then testz r r else decide (movemask_epi8 (cmpeq_epi32 r setzero) = 0xFFFF)

/-- `cmp_eq_128i` (simd.hpp 62-70) -/
def cmpEq (sse4 : Bool) (a b : Reg) : Bool :=
  if sse4 then testc setzero (xor_si128 a b)
  else decide (movemask_epi8 (cmpeq_epi32 a b) = 0xFFFF)

/-- `hsum_8ui` for 128 bits (simd.hpp 72-76) -/
def hsum8 (r : Reg) : Nat :=
  let s := sad_epu8 r (set1_epi8 0#8)
  cvt_si32 (add_epi64 (srli_si128 s 8) s)

/-- `hsum_32i` (simd.hpp 78-83), as a bit pattern -/
def hsum32 (r : Reg) : Nat :=
  let s64 := add_epi32 r (shuffle_epi32 r (shuf 1 0 3 2))
  let s32 := add_epi32 (shufflelo_epi16 s64 (shuf 1 0 3 2)) s64
  cvt_si32 s32

/-- memory as a map from addresses; a failed aligned access is `none` -/
abbrev Mem := Nat → Byte

/-- `_mm_store_si128`: faults unless 16-byte aligned -/
def storeAligned (m : Mem) (p : Nat) (r : Reg) : Option Mem :=
  if p % 16 = 0 then some (fun a => if p ≤ a ∧ a < p + 16 then r (a - p) else m a) else none

/-- `store1_8ui` (simd.hpp 85-89) -/
def store1_8ui (m : Mem) (p : Nat) (v : Byte) : Option Mem := storeAligned m p (set1_epi8 v)

/-- `store_8ui` (simd.hpp 91-97); the debug assertion at 93 is taken to hold in every build -/
def store_8ui (m : Mem) (p n : Nat) (v : Byte) : Option Mem :=
  if p % 16 = 0 then
    (List.range n).foldlM (fun m i => storeAligned m (p + 16 * i) (set1_epi8 v)) m
  else none

/-- `unpack_8ui_to_16ui` (simd.hpp 99-103) -/
def unpack8to16 (low : Bool) (r : Reg) : Reg :=
  if low then unpacklo_epi8 r setzero else unpackhi_epi8 r setzero

/-- `mult_8i` (simd.hpp 105-110) -/
def mult8 (a b : Reg) : Reg :=
  let even := mullo_epi16 a b
  let odd := mullo_epi16 (srli_epi16 a 8) (srli_epi16 b 8)
  or_si128 (slli_epi16 odd 8) (srli_epi16 (slli_epi16 even 8) 8)

/-- `mult_32si` (simd.hpp 112-119) -/
def mult32 (sse4 : Bool) (a b : Reg) : Reg :=
  if sse4 then mullo_epi32 a b
  else unpacklo_epi32 (shuffle_epi32 (mul_epu32 a b) (shuf 0 0 2 0))
    (shuffle_epi32 (mul_epu32 (srli_si128 a 4) (srli_si128 b 4)) (shuf 0 0 2 0))

/-- `extract_32si<nPos>` (simd.hpp 121-130), as a bit pattern.  In the fallback the shift
binds weaker than the addition. -/
def extract32 (sse4 : Bool) (pos : Nat) (r : Reg) : Nat :=
  if sse4 then u32 r pos
  else (extract_epi16 r (pos * 2) + extract_epi16 r (pos * 2 + 1)) * 2 ^ 16 % 2 ^ 32

/-- `hmin_8ui` (simd.hpp 136-139) -/
def hmin8 (r : Reg) : Byte :=
  BitVec.ofNat 8 (cvt_si32 (minpos_epu16 (min_epu8 r (srli_epi16 r 8))))

/-- `hmax_8ui` (simd.hpp 141-144) -/
def hmax8 (r : Reg) : Byte := 255#8 - hmin8 (sub_epi8 (set1_epi8 255#8) r)

/-- `hmax_32si` (simd.hpp 146-150), as a bit pattern -/
def hmax32 (r : Reg) : Nat :=
  let h := max_epi32 r (shuffle_epi32 r (shuf 0 0 3 2))
  cvt_si32 (max_epi32 h (shuffle_epi32 h (shuf 0 0 0 1)))

/-! ## Packed YCbCr rows -/

/-- a row of bytes in memory: address of its first element, element count, contents -/
structure Row (α : Type) where
  addr : Nat
  len : Nat
  val : Nat → α

/-- a 16-byte load from a byte row at element `i`; `_mm_load_si128` faults when unaligned -/
def load8 (r : Row Byte) (i : Nat) : Option Reg :=
  if (r.addr + i) % 16 = 0 ∧ i + 16 ≤ r.len then some (fun k => r.val (i + k)) else none

/-- a 16-byte load from a row of 16-bit elements at element `i`, aligned or not -/
def load16 (aligned : Bool) (r : Row (BitVec 16)) (i : Nat) : Option Reg :=
  if (aligned = true → (r.addr + 2 * i) % 16 = 0) ∧ i + 8 ≤ r.len then
    some (mk16 (fun k => (r.val (i + k)).toNat))
  else none

/-- `_mm_store_si128` to a byte row -/
def store8 (r : Row Byte) (i : Nat) (v : Reg) : Option (Row Byte) :=
  if (r.addr + i) % 16 = 0 ∧ i + 16 ≤ r.len then
    some { r with val := fun x => if i ≤ x ∧ x < i + 16 then v (x - i) else r.val x }
  else none

/-- `_mm_store_si128` to a row of 16-bit elements -/
def store16 (r : Row (BitVec 16)) (i : Nat) (v : Reg) : Option (Row (BitVec 16)) :=
  if (r.addr + 2 * i) % 16 = 0 ∧ i + 8 ≤ r.len then
    some { r with val := fun x => if i ≤ x ∧ x < i + 8 then BitVec.ofNat 16 (u16 v (x - i))
                                  else r.val x }
  else none

/-- a scalar store -/
def put {α : Type} (r : Row α) (i : Nat) (v : α) : Option (Row α) :=
  if i < r.len then some { r with val := fun x => if x = i then v else r.val x } else none

/-- a scalar load -/
def fetch {α : Type} (r : Row α) (i : Nat) : Option α := if i < r.len then some (r.val i) else none

/-- the vector loop of `cvtBGRToPackedYCbCr` (opencv.hpp 1237-1252): column reached and row -/
def encVec (y cr cb : Row Byte) (cols : Nat) :
    Nat → Nat → Row (BitVec 16) → Option (Nat × Row (BitVec 16))
  | 0, col, out => some (col, out)
  | fuel + 1, col, out =>
    if (col : Int) ≤ (cols : Int) - 16 then do
      let yv ← load8 y col
      let ylo := unpack8to16 true yv
      let yhi := unpack8to16 false yv
      let crv ← load8 cr col
      let crlo := slli_epi16 (srli_epi16 (unpack8to16 true crv) 4) 8
      let crhi := slli_epi16 (srli_epi16 (unpack8to16 false crv) 4) 8
      let cbv ← load8 cb col
      let cblo := slli_epi16 (srli_epi16 (unpack8to16 true cbv) 4) 12
      let cbhi := slli_epi16 (srli_epi16 (unpack8to16 false cbv) 4) 12
      let out ← store16 out col (or_si128 ylo (or_si128 crlo cblo))
      let out ← store16 out (col + 8) (or_si128 yhi (or_si128 crhi cbhi))
      encVec y cr cb cols fuel (col + 16) out
    else some (col, out)

/-- the scalar expression of opencv.hpp 1255 -/
def encPix (y cr cb : Byte) : BitVec 16 :=
  BitVec.ofNat 16 (y.toNat + cr.toNat / 2 ^ 4 * 2 ^ 8 + cb.toNat / 2 ^ 4 * 2 ^ 12)

/-- the scalar loop (opencv.hpp 1254-1255) -/
def encTail (y cr cb : Row Byte) (cols : Nat) :
    Nat → Nat → Row (BitVec 16) → Option (Row (BitVec 16))
  | 0, _, out => some out
  | fuel + 1, col, out =>
    if col < cols then do
      let a ← fetch y col
      let b ← fetch cr col
      let c ← fetch cb col
      let out ← put out col (encPix a b c)
      encTail y cr cb cols fuel (col + 1) out
    else some out

/-- one row of `cvtBGRToPackedYCbCr` (opencv.hpp 1231-1255); `sse` is `HAVE_SSE2` -/
def encRow (sse : Bool) (y cr cb : Row Byte) (cols : Nat) (out : Row (BitVec 16)) :
    Option (Row (BitVec 16)) := do
  let (col, out) ← if sse then encVec y cr cb cols (cols + 1) 0 out else some (0, out)
  encTail y cr cb cols (cols + 1) col out

/-- the three output planes of `cvtPackedYCbCrToBGR` -/
structure Planes where
  y : Row Byte
  cr : Row Byte
  cb : Row Byte

/-- the vector loop of `cvtPackedYCbCrToBGR` (opencv.hpp 1283-1297) -/
def decVec (p : Row (BitVec 16)) (cols : Nat) : Nat → Nat → Planes → Option (Nat × Planes)
  | 0, col, o => some (col, o)
  | fuel + 1, col, o =>
    if (col : Int) ≤ (cols : Int) - 16 then do
      let al := decide (p.addr % 16 = 0)
      let lo ← load16 al p col
      let hi ← load16 al p (col + 8)
      let ym := set1_epi16 255
      let crm := set1_epi16 15
      let y ← store8 o.y col (packus_epi16 (and_si128 lo ym) (and_si128 hi ym))
      let cr ← store8 o.cr col (packus_epi16
        (slli_epi16 (and_si128 (srli_epi16 lo 8) crm) 4)
        (slli_epi16 (and_si128 (srli_epi16 hi 8) crm) 4))
      let cb ← store8 o.cb col (packus_epi16
        (slli_epi16 (srli_epi16 lo 12) 4) (slli_epi16 (srli_epi16 hi 12) 4))
      decVec p cols fuel (col + 16) ⟨y, cr, cb⟩
    else some (col, o)

/-- the scalar expressions of opencv.hpp 1300-1302 -/
def decPix (v : BitVec 16) : Byte × Byte × Byte :=
  (BitVec.ofNat 8 v.toNat, BitVec.ofNat 8 ((v.toNat / 2 ^ 8) % 16 * 2 ^ 4),
    BitVec.ofNat 8 (v.toNat / 2 ^ 12 * 2 ^ 4))

/-- the scalar loop (opencv.hpp 1299-1303) -/
def decTail (p : Row (BitVec 16)) (cols : Nat) : Nat → Nat → Planes → Option Planes
  | 0, _, o => some o
  | fuel + 1, col, o =>
    if col < cols then do
      let v ← fetch p col
      let y ← put o.y col (decPix v).1
      let cr ← put o.cr col (decPix v).2.1
      let cb ← put o.cb col (decPix v).2.2
      decTail p cols fuel (col + 1) ⟨y, cr, cb⟩
    else some o

/-- one row of `cvtPackedYCbCrToBGR` (opencv.hpp 1277-1303) -/
def decRow (sse : Bool) (p : Row (BitVec 16)) (cols : Nat) (o : Planes) : Option Planes := do
  let (col, o) ← if sse then decVec p cols (cols + 1) 0 o else some (0, o)
  decTail p cols (cols + 1) col o

/-! ## `AlignedMatAllocator` -/

/-- `cv::alignSize(sz,n)`: `(sz + n-1) & -n` in `size_t` -/
def alignSize (sz n : BitVec 64) : BitVec 64 := (sz + n - 1#64) &&& (-n)

/-- the row steps computed by `AlignedMatAllocator<n,single>::allocate` (opencv.hpp 1470-1472),
major dimension first: the last step is the element size (aligned if `single`), each other one
is the next step times the next size, aligned -/
def steps (n : BitVec 64) (single : Bool) (esz : BitVec 64) : List (BitVec 64) → List (BitVec 64)
  | [] => []
  | [_] => [if single then alignSize esz n else esz]
  | _ :: s :: ss =>
    match steps n single esz (s :: ss) with
    | [] => []
    | st :: rest => alignSize (st * s) n :: st :: rest

/-- the byte size of the allocation (opencv.hpp 1474) -/
def allocSize (n : BitVec 64) (single : Bool) (esz : BitVec 64) (sizes : List (BitVec 64)) :
    BitVec 64 :=
  match steps n single esz sizes, sizes with
  | st :: _, s :: _ => alignSize (st * s) n
  | _, _ => 0#64

/-- byte offset of an element, `Mat::ptr(idx)` -/
def offset : List (BitVec 64) → List (BitVec 64) → BitVec 64
  | st :: sts, i :: is => st * i + offset sts is
  | _, _ => 0#64

end Litiv.Simd
