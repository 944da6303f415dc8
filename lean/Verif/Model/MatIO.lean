import Mathlib.Data.List.Basic

/-!
# Matrix archives and matrix packing

Models `lv::write`/`lv::read` for the two binary archive formats and
`lv::packData`/`lv::unpackData` (`modules/utils/src/opencv.cpp`), with the
`lv::MatSize_`/`lv::MatType` bookkeeping they use
(`modules/utils/include/litiv/utils/opencv.hpp`).

A file is a list of bytes.  An input stream is the bytes still to be read and the state of
its fail bit.  Locals read before they were assigned, and freshly allocated matrix buffers,
are oracles: the theorems quantify over their contents.
-/

namespace Litiv.MatIO

/-- a byte -/
abbrev Byte := BitVec 8

/-- `CV_MAT_DEPTH_BYTES` (opencv.hpp 54-57) -/
def depthBytes (d : Nat) : Nat :=
  if d ≤ 1 then 1 else if d < 4 then 2 else if d < 6 then 4 else 8

/-- `CV_MAT_DEPTH`: the low three bits of an OpenCV type id (used at opencv.hpp 55-57) -/
def depth (t : Nat) : Nat := t % 8

/-- `CV_MAT_CN`: the nine bits above the depth, plus one (used at opencv.hpp 251-257) -/
def channels (t : Nat) : Nat := t / 8 % 512 + 1

/-- `lv::MatType::elemSize` (opencv.hpp 257) and `cv::Mat::elemSize` -/
def elemSize (t : Nat) : Nat := depthBytes (depth t) * channels t

/-- `lv::MatSize_::total` (opencv.hpp 509-516) and `cv::Mat::total`: no dimension means no
element, otherwise the product of the sizes.  Simplified: no wrap-around of `size_t`. -/
def total : List Nat → Nat
  | [] => 0
  | s :: ss => ss.foldl (· * ·) s

/-- A `cv::Mat` as seen by this code: type id, dimension sizes (major first) and the bytes of
its elements in row-major order.  Simplified: row padding is not represented, because
opencv.cpp 442 clones a non-continuous matrix before its bytes are used and `copyTo` (669)
copies element by element. -/
structure Mat where
  type : Nat
  sizes : List Nat
  data : List Byte
deriving DecidableEq, Repr

/-- `cv::Mat()` -/
def Mat.empty : Mat := ⟨0, [], []⟩

/-- how a call ends: normally, with an exception, or by writing outside an allocation -/
inductive Res (α : Type) where
  | ok (a : α)
  | rejected
  | ub
deriving DecidableEq, Repr

/-! ## Binary archives -/

/-- the `k` bytes of an integer in memory, least significant first (x86 order), as stored by
`ssStr.write((const char*)&v,sizeof(v))` (opencv.cpp 518-528) -/
def leBytes : Nat → Nat → List Byte
  | 0, _ => []
  | k + 1, n => BitVec.ofNat 8 n :: leBytes k (n / 256)

/-- the integer held by a little-endian byte string -/
def leVal : List Byte → Nat
  | [] => 0
  | b :: bs => b.toNat + 256 * leVal bs

/-- the archive header: type, element size, element count, dimension count, sizes
(opencv.cpp 517-528, and identically 483-494) -/
def header (m : Mat) : List Byte :=
  leBytes 4 m.type ++ (leBytes 8 (elemSize m.type) ++ (leBytes 8 (total m.sizes) ++
    (leBytes 4 m.sizes.length ++ m.sizes.flatMap (leBytes 4))))

/-- `lv::write` with `MatArchive_BINARY` (opencv.cpp 440-442, 514-531); an empty matrix is
refused at 441.  `ssStr.write` at 529 takes `nElemSize*nElemCount` bytes. -/
def writeBin (m : Mat) : Res (List Byte) :=
  if total m.sizes = 0 then .rejected
  else .ok (header m ++ m.data.take (elemSize m.type * total m.sizes % 2 ^ 64))

/-- an input stream: bytes left and "no fail bit" -/
structure IStr where
  rest : List Byte
  good : Bool
deriving DecidableEq, Repr

/-- `std::istream::read` into a buffer of `k` bytes that holds `old`: with the fail bit set
nothing is stored; a short read stores what there is and sets the fail bit -/
def readInto (k : Nat) (old : List Byte) (s : IStr) : List Byte × IStr :=
  if s.good = false then (old, s)
  else if k ≤ s.rest.length then (s.rest.take k, ⟨s.rest.drop k, true⟩)
  else (s.rest ++ old.drop s.rest.length, ⟨[], false⟩)

/-- contents of the uninitialised locals of `lv::read` and of the fresh matrix buffer -/
structure Junk where
  type : Nat
  esize : Nat
  count : Nat
  dims : Nat
  compr : Nat
  heap : Nat → Byte

/-- a fresh buffer of `n` bytes -/
def alloc (heap : Nat → Byte) (n : Nat) : List Byte := (List.range n).map heap

/-- the fields read from the header -/
structure Hdr where
  type : Nat
  esize : Nat
  count : Nat
  dims : Nat
  sizes : List Nat
deriving DecidableEq, Repr

/-- the loop over dimensions (opencv.cpp 620-621); the vector starts zeroed (619) -/
def readSizes : Nat → IStr → List Nat × IStr
  | 0, s => ([], s)
  | n + 1, s =>
    let (v, s') := readInto 4 (leBytes 4 0) s
    let (vs, s'') := readSizes n s'
    (leVal v :: vs, s'')

/-- opencv.cpp 611-621 (and 577-587): the header.  A negative `nDims` makes the vector
constructor throw (619). -/
def readHdr (j : Junk) (s : IStr) : Option (Hdr × IStr) :=
  let (t, s) := readInto 4 (leBytes 4 j.type) s
  let (e, s) := readInto 8 (leBytes 8 j.esize) s
  let (c, s) := readInto 8 (leBytes 8 j.count) s
  let (d, s) := readInto 4 (leBytes 4 j.dims) s
  if 2 ^ 31 ≤ leVal d then none
  else
    let (v, s) := readSizes (leVal d) s
    some (⟨leVal t, leVal e, leVal c, leVal d, v⟩, s)

/-- `cv::Mat::create(nDims,anSizes.data(),nDataType)` (opencv.cpp 622, 588): OpenCV checks the
dimension count and the signs, masks the type to 12 bits, turns one dimension into a column;
no dimension gives an empty matrix.  The buffer has arbitrary contents.  Not modelled:
allocation failure. -/
def create (j : Junk) (h : Hdr) : Option Mat :=
  if 32 < h.dims ∨ h.sizes.any (fun s => decide (2 ^ 31 ≤ s)) then none
  else
    let ty := h.type % 4096
    let sz := if h.dims = 1 then h.sizes ++ [1] else h.sizes
    some ⟨ty, sz, alloc j.heap (total sz * elemSize ty)⟩

/-- `ssStr.read((char*)oData.data,n)`: stores at most `n` bytes, fewer if the file is shorter.
Storing more than the buffer holds is `ub`.  A byte count of 2^63 or more is a negative
`std::streamsize` and fails. -/
def readData (n : Nat) (m : Mat) (s : IStr) : Res (Mat × IStr) :=
  if s.good = false then .ok (m, s)
  else if 2 ^ 63 ≤ n then .ok (m, ⟨s.rest, false⟩)
  else if m.data.length < min n s.rest.length then .ub
  else if n ≤ s.rest.length then
    .ok (⟨m.type, m.sizes, s.rest.take n ++ m.data.drop n⟩, ⟨s.rest.drop n, true⟩)
  else .ok (⟨m.type, m.sizes, s.rest ++ m.data.drop s.rest.length⟩, ⟨[], false⟩)

/-- `lv::read` with `MatArchive_BINARY` (opencv.cpp 608-625) -/
def readBin (j : Junk) (f : List Byte) : Res Mat :=
  match readHdr j ⟨f, true⟩ with
  | none => .rejected
  | some (h, s) =>
    match create j h with
    | none => .rejected
    | some m =>
      match readData (h.esize * h.count % 2 ^ 64) m s with
      | .ub => .ub
      | .rejected => .rejected
      | .ok (m', s') => if s'.good = true then .ok m' else .rejected

/-! ## LZ4 archives -/

/-- The LZ4 library as used here.  `compress src cap` is `LZ4_compress_default` with a
destination of `cap` bytes, the empty list standing for a return value of zero;
`decompress src cap` is `LZ4_decompress_safe`, `none` standing for a negative value. -/
structure Codec where
  compress : List Byte → Nat → List Byte
  decompress : List Byte → Nat → Option (List Byte)

/-- `lv::write` with `MatArchive_BINARY_LZ4` (opencv.cpp 480-512).  The else branch at 507-510
is unreachable: 441 refuses empty matrices. -/
def writeLz4 (c : Codec) (m : Mat) : Res (List Byte) :=
  let n := elemSize m.type * total m.sizes % 2 ^ 64
  if total m.sizes = 0 then .rejected
  else if 2 ^ 31 - 1 ≤ n then .rejected
  else
    let z := c.compress m.data n
    if n < z.length then .rejected
    else .ok (header m ++ (leBytes 4 z.length ++ if z.length = 0 then m.data.take n else z))

/-- `lv::read` with `MatArchive_BINARY_LZ4` (opencv.cpp 574-606).  The stream is checked at 589
and 600 but not after 595. -/
def readLz4 (c : Codec) (j : Junk) (f : List Byte) : Res Mat :=
  match readHdr j ⟨f, true⟩ with
  | none => .rejected
  | some (h, s) =>
    match create j h with
    | none => .rejected
    | some m =>
      if s.good = false then .rejected
      else if total m.sizes = 0 then .ok m
      else
        let n := h.esize * h.count % 2 ^ 64
        let (zb, s) := readInto 4 (leBytes 4 j.compr) s
        let z := leVal zb
        if 2 ^ 31 ≤ z ∨ n < z then .rejected
        else if z = 0 then
          match readData n m s with
          | .ub => .ub
          | .rejected => .rejected
          | .ok (m', _) => .ok m'
        else
          let (src, s) := readInto z (List.replicate z 0) s
          if s.good = false then .rejected
          else if 2 ^ 31 - 1 ≤ n then .rejected
          else
            match c.decompress src n with
            | none => .rejected
            | some out =>
              if m.data.length < out.length then .ub
              else if out.length = n then .ok ⟨m.type, m.sizes, out ++ m.data.drop out.length⟩
              else .rejected

/-! ## Packing -/

/-- `lv::MatInfo` (opencv.hpp 573-597): sizes and type id -/
structure Info where
  sizes : List Nat
  type : Nat
deriving DecidableEq, Repr

/-- `MatInfo` of a matrix, with the checks of `MatType::operator=` (opencv.hpp 216-221) that
opencv.cpp 635-636 goes through -/
def infoOf (m : Mat) : Option Info :=
  if depth m.type ≤ 6 ∧ channels m.type ≤ 4 then some ⟨m.sizes, m.type⟩ else none

/-- bytes described by an `Info` (opencv.cpp 689, 695) -/
def Info.bytes (i : Info) : Nat := total i.sizes * elemSize i.type

/-- bytes of a matrix (opencv.cpp 647, 666) -/
def Mat.bytes (m : Mat) : Nat := total m.sizes * elemSize m.type

/-- `cv::Mat::clone`: cloning an empty matrix gives `cv::Mat()` -/
def clone (m : Mat) : Mat := if total m.sizes = 0 then Mat.empty else m

/-- `copyTo` into a view of the packet at a byte offset (opencv.cpp 669); `none` is a write
outside the packet (asserted at 668 in debug builds) -/
def blit (buf : List Byte) (off : Nat) (xs : List Byte) : Option (List Byte) :=
  if off + xs.length ≤ buf.length then
    some (buf.take off ++ xs ++ buf.drop (off + xs.length))
  else none

/-- opencv.cpp 643-654: running total, type of the first non-empty matrix, "all same type" -/
structure Scan where
  tot : Nat
  first : Option Nat
  same : Bool
deriving DecidableEq, Repr

/-- one iteration of opencv.cpp 646-654 -/
def Scan.next (s : Scan) (m : Mat) : Scan :=
  if 0 < m.bytes then
    let f := s.first.getD m.type
    ⟨s.tot + m.bytes, some f, s.same && decide (m.type = f)⟩
  else s

/-- one iteration of opencv.cpp 665-672 -/
def packStep (st : List Byte × Nat) (m : Mat) : Option (List Byte × Nat) :=
  if 0 < m.bytes then (blit st.1 st.2 m.data).map (fun b => (b, st.2 + m.bytes)) else some st

/-- `lv::packData` for two or more matrices (opencv.cpp 643-674).  `heap` gives the contents
of the freshly allocated packet.  Simplified: the size limit asserted at 657 in debug builds
is taken to hold in every build. -/
def packMany (heap : Nat → Byte) (ms : List Mat) : Option Mat :=
  let s := ms.foldl Scan.next ⟨0, none, true⟩
  if s.tot = 0 then some Mat.empty
  else if 2 ^ 31 - 1 ≤ s.tot then none
  else
    let ft := s.first.getD 0
    let n := if s.same then s.tot / elemSize ft else s.tot
    let ty := if s.same then ft else 0
    (ms.foldlM packStep (alloc heap (n * elemSize ty), 0)).map (fun r => ⟨ty, [1, n], r.1⟩)

/-- `lv::packData` with a non-null info pointer (opencv.cpp 630-675) -/
def packData (heap : Nat → Byte) (ms : List Mat) : Option (Mat × List Info) :=
  match ms.mapM infoOf with
  | none => none
  | some infos =>
    match ms with
    | [] => some (Mat.empty, infos)
    | [m] => some (clone m, infos)
    | a :: b :: t => (packMany heap (a :: b :: t)).map (fun p => (p, infos))

/-- one iteration of opencv.cpp 694-701: a view of the packet, or the default `cv::Mat()` -/
def unpackStep (p : Mat) (st : List Mat × Nat) (i : Info) : Option (List Mat × Nat) :=
  if 0 < i.bytes then
    if st.2 + i.bytes ≤ p.data.length then
      some (st.1 ++ [⟨i.type, i.sizes, (p.data.drop st.2).take i.bytes⟩], st.2 + i.bytes)
    else none
  else some (st.1 ++ [Mat.empty], st.2)

/-- `lv::unpackData` (opencv.cpp 677-704) for a continuous packet.  The outputs are views; here
they are the bytes seen through them while the packet lives. -/
def unpackData (p : Mat) (infos : List Info) : Option (List Mat) :=
  if total p.sizes = 0 then
    if infos.all (fun i => decide (total i.sizes = 0)) then
      some (List.replicate infos.length Mat.empty)
    else none
  else if infos = [] then none
  else
    let tot := (infos.map Info.bytes).foldl (· + ·) 0
    if tot = 0 then none
    else if tot ≠ p.bytes then none
    else (infos.foldlM (unpackStep p) ([], 0)).map (·.1)

end Litiv.MatIO
