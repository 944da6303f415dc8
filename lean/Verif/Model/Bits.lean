import Mathlib.Data.Nat.Sqrt

/-!
# Model of the bit-level helpers of modules/utils/include/litiv/utils/math.hpp

Integers of `w` bits are `BitVec w`, with the wrap-around arithmetic of unsigned C++ integers.
-/

namespace Litiv.Bits

/-- `ispow2`, `math.hpp:37-42`. -/
def ispow2 {w : Nat} (x : BitVec w) : Bool := (x &&& (x - 1)) == 0

/-- `get_next_pow2`, `math.hpp:47-56`. -/
def getNextPow2 (x : BitVec 32) : BitVec 32 :=
  let x := x - 1
  let x := x ||| x >>> 1
  let x := x ||| x >>> 2
  let x := x ||| x >>> 4
  let x := x ||| x >>> 8
  let x := x ||| x >>> 16
  x + 1

/-- `s_anPopcntLUT8`, `math.hpp:631-648`. -/
def popcntLUT8 : List Nat := [
  0, 1, 1, 2, 1, 2, 2, 3, 1, 2, 2, 3, 2, 3, 3, 4,
  1, 2, 2, 3, 2, 3, 3, 4, 2, 3, 3, 4, 3, 4, 4, 5,
  1, 2, 2, 3, 2, 3, 3, 4, 2, 3, 3, 4, 3, 4, 4, 5,
  2, 3, 3, 4, 3, 4, 4, 5, 3, 4, 4, 5, 4, 5, 5, 6,
  1, 2, 2, 3, 2, 3, 3, 4, 2, 3, 3, 4, 3, 4, 4, 5,
  2, 3, 3, 4, 3, 4, 4, 5, 3, 4, 4, 5, 4, 5, 5, 6,
  2, 3, 3, 4, 3, 4, 4, 5, 3, 4, 4, 5, 4, 5, 5, 6,
  3, 4, 4, 5, 4, 5, 5, 6, 4, 5, 5, 6, 5, 6, 6, 7,
  1, 2, 2, 3, 2, 3, 3, 4, 2, 3, 3, 4, 3, 4, 4, 5,
  2, 3, 3, 4, 3, 4, 4, 5, 3, 4, 4, 5, 4, 5, 5, 6,
  2, 3, 3, 4, 3, 4, 4, 5, 3, 4, 4, 5, 4, 5, 5, 6,
  3, 4, 4, 5, 4, 5, 5, 6, 4, 5, 5, 6, 5, 6, 6, 7,
  2, 3, 3, 4, 3, 4, 4, 5, 3, 4, 4, 5, 4, 5, 5, 6,
  3, 4, 4, 5, 4, 5, 5, 6, 4, 5, 5, 6, 5, 6, 6, 7,
  3, 4, 4, 5, 4, 5, 5, 6, 4, 5, 5, 6, 5, 6, 6, 7,
  4, 5, 5, 6, 5, 6, 6, 7, 5, 6, 6, 7, 6, 7, 7, 8]

/-- `popcount` of one byte by table lookup, `math.hpp:626-651`, with an output type of `o` bits. -/
def popcount8 (o : Nat) (x : BitVec 8) : BitVec o := BitVec.ofNat o (popcntLUT8.getD x.toNat 0)

/-- `popcount` of an `n`-byte integer without the popcnt instruction, `math.hpp:675-683`: the table lookup of each byte
is accumulated in the output type of `o` bits (default `uint8_t`). -/
def popcount (o : Nat) {n : Nat} (x : BitVec (8 * n)) : BitVec o :=
  (List.range n).foldl (fun r l => r + popcount8 o ((x >>> (l * 8)).setWidth 8)) 0

/-- `popcount` of an array, `math.hpp:687-699`, accumulated in the output type of `o` bits (default that of the scalar
version, `uint8_t`). -/
def popcountArr (o : Nat) {n : Nat} (xs : List (BitVec (8 * n))) : BitVec o :=
  xs.foldl (fun r x => r + popcount o x) 0

/-- `hdist` of two integers, `math.hpp:701-706`. -/
def hdist (o : Nat) {n : Nat} (a b : BitVec (8 * n)) : BitVec o := popcount o (a ^^^ b)

/-- `hdist` of two arrays, `math.hpp:708-735`. -/
def hdistArr (o : Nat) {n : Nat} (a b : List (BitVec (8 * n))) : BitVec o :=
  (a.zip b).foldl (fun r p => r + popcount o (p.1 ^^^ p.2)) 0

/-- `L1dist` of two unsigned integers of `w` bits, `math.hpp:198-203`: the difference is computed in a signed type of
twice the width (no overflow), its absolute value converted back to `w` bits. -/
def l1distU {w : Nat} (a b : BitVec w) : BitVec w :=
  BitVec.ofNat w (BitVec.sub (a.setWidth (2 * w)) (b.setWidth (2 * w))).toInt.natAbs

/-- `L1dist` of two signed integers of `w` bits, `math.hpp:198-203`; the result has the unsigned type of `w` bits. -/
def l1distS {w : Nat} (a b : BitVec w) : BitVec w :=
  BitVec.ofNat w (BitVec.sub (a.signExtend (2 * w)) (b.signExtend (2 * w))).toInt.natAbs

/-- `gdist` of two integers, `math.hpp:737-741`: L1 distance of the two (8-bit) bit counts. -/
def gdist {n : Nat} (a b : BitVec (8 * n)) : BitVec 8 := l1distU (popcount 8 a) (popcount 8 b)

/-- `L1dist` of two arrays of unsigned integers with output type of `o` bits, `math.hpp:226-233` (fixed channel count;
the default output type has the input width) and `math.hpp:253-269` (all elements selected; default output `size_t`). -/
def l1distArr (o : Nat) {w : Nat} (a b : List (BitVec w)) : BitVec o :=
  (a.zip b).foldl (fun r p => r + (l1distU p.1 p.2).setWidth o) 0

/-- `L1dist` over `nElements` elements of `nc` channels with an optional mask, `math.hpp:253-269`. The element lists are
given as lists of channel lists. -/
def l1distMasked (o : Nat) {w : Nat} (a b : List (List (BitVec w))) (m : Option (List (BitVec 8))) : BitVec o :=
  match m with
  | some m => ((a.zip b).zip m).foldl (fun r p => if p.2 ≠ 0 then r + l1distArr o p.1.1 p.1.2 else r) 0
  | none => (a.zip b).foldl (fun r p => r + l1distArr o p.1 p.2) 0

/-- `L2sqrdist` of two unsigned integers of `w` bits, `math.hpp:300-306`: the difference is squared in the signed type of
twice the width (in `int` for 8-bit inputs, whose 16-bit differences are promoted), then converted to the unsigned type
of twice the width. `none`: signed overflow (undefined). -/
def l2sqrdistU {w : Nat} (a b : BitVec w) : Option (BitVec (2 * w)) :=
  let d : Int := (a.toNat : Int) - b.toNat
  if w = 8 ∨ d * d < 2 ^ (2 * w - 1) then some (BitVec.ofInt (2 * w) (d * d)) else none

/-- `L2sqrdist` of two arrays of 8-bit values, `math.hpp:316-322`, with output type of `o` bits (default 16 bits); the
same accumulation in 16 bits is under the square root of `L2dist`, `math.hpp:386-393`. -/
def l2sqrdistArr8 (o : Nat) (a b : List (BitVec 8)) : BitVec o :=
  (a.zip b).foldl (fun r p => r + ((l2sqrdistU p.1 p.2).getD 0).setWidth o) 0

/-- Sum of products of two colours, in `uint64_t`, `math.hpp:487-491` (8-bit channels: products fit `int`). -/
def dot64 (a b : List (BitVec 8)) : BitVec 64 :=
  (a.zip b).foldl (fun r p => r + BitVec.ofNat 64 (p.1.toNat * p.2.toNat)) 0

/-- The channels of a colour are not all equal, the two parts of `bNonConstDist`, `math.hpp:478-481`. -/
def nonConst : List (BitVec 8) → Bool
  | a :: b :: l => a != b || nonConst (b :: l)
  | _ => false

/-- `cdist` of two 8-bit colours, `math.hpp:473-493`. The conversion to `float`, `std::sqrt` and the truncation to
`size_t` are modelled as the integer square root (exact for fewer than 258 channels: the argument is below `2^24`). -/
def cdist8 (curr bg : List (BitVec 8)) : Nat :=
  if !(nonConst curr || nonConst bg) || curr == bg then 0
  else
    let currSqr := dot64 curr curr
    let bgSqr := dot64 bg bg
    let mix := dot64 curr bg
    let m : BitVec 64 := if bgSqr < 1 then 1 else bgSqr
    Nat.sqrt (currSqr - (mix * mix) / m).toNat

/-- `extend_bits`, `math.hpp:973-978`, for an unsigned type of `w` bits. -/
def extendBits {w : Nat} (v : BitVec w) (o e : Nat) : BitVec w :=
  v <<< (e - o) ||| v >>> (o - (e - o))

/-- `expand_bits<s>` from bit `n` downwards, `math.hpp:986-992`, for an unsigned type of `w` bits. The shifts are done
in `int` (32 bits): `none` when a shift amount is not below 32 (undefined). -/
def expandBitsFrom {w : Nat} (s : Nat) (x : BitVec w) : Nat → Option (BitVec w)
  | 0 => some ((BitVec.ofBool (x.getLsbD 0)).setWidth w)
  | n + 1 =>
    if n + 1 < 32 ∧ (n + 1) * s < 32 then
      (expandBitsFrom s x n).map fun r => ((BitVec.ofBool (x.getLsbD (n + 1))).setWidth w) <<< ((n + 1) * s) + r
    else none

/-- `expand_bits<s>(x)`, `math.hpp:980-992`. -/
def expandBits {w : Nat} (s : Nat) (x : BitVec w) : Option (BitVec w) :=
  if s = 1 then some x else expandBitsFrom s x (w / s - 1)

end Litiv.Bits
