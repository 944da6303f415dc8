import Mathlib.Data.Rat.Floor
import Mathlib.Algebra.Order.Field.Rat

/-!
# Lookup tables

Model of `lv::LUT` (modules/utils/include/litiv/utils/cxx.hpp 820-949).  Domain values are
rationals.  Every operation in the domain type goes through `rx`, every operation in `double`
through `rd`; these are the rounding functions of the types (the identity for exact
arithmetic).  A lookup outside the buffer is `none`; in release builds the debug assertions are
absent and it is an out-of-bounds read.
-/

namespace Litiv.Lut

/-- rounding of the two types -/
structure Arith where
  rx : ℚ → ℚ
  rd : ℚ → ℚ

/-- exact arithmetic -/
def Arith.exact : Arith := ⟨id, id⟩

/-- an initialised `LUT<Tx,Ty,nBins,nSafety>` -/
structure Table (Ty : Type) where
  bins : Nat
  safety : Nat
  tmin : ℚ
  tmax : ℚ
  midOffset : ℚ
  lowOffset : ℚ
  scale : ℚ
  step : ℚ
  data : List Ty

/-- the argument of the functor for entry `n` between the ends (cxx.hpp 849) -/
def abscissa (A : Arith) (tmin step : ℚ) (safety n : Nat) : ℚ :=
  A.rx (tmin + A.rx (A.rd ((n - safety : Nat) * step)))

/-- `LUT::init` (cxx.hpp 831-853); `none` is the rejected empty domain -/
def init {Ty : Type} (A : Arith) (bins safety : Nat) (lo hi : ℚ) (f : ℚ → Ty) :
    Option (Table Ty) :=
  if lo = hi then none
  else
    let tmin := min lo hi
    let tmax := max lo hi
    let scale := A.rd (((bins - 1 : Nat) : ℚ) / A.rx (tmax - tmin))
    let step := A.rd (A.rx (tmax - tmin) / ((bins - 1 : Nat) : ℚ))
    some
      { bins := bins, safety := safety, tmin := tmin, tmax := tmax
        midOffset := A.rx (A.rx (tmax + tmin) / 2), lowOffset := tmin
        scale := scale, step := step
        data := (List.range (bins + safety * 2)).map (fun n =>
          if n ≤ safety then f tmin
          else if n < bins + safety - 1 then f (abscissa A tmin step safety n)
          else f tmax) }

/-- conversion of a `double` to `ptrdiff_t`: towards zero -/
def trunc (x : ℚ) : Int := if 0 ≤ x then ⌊x⌋ else ⌈x⌉

/-- `std::llround`: nearest, halves away from zero -/
def llround (x : ℚ) : Int := if 0 ≤ x then ⌊x + 1 / 2⌋ else ⌈x - 1 / 2⌉

/-- `m_pMid[i]` (cxx.hpp 836) -/
def midAt {Ty : Type} (t : Table Ty) (i : Int) : Option Ty :=
  let k := ((t.bins / 2 + t.safety : Nat) : Int) + i
  if 0 ≤ k then t.data[k.toNat]? else none

/-- `m_pLow[i]` (cxx.hpp 837) -/
def lowAt {Ty : Type} (t : Table Ty) (i : Int) : Option Ty :=
  let k := (t.safety : Int) + i
  if 0 ≤ k then t.data[k.toNat]? else none

/-- the scaled argument `(x-offset)*m_dScale` -/
def scaled {Ty : Type} (A : Arith) (t : Table Ty) (off x : ℚ) : ℚ :=
  A.rd (A.rx (x - off) * t.scale)

/-- `eval_mid` (cxx.hpp 855-859) -/
def evalMid {Ty : Type} (A : Arith) (t : Table Ty) (x : ℚ) : Option Ty :=
  midAt t (trunc (scaled A t t.midOffset x))

/-- `eval_mid_round` (cxx.hpp 861-865) -/
def evalMidRound {Ty : Type} (A : Arith) (t : Table Ty) (x : ℚ) : Option Ty :=
  midAt t (llround (scaled A t t.midOffset x))

/-- `eval_mid_noffset` (cxx.hpp 867-871) -/
def evalMidNoffset {Ty : Type} (A : Arith) (t : Table Ty) (x : ℚ) : Option Ty :=
  midAt t (trunc (A.rd (x * t.scale)))

/-- `eval_mid_noffset_round` (cxx.hpp 873-877) -/
def evalMidNoffsetRound {Ty : Type} (A : Arith) (t : Table Ty) (x : ℚ) : Option Ty :=
  midAt t (llround (A.rd (x * t.scale)))

/-- `eval` (cxx.hpp 885-889) -/
def eval {Ty : Type} (A : Arith) (t : Table Ty) (x : ℚ) : Option Ty :=
  lowAt t (trunc (scaled A t t.lowOffset x))

/-- `eval_round` (cxx.hpp 891-895) -/
def evalRound {Ty : Type} (A : Arith) (t : Table Ty) (x : ℚ) : Option Ty :=
  lowAt t (llround (scaled A t t.lowOffset x))

/-- `eval_noffset` (cxx.hpp 897-901) -/
def evalNoffset {Ty : Type} (A : Arith) (t : Table Ty) (x : ℚ) : Option Ty :=
  lowAt t (trunc (A.rd (x * t.scale)))

/-- `eval_noffset_round` (cxx.hpp 903-907) -/
def evalNoffsetRound {Ty : Type} (A : Arith) (t : Table Ty) (x : ℚ) : Option Ty :=
  lowAt t (llround (A.rd (x * t.scale)))

/-- the debug assertion of the mid lookups (cxx.hpp 857, 863, 869, 875, 881, with 935) -/
def midAssert {Ty : Type} (t : Table Ty) (i : Int) : Bool :=
  decide (-((t.bins / 2 + t.safety : Nat) : Int) ≤ i) &&
  decide (i ≤ ((t.bins / 2 + t.safety - (1 - t.bins % 2) : Nat) : Int))

/-- the debug assertion of the low lookups (cxx.hpp 887, 893, 899, 905, 911) -/
def lowAssert {Ty : Type} (t : Table Ty) (i : Int) : Bool :=
  decide (-(t.safety : Int) ≤ i) && decide (i < ((t.bins + t.safety : Nat) : Int))

/-! ## IEEE double rounding -/

/-- round to nearest integer, ties to even -/
def roundEven (x : ℚ) : Int :=
  let r := x - ⌊x⌋
  if r < 1 / 2 then ⌊x⌋ else if 1 / 2 < r then ⌊x⌋ + 1
  else if ⌊x⌋ % 2 = 0 then ⌊x⌋ else ⌊x⌋ + 1

/-- exponent `e` with `2^e ≤ x < 2^(e+1)` for a positive rational -/
def ilog (x : ℚ) : Int :=
  let e : Int := (Nat.log2 x.num.natAbs : Int) - Nat.log2 x.den
  if (2 : ℚ) ^ e ≤ x then e else e - 1

/-- rounding of a rational to the nearest `double` (53-bit significand; overflow and subnormal
numbers excluded) -/
def double (x : ℚ) : ℚ :=
  if x = 0 then 0
  else
    let e := ilog |x|
    roundEven (x * (2 : ℚ) ^ (52 - e)) * (2 : ℚ) ^ (e - 52)

/-- arithmetic of `LUT<double,...>` -/
def Arith.ieee : Arith := ⟨double, double⟩

end Litiv.Lut
