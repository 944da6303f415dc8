import Mathlib.Data.Rat.Defs
import Mathlib.Algebra.Order.Ring.Rat

/-!
# Model of the random selection helper of the edge benchmark, 3rdparty/bsds500/src/kofn.cpp

Random numbers are read from two streams fixed in advance: `ri` for the raw integers reduced to the interval asked for by
`std::uniform_int_distribution`, `rr` for the reals returned by `s_oRand_0_1_Funct` (lines 9-12; `std::bind` copies the engine,
so the two streams do not share a state). The position in each stream is passed along. `none`: an `assert` fails.
-/

namespace Litiv.KofN

/-- The loop of `_kOfN_smallK`, `kofn.cpp:44-56`: `m` draws are left out of `k` (so `i = k - m`), the draw is uniform in
`[0, n-i-1]`; returns `leftK` (`rightK` is the number of the other draws). -/
def splitK (ri : Nat → Nat) (n leftN k s : Nat) : Nat → Nat → Nat
  | 0, leftK => leftK
  | m + 1, leftK =>
    if ri (s + (k - (m + 1))) % (n - (k - (m + 1))) + leftK < leftN then splitK ri n leftN k s m (leftK + 1)
    else splitK ri n leftN k s m leftK

/-- `_kOfN_smallK(k,n,values)`, `kofn.cpp:34-62`: the `k` values written, and the position reached in the stream. The left
half writes the first `leftK` values, the right half the others, which the last loop shifts by `leftN` (lines 57-61). -/
def smallK (ri : Nat → Nat) (k n s : Nat) : Option (List Nat × Nat) :=
  if h : 0 < k ∧ k ≤ n then
    if k = 1 then some ([ri s % n], s + 1)
    else
      let leftK := splitK ri n (n / 2) k s k 0
      (if 0 < leftK then smallK ri leftK (n / 2) (s + k) else some ([], s + k)).bind fun l =>
      (if 0 < k - leftK then smallK ri (k - leftK) (n - n / 2) l.2 else some ([], l.2)).bind fun r =>
      some (l.1 ++ r.1.map (· + n / 2), r.2)
  else none
termination_by n
decreasing_by all_goals omega

/-- The loop of `_kOfN_largeK`, `kofn.cpp:20-29`: `m` indices are left (`i = n - m`), `j` values have been written; `need`
is `k - j`. The assertion of line 23 fails when more values are needed than indices are left. -/
def largeLoop (rr : Nat → ℚ) (n s : Nat) : Nat → Nat → Option (List Nat)
  | 0, need => if need = 0 then some [] else none
  | m + 1, need =>
    if need ≤ m + 1 then
      if rr (s + (n - (m + 1))) < (need : ℚ) / ((m + 1 : Nat) : ℚ) then
        (largeLoop rr n s m (need - 1)).map ((n - (m + 1)) :: ·)
      else largeLoop rr n s m need
    else none

/-- `_kOfN_largeK(k,n,values)`, `kofn.cpp:15-30`. -/
def largeK (rr : Nat → ℚ) (k n s : Nat) : Option (List Nat × Nat) :=
  if 0 < k ∧ k ≤ n then (largeLoop rr n s n k).map fun l => (l, s + n) else none

/-- `kOfN(k,n,values)`, `kofn.cpp:66-79`, with the positions in the two streams. The comparison of line 74,
`k*log(k)/log(2) < n/2` (an integer division), is made in exact arithmetic. -/
def kOfN (ri : Nat → Nat) (rr : Nat → ℚ) (k n : Nat) (s : Nat × Nat) : Option (List Nat × (Nat × Nat)) :=
  if k = 0 then some ([], s)
  else if k ^ k < 2 ^ (n / 2) then (smallK ri k n s.1).map fun r => (r.1, (r.2, s.2))
  else (largeK rr k n s.2).map fun r => (r.1, (s.1, r.2))

end Litiv.KofN
