/-!
# Model of the string and sequence helpers of litiv's `utils` module

Strings are `List Char` (one `Char` per C++ `char`), `std::vector<T>` is `List T`.
-/

namespace Litiv.Seq

/-- One call of `std::getline(ss, tok, d)` on a stream whose unread content is `s`: `none` when no character can
be extracted (the call sets failbit), otherwise the token and the remaining stream, with the delimiter consumed.
Used by `lv::split`, `modules/utils/include/litiv/utils/cxx.hpp:97`. Standard-library behaviour. -/
def getline (d : Char) (s : List Char) : Option (List Char × List Char) :=
  match s with
  | [] => none
  | _ => some (s.takeWhile (· != d), (s.dropWhile (· != d)).drop 1)

theorem getline_shrinks {d : Char} {s tok rest : List Char} (h : getline d s = some (tok, rest)) :
    rest.length < s.length := by
  unfold getline at h
  split at h
  · simp at h
  · rename_i hne
    simp only [Option.some.injEq, Prod.mk.injEq] at h
    obtain ⟨_, rfl⟩ := h
    have h1 : (s.dropWhile (· != d)).length ≤ s.length := (List.dropWhile_sublist _).length_le
    have h2 : 0 < s.length := by
      cases s with
      | nil => exact absurd rfl hne
      | cons a l => simp
    simp only [List.length_drop]
    omega

/-- `lv::split`, `modules/utils/include/litiv/utils/cxx.hpp:91-99` and `modules/utils/src/cxx.cpp:112-116`:
`while(std::getline(ss,tok,d)) out.push_back(tok)`; the early return on an empty input gives no token. -/
def split (d : Char) (s : List Char) : List (List Char) :=
  match _h : getline d s with
  | none => []
  | some (tok, rest) => tok :: split d rest
termination_by s.length
decreasing_by exact getline_shrinks _h

/-- `lv::clampString`, `modules/utils/src/cxx.cpp:108-110`. -/
def clampString (s : List Char) (n : Nat) (c : Char) : List Char :=
  if s.length > n then s.take n else List.replicate (n - s.length) c ++ s

/-- `std::string::find(token) != npos`: some suffix of `s` starts with `t`. Standard-library behaviour. -/
def containsSub (s t : List Char) : Bool :=
  match s with
  | [] => t.isPrefixOf []
  | _ :: s' => t.isPrefixOf s || containsSub s' t

/-- `lv::string_contains_token`, `modules/utils/src/cxx.cpp:101-106`. -/
def stringContainsToken (s : List Char) : List (List Char) → Bool
  | [] => false
  | t :: ts => if containsSub s t then true else stringContainsToken s ts

/-- `lv::addDirSlashIfMissing`, `modules/utils/src/platform.cpp:50-59`. -/
def addDirSlashIfMissing (s : List Char) : List Char :=
  if s.isEmpty then []
  else if s == ['.'] || s == ['.', '.'] then s ++ ['/']
  else
    match s.getLast? with
    | none => []
    | some c => if c != '/' && c != '\\' then s ++ ['/'] else s

/-- `lv::filterFilePaths`, `modules/utils/src/platform.cpp:171-182` (the result replaces the argument). -/
def filterFilePaths (paths remove keep : List (List Char)) : List (List Char) :=
  match paths with
  | [] => []
  | p :: ps =>
    if !remove.isEmpty && stringContainsToken p remove then filterFilePaths ps remove keep
    else if keep.isEmpty || stringContainsToken p keep then p :: filterFilePaths ps remove keep
    else filterFilePaths ps remove keep

/-- `std::find(refs.begin(),refs.end(),x) - refs.begin()`: position of the first match, or the size. -/
def findPos {α : Type} [DecidableEq α] (refs : List α) (x : α) : Nat :=
  match refs with
  | [] => 0
  | r :: rs => if r = x then 0 else findPos rs x + 1

/-- `lv::filter_out`, `cxx.hpp:290-296`: `copy_if` on `find(tokens,o)==end`. -/
def filterOut {α : Type} [DecidableEq α] (vals tokens : List α) : List α :=
  vals.filter fun o => findPos tokens o == tokens.length

/-- `lv::filter_in`, `cxx.hpp:299-305`: `copy_if` on `find(tokens,o)!=end`. -/
def filterIn {α : Type} [DecidableEq α] (vals tokens : List α) : List α :=
  vals.filter fun o => findPos tokens o != tokens.length

/-- `lv::indices_of`, `cxx.hpp:324-334`. With an empty reference array all indices are the constant 1. -/
def indicesOf {α : Type} [DecidableEq α] (vals refs : List α) : List Nat :=
  if refs.isEmpty then List.replicate vals.length 1 else vals.map (findPos refs)

/-- `lv::accumulateMembers`, `cxx.hpp:308-313`: left fold of `sum + f(p)` (exact integers). -/
def accumulateMembers {α : Type} (objs : List α) (f : α → Int) (init : Int) : Int :=
  objs.foldl (fun s p => s + f p) init

/-- Loop of `std::partial_sum`: the accumulator has the *element* type of the input range
(`iterator_traits<It>::value_type`), here unsigned `w`-bit with wrap-around; every partial sum is then converted
to the (wider) output type `size_t`, here `Nat`. Standard-library behaviour ([partial.sum]). -/
def partialSumGo {w : Nat} (acc : BitVec w) : List (BitVec w) → List Nat
  | [] => []
  | x :: xs =>
    -- `acc = plus<TSum>(acc,x)` computed in `TSum` and stored back into the `value_type` accumulator
    let acc' := BitVec.ofNat w (acc.toNat + x.toNat)
    acc'.toNat :: partialSumGo acc' xs

/-- `lv::cumulativeSum` for an unsigned element type of `w` bits, `cxx.hpp:316-321`. -/
def cumulativeSum {w : Nat} (v : List (BitVec w)) : List Nat :=
  match v with
  | [] => []
  | x :: xs => x.toNat :: partialSumGo x xs

/-- The `std::generate` loop of `lv::make_range`, `cxx.hpp:397-398`: `nVal += nStep` repeated `n` times. -/
def rangeGo (val step : Int) : Nat → List Int
  | 0 => []
  | n + 1 => (val + step) :: rangeGo (val + step) step n

/-- `lv::make_range`, `cxx.hpp:384-400`, over exact integers. `none` models a failed `lvAssert_` (an exception).
`size_t(b-a)` is non-negative because `b<a` was handled before. -/
def makeRange (a b step : Int) : Option (List Int) :=
  if b < a then some []
  else if step = 1 then some (a :: rangeGo a 1 (b - a).toNat)
  else if step ≤ 0 then none
  else if (b - a) % step ≠ 0 then none
  else some (a :: rangeGo a step ((b - a) / step).toNat)

/-- The cast `(int)number` of an integer value of any width (modulo 2^32, two's complement). -/
def toInt32 (n : Int) : Int := (BitVec.ofInt 32 n).toInt

/-- Loop of `lv::digit_count`, `cxx.hpp:242-245`, for an integer argument of any width: the loop test looks at
`(int)number`; `number /= 10` truncates toward zero in the type of the argument (`Int.tdiv`).
`none` models `std::abs(INT_MIN)`, which is undefined. -/
def digitLoop (number : Int) (digits : Nat) : Option Nat :=
  if toInt32 number = -2147483648 then none
  else if h : 10 ≤ (toInt32 number).natAbs then digitLoop (number.tdiv 10) (digits + 1)
  else some digits
termination_by number.natAbs
decreasing_by
  rw [Int.natAbs_tdiv]
  refine Nat.div_lt_self ?_ (by decide)
  rcases Nat.eq_zero_or_pos number.natAbs with h0 | h0
  · have : number = 0 := by omega
    subst this; simp [toInt32] at h
  · exact h0

/-- `lv::digit_count` for integer types, `cxx.hpp:237-246` (integers are never NaN). -/
def digitCount (number : Int) : Option Nat :=
  digitLoop number (if number < 0 then 2 else 1)

/-- `vsnprintf(buf, size, ...)` when the full formatted text is `txt`: at most `size-1` characters are stored,
followed by a NUL; cells after that keep their old content `old`. Returns the buffer. C standard behaviour. -/
def vsnprintf (old txt : List Char) : List Char :=
  let size := old.length
  if size = 0 then old
  else
    let w := txt.take (size - 1)
    w ++ [Char.ofNat 0] ++ old.drop (w.length + 1)

/-- `std::string::resize(n)`: truncates, or pads with NUL characters. -/
def strResize (s : List Char) (n : Nat) : List Char :=
  s.take n ++ List.replicate (n - s.length) (Char.ofNat 0)

/-- `lv::putf`, `modules/utils/src/cxx.cpp:22-47`, as a function of the text `txt` that the format and its
arguments denote (so `nWritten = txt.length`); the error branches for a negative return are not modelled. -/
def putfWith (bufSize : Nat) (txt : List Char) : List Char :=
  let buf := vsnprintf (List.replicate bufSize (Char.ofNat 0)) txt
  if txt.length ≤ buf.length then strResize buf txt.length
  else
    let buf2 := strResize buf (txt.length + 1)
    strResize (vsnprintf buf2 txt) txt.length

/-- `lv::putf` with the buffer size of `modules/utils/src/cxx.cpp:25`. -/
def putf (txt : List Char) : List Char := putfWith 1024 txt

/-- `lv::concat`, `cxx.hpp:249-256`. -/
def concat {α : Type} (a b : List α) : List α :=
  let v : List α := []
  let v := v ++ a
  v ++ b

/-- Indices visited by `lv::unroll<n,bInvert>`, `cxx.hpp:224-233`, in call order. -/
def unroll (invert : Bool) : Nat → List Nat
  | 0 => []
  | n + 1 => (if invert then [n] else []) ++ unroll invert n ++ (if invert then [] else [n])

end Litiv.Seq

namespace Litiv.Seq

/-- What `std::sort(idx.begin(),idx.end(),[&](a,b){return vals[a]<vals[b];})` guarantees about its result when it
is started on `idx`: a permutation that is non-descending for the comparator. `std::sort` is not stable, so nothing
is said about ties. Standard-library behaviour ([alg.sort]). -/
structure SortOutcome (lt : Nat → Nat → Bool) (before after : List Nat) : Prop where
  perm : after.Perm before
  sorted : after.Pairwise (fun a b => lt b a = false)

/-- `std::unique` with a binary predicate: every element equal to the last one kept is dropped. -/
def stdUnique {α : Type} (eqv : α → α → Bool) : List α → List α
  | [] => []
  | x :: xs => go x xs
where
  go (x : α) : List α → List α
    | [] => [x]
    | y :: ys => if eqv x y then go x ys else x :: go y ys

/-- `lv::sort_indices`, `cxx.hpp:336-347`: an allowed outcome for the input `vals`
(`std::iota` then `std::sort` on the pointed-to values). -/
def SortIndices (vals : List Int) (out : List Nat) : Prop :=
  SortOutcome (fun a b => decide (vals.getD a 0 < vals.getD b 0)) (List.range vals.length) out

/-- `lv::unique_indices`, `cxx.hpp:358-366`, as a function of the index order produced by `sort_indices`. -/
def uniqueIndices (vals : List Int) (sorted : List Nat) : List Nat :=
  stdUnique (fun a b => vals.getD a 0 == vals.getD b 0) sorted

end Litiv.Seq
