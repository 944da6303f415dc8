import Verif.Model.DirList

/-!
# Model of the frame subsets, temporal windows and ground truth tables of the VAP and LITIV 2018 sequences

Directory listings are given as lists of paths (see `DirList`); `none` is an exception or a failed `lvAssert`. Depth
streams and input masks are not loaded, calibration data neither.
-/

namespace Litiv.Subset

open DirList (isSpace digits toSize Lut)

/-- `std::stoi`: blanks, one sign, at least one digit (`std::invalid_argument` otherwise), the rest ignored; values
out of the range of `int` throw `std::out_of_range`. Standard-library behaviour. -/
def stoi (s : List Char) : Option Int :=
  let conv (neg : Bool) (u : List Char) : Option Int :=
    match u with
    | [] => none
    | c :: r =>
      if c.isDigit then
        let v : Int := if neg then -(digits 0 (c :: r) : Int) else digits 0 (c :: r)
        if -2 ^ 31 ≤ v ∧ v < 2 ^ 31 then some v else none
      else none
  match s.dropWhile isSpace with
  | '-' :: u => conv true u
  | '+' :: u => conv false u
  | u => conv false u

/-- `std::set<size_t>::insert`: the set as the list its iterators enumerate. Standard-library behaviour. -/
def insertSet (n : Nat) : List Nat → List Nat
  | [] => [n]
  | m :: l => if n < m then n :: m :: l else if n = m then m :: l else m :: insertSet n l

/-- The loop over the offsets of a window, `modules/datasets/include/litiv/datasets/impl/vap-trimod2016.hpp:323-325`
and `litiv-stcharles2018.hpp:549-551`. The sums are taken not to overflow an `int`. -/
def insertWindow (lim w : Nat) (c : Int) (s : List Nat) : List Nat :=
  (List.range (2 * w + 1)).foldl (fun s (j : Nat) =>
    let o : Int := c - w + j
    if 0 ≤ o ∧ o < lim then insertSet o.toNat s else s) s

/-- The loop over the lines of the subset file, `vap-trimod2016.hpp:314-326` and `litiv-stcharles2018.hpp:540-552`:
the listed frames (`m_mRealSubset`) and the frames of their windows (`m_mSubset`). Reading the first character of an
empty line gives the terminating null. -/
def subsetLoop (lim w : Nat) : List (List Char) → List Nat × List Nat → Option (List Nat × List Nat)
  | [], p => some p
  | line :: ls, p =>
    if line.head? = some '#' then subsetLoop lim w ls p
    else match stoi line with
      | none => none
      | some c =>
        if 0 ≤ c ∧ c < lim then subsetLoop lim w ls (insertSet c.toNat p.1, insertWindow lim w c p.2)
        else none

/-- The subset file as a whole, `vap-trimod2016.hpp:309-328` and `litiv-stcharles2018.hpp:535-553`; `lim` is 2500
resp. the number of frames. -/
def readSubset (lim w : Nat) (text : List Char) : Option (List Nat × List Nat) :=
  match subsetLoop lim w (Seq.split '\n' text) ([], []) with
  | none => none
  | some p => if p.2.length > 0 then some p else none

/-- The flags of a dataset: `isLoadingFrameSubset()`, `isEvaluatingOnlyFrameSubset()` and
`getEvalTemporalWindowSize()`, `vap-trimod2016.hpp:119-123`, `litiv-stcharles2018.hpp:166-170`. -/
structure Mode where
  load : Bool
  evalOnly : Bool
  w : Nat
deriving DecidableEq, Repr

/-- `isTemporalWindowBreak` of VAP sequences, `vap-trimod2016.hpp:235-256`; `sub` is `m_mSubset`. -/
def breakVap (m : Mode) (sub : List Nat) (k : Nat) : Option Bool :=
  if k = 0 then some true
  else if !m.load && !m.evalOnly then some false
  else if sub.isEmpty then none
  else if m.w = 0 ∨ k ≥ sub.length then some true
  else some (sub.getD (k - 1) 0 + 1 != sub.getD k 0)

/-- `isTemporalWindowBreak` of LITIV 2018 sequences, `litiv-stcharles2018.hpp:288-308`. -/
def breakLitiv (m : Mode) (sub : List Nat) (k : Nat) : Option Bool :=
  if k = 0 then some true
  else if !m.load then some false
  else if sub.isEmpty then none
  else if m.w = 0 ∨ k ≥ sub.length then some true
  else some (sub.getD (k - 1) 0 + 1 != sub.getD k 0)

/-- `lInputSubsetCleaner` and `lGTSubsetCleaner`, `vap-trimod2016.hpp:329-342`. -/
def clean (set : List Nat) (paths : List (List Char)) : Option (List (List Char)) :=
  match set.getLast? with
  | none => none
  | some m => if paths.length > m then some (set.map fun i => paths.getD i []) else none

/-- A path without its directory, `find_last_of("/\\")` and `substr`, `vap-trimod2016.hpp:447-448`. -/
def baseName (s : List Char) : List Char := (s.reverse.takeWhile fun c => c != '/' && c != '\\').reverse

/-- `extractPathName`, `litiv-stcharles2018.hpp:1303-1310`, and the file names of `vap-trimod2016.hpp:447-450,505-508`:
the base name up to its last dot. -/
def pathName (s : List Char) : List Char :=
  if '.' ∈ baseName s then (((baseName s).reverse.dropWhile (· != '.')).drop 1).reverse else baseName s

/-- What `parseData` leaves in a producer of two streams: the paths of the packets, those of the ground truth packets,
the table from the former to the latter, and `m_mSubset`. -/
structure Parsed where
  inputs : List (List Char × List Char)
  gts : List (List Char × List Char)
  lut : Lut
  sub : List Nat
deriving DecidableEq, Repr

/-- The ground truth paths of a packet, `getRawGTArray`, `vap-trimod2016.hpp:758-762` and
`litiv-stcharles2018.hpp:1162-1168`: `none` when the table has no entry. -/
def Parsed.gt (p : Parsed) (k : Nat) : Option (List Char × List Char) :=
  match Lut.get p.lut k with
  | none => none
  | some i => p.gts[i]?

/-- The table of the ground truth, `vap-trimod2016.hpp:499-516`: the first input packet of the same name. -/
def vapTable (names : List (List Char)) : List (List Char) → Nat → Lut → Option Lut
  | [], _, m => some m
  | g :: gs, i, m =>
    if pathName g = [] then none
    else
      let k := names.findIdx (· == pathName g)
      if k < names.length then vapTable names gs (i + 1) (Lut.set m k i) else none

/-- `DataProducer_<…,Dataset_VAP_trimod2016>::parseData`, `vap-trimod2016.hpp:307-329,436-584`: `text` is `subset.txt`,
`none` when it cannot be opened; the lists are the contents of `SyncRGB`, `SyncT`, `rgbMasks` and `thermalMasks`. The
images are taken to have the expected size. -/
def parseVap (m : Mode) (text : Option (List Char)) (rgb th gtRgb gtTh : List (List Char)) : Option Parsed := do
  let (real, sub) ← if m.load || m.evalOnly then (match text with | none => none | some t => readSubset 2500 m.w t)
    else some ([], [])
  if rgb.isEmpty || gtRgb.isEmpty || th.isEmpty || gtTh.isEmpty then none
  let rgb ← if m.load then clean sub rgb else some rgb
  let gtRgb ← if m.load || m.evalOnly then clean real gtRgb else some gtRgb
  let lut ← vapTable (rgb.map pathName) gtRgb 0 []
  let th ← if m.load then clean sub th else some th
  if th.length ≠ rgb.length then none
  let gtTh ← if m.load || m.evalOnly then clean real gtTh else some gtTh
  if gtTh.length ≠ gtRgb.length then none
  return ⟨rgb.zip th, gtRgb.zip gtTh, lut, sub⟩

/-- `extractPathIndex`, `litiv-stcharles2018.hpp:1311-1316`. -/
def pathIndex (s : List Char) : Option Nat := (stoi (pathName s)).map toSize

/-- `m_mRealSubset` and `m_mSubset`, `litiv-stcharles2018.hpp:535-562`, for `total` frames. -/
def litivSubset (m : Mode) (text : Option (List Char)) (total : Nat) : Option (List Nat × List Nat) :=
  if m.load || m.evalOnly then
    match text with
    | none => none
    | some t =>
      match readSubset total m.w t with
      | none => none
      | some (real, sub) =>
        if m.load then some (real, sub) else some (real, (List.range total).foldl (fun s i => insertSet i s) sub)
  else
    let all := (List.range total).foldl (fun s i => insertSet i s) []
    some (all, all)

/-- `lSubsetCleaner` with `bMustIncludeAll`, `litiv-stcharles2018.hpp:584-590`. -/
def cleanAll (set : List Nat) (paths : List (List Char)) : Option (List (List Char)) :=
  match set.getLast? with
  | none => none
  | some m =>
    if paths.length > m ∧ ∀ i ∈ set, Seq.containsSub (paths.getD i []) (Packets.padded 5 i) = true ∧
        pathIndex (paths.getD i []) = some i then
      some (set.map fun i => paths.getD i [])
    else none

/-- The first path containing the number of a frame: `lIndexMatcher` with `std::find_if`,
`litiv-stcharles2018.hpp:594-600,952-955`. -/
def findNumber (paths : List (List Char)) (i : Nat) : Option (List Char) :=
  paths.find? fun p => Seq.containsSub p (Packets.padded 5 i)

/-- `lSubsetCleaner` without `bMustIncludeAll`, `litiv-stcharles2018.hpp:592-602`: an empty path where none is found. -/
def cleanSome (set : List Nat) (paths : List (List Char)) : Option (List (List Char)) :=
  if set.isEmpty then none else some (set.map fun i => (findNumber paths i).getD [])

/-- The loop over the packets which looks for their ground truth, `litiv-stcharles2018.hpp:949-979`. -/
def litivTable (gtRgb gtLw : List (List Char)) :
    List Nat → Nat → List (List Char × List Char) × Lut → List (List Char × List Char) × Lut
  | [], _, p => p
  | i :: is, k, p =>
    let a := findNumber gtRgb i
    let b := findNumber gtLw i
    if a.isSome || b.isSome then
      litivTable gtRgb gtLw is (k + 1) (p.1 ++ [(a.getD [], b.getD [])], Lut.set p.2 k p.1.length)
    else litivTable gtRgb gtLw is (k + 1) p

/-- The assertion on the last ground truth file, `litiv-stcharles2018.hpp:531,533`. -/
def lastBelow (paths : List (List Char)) (total : Nat) : Bool :=
  match paths.getLast? with
  | none => true
  | some p => match pathIndex p with
    | none => false
    | some i => i < total

/-- `DataProducer_<…,Dataset_LITIV_stcharles2018>::parseData`, `litiv-stcharles2018.hpp:475-604,842-979`: `text` is the
subset file, the lists are the (filtered) contents of `rgb`, `lwir` and of the two ground truth directories. The
images are taken to have the expected size. -/
def parseLitiv (m : Mode) (text : Option (List Char)) (rgb lw gtRgb gtLw : List (List Char)) : Option Parsed := do
  if rgb.isEmpty || lw.isEmpty || gtRgb.length > rgb.length || gtLw.length > lw.length then none
  let total := rgb.length
  if lw.length ≠ total then none
  if (List.range total).any fun i => pathIndex (rgb.getD i []) != some i || pathIndex (lw.getD i []) != some i then none
  if !(lastBelow gtRgb total && lastBelow gtLw total) then none
  let (real, sub) ← litivSubset m text total
  let rgb ← if m.load then cleanAll sub rgb else some rgb
  let lw ← if m.load then cleanAll sub lw else some lw
  if rgb.length ≠ sub.length || lw.length ≠ sub.length then none
  let gtRgb ← if m.load || m.evalOnly then cleanSome real gtRgb else some gtRgb
  let gtLw ← if m.load || m.evalOnly then cleanSome real gtLw else some gtLw
  if gtRgb.length > sub.length || gtLw.length > sub.length then none
  let t := litivTable gtRgb gtLw sub 0 ([], [])
  return ⟨rgb.zip lw, t.1, t.2, sub⟩

/-- The disparity range of VAP sequences, `vap-trimod2016.hpp:418-434`: `range` are the two numbers of `drange.txt`
when the file exists, the scale factor is a rational number. The result is the offset of the thermal stream, the
minimum and the maximum. The conversion of a scaled offset is exact here, the code's `double` product is rounded. -/
def rangeVap (range : Option (Nat × Nat)) (scale : Rat) : Option (Int × Nat × Nat) :=
  let (mn, mx) := range.getD (0, 100)
  let (off, mn, mx) := if mn > 0 then (mn, 0, (mx + (2 ^ 64 - mn)) % 2 ^ 64) else (0, mn, mx)
  let mn' := (scale * mn).floor.toNat
  let mx' := (scale * mx).floor.toNat
  if mx' > mn' then some ((scale * off).floor, mn', mx') else none

/-- `std::round`: halves away from zero. -/
def roundAway (q : Rat) : Int := if 0 ≤ q then (q + 1 / 2).floor else -((-q + 1 / 2).floor)

/-- The disparity range of LITIV 2018 sequences, `litiv-stcharles2018.hpp:639-665`, with the default
`DATASETS_LITIV2018_USE_LWIR_OFFSET`: whether disparities are flipped, the offset of the LWIR stream, the minimum and
the maximum. The scale factor is a rational number. -/
def rangeLitiv (range : Option (Int × Int)) (scale : Rat) : Option (Bool × Int × Int × Int) :=
  let (mn, mx) := range.getD (0, 254)
  let (flip, mn, mx) := if mn.natAbs > mx.natAbs then (true, -mx, -mn) else (false, mn, mx)
  let (off, mn, mx) := if mn ≠ 0 then (-mn, 0, mx - mn) else (0, mn, mx)
  let off' := roundAway (scale * off)
  let mn' := roundAway (scale * mn)
  let mx' := roundAway (scale * mx)
  if mx' > mn' then some (flip, off', mn', mx') else none

/-- The disparity stored in the ground truth maps for a pair of corresponding points, `litiv-stcharles2018.hpp:1199-1210`:
`d` is the abscissa of the LWIR point minus that of the RGB point; `none` when the point is left out. -/
def gtDisparity (flip : Bool) (off d : Int) : Option Int :=
  let v := (if flip then d else -d) + off
  if 0 ≤ v ∧ v ≤ 254 then some v else none

end Litiv.Subset
