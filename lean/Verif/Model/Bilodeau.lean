import Verif.Model.Subset
import Mathlib.Data.Rat.Floor

/-!
# Model of the sequences of the LITIV 2014 (Bilodeau et al.) dataset

Models `parseData` and the ground truth maps of `modules/datasets/include/litiv/datasets/impl/
litiv-bilodeau2014.hpp`, with disparities evaluated from the list of points (`DATASETS_LV2014_USE_PREMADE_DISPARITY_MAPS`
off). Directory listings are lists of paths; a file exists when it is listed. Images, regions of interest and their sizes
are not modelled. `none` is an exception or a failed `lvAssert`.
-/

namespace Litiv.Bilodeau

open DirList (Lut)
open Subset (stoi baseName pathName)

/-! ### Packets -/

/-- `lv::filterFilePaths(v,{},{token})`, `modules/utils/src/platform.cpp:171-182`. -/
def keep (token : String) (paths : List (List Char)) : List (List Char) :=
  paths.filter fun p => Seq.stringContainsToken p [token.toList]

/-- `lFileNameExtractor`, litiv-bilodeau2014.hpp:326-332: the base name without its extension and without as many
characters as the prefix has. Without a dot the position of the dot is `npos` and the base name is returned as it is. -/
def extract (pre : String) (path : List Char) : Option (List Char) :=
  if '.' ∈ baseName path then
    if (pathName path).length > pre.length then some ((pathName path).drop pre.length) else none
  else some (baseName path)

/-- The names of the packets, litiv-bilodeau2014.hpp:309-346; `F` and `M` list the frame and mask directories. -/
def names (F M : List (List Char)) : Option (List (List Char)) := do
  let ir := keep "IR" F
  let vis := keep "Vis" F
  let irMask := keep "IRForeground" M
  let visMask := keep "VisForeground" M
  if ir.isEmpty || vis.isEmpty || irMask.isEmpty || visMask.isEmpty then none
  let ir ← ir.mapM (extract "IR")
  let vis ← vis.mapM (extract "Vis")
  let irMask ← irMask.mapM (extract "IRForeground")
  let visMask ← visMask.mapM (extract "VisForeground")
  let l := Seq.filterIn (Seq.filterIn (Seq.filterIn ir vis) irMask) visMask
  if l.length > 0 then some l else none

/-- The paths of a packet: visible and infrared image, then their masks, empty when masks are not loaded. -/
structure Paths where
  vis : List Char
  ir : List Char
  visMask : List Char
  irMask : List Char
deriving DecidableEq, Repr

/-- `std::stoi` of a name with its range check, litiv-bilodeau2014.hpp:372-374 and 485-487. -/
def realIndex (name : List Char) : Option Nat :=
  match stoi name with
  | none => none
  | some v => if 0 ≤ v ∧ v < 10000 then some v.toNat else none

/-- The paths of one packet, litiv-bilodeau2014.hpp:351-371; `din` and `dm` are the frame and mask directories. -/
def packetPaths (din dm : List Char) (F M : List (List Char)) (masks : Bool) (name : List Char) : Option Paths :=
  let ir := din ++ "/IR".toList ++ name ++ ".jpg".toList
  let vis := din ++ "/Vis".toList ++ name ++ ".jpg".toList
  let irMask := dm ++ "/IRForeground".toList ++ name ++ ".jpg".toList
  let visMask := dm ++ "/VisForeground".toList ++ name ++ ".jpg".toList
  if ir ∈ F ∧ vis ∈ F then
    if masks then
      if irMask ∈ M ∧ visMask ∈ M then some ⟨vis, ir, visMask, irMask⟩ else none
    else some ⟨vis, ir, [], []⟩
  else none

/-- One round of the loop over the packets, litiv-bilodeau2014.hpp:350-376: paths and real frame index. -/
def packet (din dm : List Char) (F M : List (List Char)) (masks : Bool) (name : List Char) : Option (Paths × Nat) := do
  let p ← packetPaths din dm F M masks name
  let i ← realIndex name
  return (p, i)

/-! ### The file of ground truth points -/

/-- A `std::ifstream`: unread text, `eofbit`, `failbit`. -/
structure Stream where
  rest : List Char
  eof : Bool := false
  fail : Bool := false

/-- `std::getline(stream,buffer)`: when the stream is not good nothing happens to the buffer; otherwise the buffer takes
the text up to the next line feed, or all that is left, which sets `eofbit`, and `failbit` too if nothing is left.
Standard-library behaviour. -/
def getline (s : Stream) (buf : List Char) : Stream × List Char :=
  if s.eof || s.fail then ({ s with fail := true }, buf)
  else if '\n' ∈ s.rest then
    ({ s with rest := (s.rest.dropWhile (· != '\n')).drop 1 }, s.rest.takeWhile (· != '\n'))
  else ({ rest := [], eof := true, fail := s.rest.isEmpty }, s.rest)

/-- A ground truth point: position in the infrared image and disparity. -/
structure Pt where
  x : Nat
  y : Nat
  d : Nat
deriving DecidableEq, Repr

/-- `std::stoi` with a check of the range `0 ≤ v < lim`. -/
def bounded (lim : Nat) (s : List Char) : Option Nat :=
  match stoi s with
  | none => none
  | some v => if 0 ≤ v ∧ v < lim then some v.toNat else none

/-- `mvThermalGTPointDisps[name].push_back(p)`; the map as the list of its entries in the order of their insertion (the
code never enumerates it). -/
def addPoint (name : List Char) (p : Pt) : List (List Char × List Pt) → List (List Char × List Pt)
  | [] => [(name, [p])]
  | e :: l => if e.1 = name then (e.1, e.2 ++ [p]) :: l else e :: addPoint name p l

/-- One round of the loop over the records, litiv-bilodeau2014.hpp:429-448: the name of the image and the point. `none`
when an exception is thrown. -/
def readRecord (s : Stream) (buf : List Char) : Option (Stream × List Char × List Char × Pt) := do
  let name ← extract "IRForeground" buf
  if name.isEmpty then none
  let (s, buf) := getline s buf
  let (s, buf) := getline s buf
  let x ← bounded 480 buf
  let (s, buf) := getline s buf
  let y ← bounded 360 buf
  let (s, buf) := getline s buf
  let d ← bounded 100 buf
  return (s, buf, name, ⟨x, y, d⟩)

/-- The loop over the records, litiv-bilodeau2014.hpp:424-450: names in order of appearance, and points by name. The
first argument bounds the number of rounds; each reads at least one character, so that the length of the text does. -/
def readLoop : Nat → Stream → List Char → List (List Char) → List (List Char × List Pt) →
    Option (List (List Char) × List (List Char × List Pt))
  | 0, _, _, _, _ => none
  | n + 1, s, buf, ns, m =>
    let g := getline s buf
    if g.1.fail then some (ns, m)
    else match readRecord g.1 g.2 with
      | none => none
      | some (s, buf, name, p) => readLoop n s buf (if name ∈ ns then ns else ns ++ [name]) (addPoint name p m)

/-- The ground truth points, litiv-bilodeau2014.hpp:422-451. -/
def readTruth (text : List Char) : Option (List (List Char) × List (List Char × List Pt)) :=
  match readLoop (text.length + 1) { rest := text } [] [] [] with
  | none => none
  | some r => if r.1.length = r.2.length then some r else none

/-- Ground truth packets and their table: `m_vvThermalGTPointDisps`, `m_mGTIndexLUT`, `m_mRealGTIndexLUT`. -/
structure Truth where
  points : List (List Pt) := []
  lut : Lut := []
  real : Lut := []
deriving DecidableEq, Repr

/-- The loop over the names of the ground truth, litiv-bilodeau2014.hpp:462-489. -/
def truthLoop (packets : List (List Char)) (m : List (List Char × List Pt)) : List (List Char) → Truth → Option Truth
  | [], t => some t
  | name :: ns, t =>
    let k := packets.idxOf name
    if k < packets.length then
      let pts := ((m.find? fun e => e.1 == name).map (·.2)).getD []
      if pts.isEmpty then none
      else match realIndex name with
        | none => none
        | some i =>
          let points := t.points ++ [pts]
          truthLoop packets m ns ⟨points, Lut.set t.lut k (points.length - 1), Lut.set t.real k i⟩
    else truthLoop packets m ns t

/-! ### Disparity range -/

/-- The loop for the largest disparity, litiv-bilodeau2014.hpp:502-515. -/
def maxLoop : Nat → Stream → List Char → Nat → Option Nat
  | 0, _, _, _ => none
  | n + 1, s, buf, cur =>
    let g := getline s buf
    if g.1.fail then some cur
    else
      let g := getline g.1 g.2
      let g := getline g.1 g.2
      let g := getline g.1 g.2
      let g := getline g.1 g.2
      match bounded 100 g.2 with
      | none => none
      | some d => maxLoop n g.1 g.2 (max cur d)

/-- The disparity range, litiv-bilodeau2014.hpp:491-521: `drange` holds the numbers of the file `drange.txt`, if it
exists; `*=` with a `double` truncates (a rational number here). -/
def range (drange : Option (Nat × Option Nat)) (scale : ℚ) (text : List Char) : Option (Nat × Nat) :=
  let r := match drange with
    | some (lo, hi) => some (lo, hi.getD 50)
    | none =>
      match maxLoop (text.length + 1) { rest := text } [] 0 with
      | none => none
      | some hi => if hi > 0 then some (0, hi) else none
  match r with
  | none => none
  | some (lo, hi) =>
    let lo := ⌊lo * scale⌋.toNat
    let hi := ⌊hi * scale⌋.toNat
    if hi > lo then some (lo, hi) else none

/-! ### The sequence -/

/-- What `parseData` leaves behind. -/
structure Parsed where
  inputs : List Paths
  real : List Nat
  truth : Truth
  lo : Nat
  hi : Nat
deriving DecidableEq, Repr

/-- `parseData`, litiv-bilodeau2014.hpp:243-530, with disparities evaluated and a frame subset loaded (anything else
throws, lines 249 and 453-456). -/
def parse (din dm : List Char) (F M : List (List Char)) (masks : Bool) (text : List Char)
    (drange : Option (Nat × Option Nat)) (scale : ℚ) : Option Parsed := do
  let ns ← names F M
  let ps ← ns.mapM (packet din dm F M masks)
  let (gs, m) ← readTruth text
  let t ← truthLoop ns m gs {}
  let (lo, hi) ← range drange scale text
  return ⟨ps.map (·.1), ps.map (·.2), t, lo, hi⟩

/-! ### Ground truth maps -/

/-- An 8-bit image of 480x360 pixels, as a function of column and row. -/
abbrev Img := Nat → Nat → Nat

/-- The loop over the points, litiv-bilodeau2014.hpp:628-633. -/
def draw (pts : List Pt) : Img :=
  pts.foldl (fun (m : Img) p => fun x y => if x = p.x ∧ y = p.y then p.d else m x y) (fun _ _ => 255)

/-- `cv::flip(m,m,1)` of an image of width `w`. -/
def flip (w : Nat) (m : Img) : Img := fun x y => m (w - 1 - x) y

/-- `cvRound`: to the nearest integer, ties to even. -/
def roundEven (q : ℚ) : Int :=
  let f := ⌊q⌋
  if q - f < 1 / 2 then f else if q - f > 1 / 2 then f + 1 else if f % 2 = 0 then f else f + 1

/-- `oThermalPacket *= scale` on one 8-bit value, with the don't-care value put back, litiv-bilodeau2014.hpp:636-638. The
product is exact here. -/
def scaled (scale : ℚ) (v : Nat) : Nat :=
  if v = 255 then 255 else min 255 (roundEven (v * scale)).toNat

/-- `cv::resize` with `INTER_NEAREST` along one axis: the source of pixel `x`, at most the last one. -/
def nearest (old new x : Nat) : Nat := min (x * old / new) (old - 1)

/-- The infrared map of `getRawGTArray`, litiv-bilodeau2014.hpp:583-648; `w` and `h` are the scaled sizes. `none` when
the packet has no ground truth. -/
def gtMap (t : Truth) (k : Nat) (scale : ℚ) (w h : Nat) (flipped : Bool) : Option Img :=
  match Lut.get t.lut k with
  | none => none
  | some g =>
    let m := draw (t.points.getD g [])
    let m : Img := if w = 480 ∧ h = 360 then m
      else fun x y => scaled scale (m (nearest 480 w x) (nearest 360 h y))
    some (if flipped then flip w m else m)

end Litiv.Bilodeau
