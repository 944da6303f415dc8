import Verif.Model.Lobster
import Verif.Model.IEEE

/-!
# Model of `BackgroundSubtractorPAWCS`, `modules/video/src/BackgroundSubtractorPAWCS.cpp`

The word dictionaries: `refreshModel` (lines 107-428), the part of `initialize` that sets them up (lines 515-556), and the
pixel loop of `apply` (lines 612-1292) with the maintenance of the global words after it (lines 1300-1334).

Words live in a list (`m_voLocalWordList_*`, `m_voGlobalWordList_*`) and are referred to by their address in it; a dictionary is
an array of slots, each null or an address. The list iterator `m_p*WordListIter_*` is the number of words handed out.
Dereferencing a null pointer or an address outside the list, taking a word past the end of the list, reading a slot outside the
dictionary or a location map that is not allocated, and a modulo by zero all make the result `none`.

`F` is the type of the features (colours and descriptors of one or three channels). What the thresholds, the descriptors and
the feedback of a frame give at each pixel is collected in `Frame` and `Refresh` as arbitrary functions. `float` operations are rounded by an arbitrary function `rd`
(`Verif/Model/IEEE.lean`), except the products of lines 126 and 180, which are exact. `rand()` is an arbitrary stream.
Counters do not overflow. Not modelled here: the feedback, the mask post-processing and the debug display.
-/

namespace Litiv.Pawcs
open Consensus

/-! ## Words and dictionaries -/

/-- A local word, `BackgroundSubtractorPAWCS.hpp:73-81`. -/
structure Word (F : Type) where
  first : Nat
  last : Nat
  occ : Nat
  feat : F

/-- A global word, `BackgroundSubtractorPAWCS.hpp:82-90`; `map` is `oSpatioOccMap` by element index, `none` while not allocated. -/
structure GWord (F : Type) where
  weight : ℚ
  map : Option (Nat → ℚ)
  bits : Nat
  feat : F

/-- `GetLocalWordWeight`, lines 1596-1598. -/
def weight {F : Type} (rd : ℚ → ℚ) (t off : Nat) (w : Word F) : ℚ :=
  rd (rd (w.occ : ℚ) / rd (((w.last - w.first) + (t - w.last) * 2 + off : Nat) : ℚ))

/-- A word list with its iterator, and a dictionary of `slots` slots. -/
structure Store (W : Type) where
  mem : Nat → W
  cap : Nat
  iter : Nat
  dict : Nat → Option Nat
  slots : Nat

variable {W F : Type}

/-- Reading slot `j` of the dictionary: null or an address. -/
def Store.slot (s : Store W) (j : Nat) : Option (Option Nat) := if j < s.slots then some (s.dict j) else none

/-- Dereferencing slot `j`: the address of the word. -/
def Store.addr (s : Store W) (j : Nat) : Option Nat :=
  match s.slot j with
  | some (some a) => if a < s.cap then some a else none
  | _ => none

/-- Writing the word at an address. -/
def Store.put (s : Store W) (a : Nat) (w : W) : Store W := { s with mem := fun b => if b = a then w else s.mem b }

/-- `std::swap` of two slots. -/
def Store.swap (s : Store W) (i j : Nat) : Store W :=
  { s with dict := fun l => if l = i then s.dict j else if l = j then s.dict i else s.dict l }

/-- `*iter++`, written and entered in slot `j`. -/
def Store.take (s : Store W) (j : Nat) (w : W) : Option (Store W) :=
  if s.iter < s.cap ∧ j < s.slots then
    some { s with mem := fun b => if b = s.iter then w else s.mem b, iter := s.iter + 1,
                  dict := fun l => if l = j then some s.iter else s.dict l }
  else none

/-- The search loops, lines 142-153, 210-218, 291-302, 363-371: from slot `b + i`, the index of the first word that is close, or the
end, and whether a null slot was seen. -/
def find (near : W → Bool) (s : Store W) (b : Nat) : (rem i : Nat) → Bool → Option (Nat × Bool)
  | 0, i, u => some (i, u)
  | rem + 1, i, u =>
    match s.slot (b + i) with
    | none => none
    | some none => find near s b rem (i + 1) true
    | some (some a) => if a < s.cap then if near (s.mem a) then some (i, u) else find near s b rem (i + 1) u else none

/-- Finding or creating a word, lines 140-163, 208-229, 289-314, 361-384: a close word is changed by `hit`; otherwise the last slot
receives `fresh`, in a new word if a null slot was seen and in the word of the last slot if not. The result has the slot index. -/
def place (near : W → Bool) (hit : W → W) (fresh : W) (n b : Nat) (s : Store W) : Option (Store W × Nat) :=
  match find near s b n 0 false with
  | none => none
  | some (i, u) =>
    if i = n then
      if u then (s.take (b + (n - 1)) fresh).map fun s => (s, n - 1)
      else (s.addr (b + (n - 1))).map fun a => (s.put a fresh, n - 1)
    else (s.addr (b + i)).map fun a => (s.put a (hit (s.mem a)), i)

/-- Moving a word up, lines 164-167, 236-239, 315-318, 391-394. -/
def bubble (wt : W → ℚ) (b : Nat) : Nat → Store W → Option (Store W)
  | 0, s => some s
  | i + 1, s =>
    match s.slot (b + i) with
    | none => none
    | some none => bubble wt b i (s.swap (b + (i + 1)) (b + i))
    | some (some p) =>
      match s.addr (b + (i + 1)) with
      | none => none
      | some a =>
        if p < s.cap then if wt (s.mem a) > wt (s.mem p) then bubble wt b i (s.swap (b + (i + 1)) (b + i)) else some s
        else none

/-! ## `refreshModel` -/

/-- The arguments of `refreshModel` and what it reads: last colours and descriptors, `m_oLastFGMask_dilated`, the comparison of
a sample with a word and of a word with a global word under the thresholds of a pixel, the jitter of line 178 (and 330)
for a random number, and the weight offset. -/
structure Refresh (F : Type) where
  base : Nat
  frac : ℚ
  force : Bool
  off : Nat
  last : Nat → Nat → F
  dil : Nat → Nat → BitVec 8
  near : Nat → Nat → F → F → Bool
  gnear : Nat → Nat → F → GWord F → Bool
  jitter : Nat → Nat → Nat → F → F
  bits : F → Nat

/-- One iteration of lines 123-127 (and 271-275). -/
def decrStep (frac : ℚ) (b : Nat) (s : Store (Word F)) (i : Nat) : Option (Store (Word F)) :=
  match s.slot (b + i) with
  | none => none
  | some none => some s
  | some (some a) =>
    if a < s.cap then some (s.put a { s.mem a with occ := (s.mem a).occ - ⌊frac * ((s.mem a).occ : ℚ)⌋.toNat }) else none

/-- `refresh: local decr`, lines 122-128 (and 270-276). -/
def decr (r : Refresh F) (n b : Nat) (s : Store (Word F)) : Option (Store (Word F)) :=
  if 0 < r.frac then (List.range n).foldlM (decrStep r.frac b) s else some s

/-- One sample, lines 137-167 (and 285-318). -/
def sample (rd : ℚ → ℚ) (r : Refresh F) (t n b y x : Nat) (f : F) (s : Store (Word F)) : Option (Store (Word F)) :=
  match place (fun w => r.near y x f w.feat) (fun w => { w with occ := w.occ + 1, last := t }) ⟨t, t, r.base, f⟩ n b s with
  | none => none
  | some (s, i) => bubble (weight rd t r.off) b i s

/-- One iteration of `refresh: local resampling`, lines 131-169 (and 279-320). -/
def sampleIter (rd : ℚ → ℚ) (c : Cfg) (rnd : Nat → Nat) (r : Refresh F) (t b y x : Nat) (st : Store (Word F) × Nat) (_ : Nat) :
    Option (Store (Word F) × Nat) :=
  match inImage c (Sampling.samplePosition7 (rnd st.2) (x, y) c.b c.w c.h) with
  | none => none
  | some q =>
    if r.force = true ∨ r.dil q.1 q.2 = 0 then (sample rd r t c.n b y x (r.last q.1 q.2) st.1).map fun s => (s, st.2 + 1)
    else some (st.1, st.2 + 1)

/-- The occurrence count of a derived word, line 180 (and 333). -/
def scaled (n i occ : Nat) : Nat := max ⌊(occ : ℚ) * (((n - i : Nat) : ℚ) / n)⌋.toNat 1

/-- One iteration of `refresh: local random resampling`, lines 171-185 (and 322-338). -/
def fillStep (rnd : Nat → Nat) (r : Refresh F) (t n b y x : Nat) (st : Store (Word F) × Nat) (i : Nat) : Option (Store (Word F) × Nat) :=
  match st.1.slot (b + i) with
  | none => none
  | some (some _) => some st
  | some none =>
    match st.1.addr (b + rnd st.2 % i) with
    | none => none
    | some a =>
      (st.1.take (b + i) ⟨t, t, scaled n i (st.1.mem a).occ, r.jitter y x (rnd (st.2 + 1)) (st.1.mem a).feat⟩).map fun s => (s, st.2 + 2)

/-- One pixel of `refreshModel`, lines 112-187 (and 260-340); `p` is its model index. -/
def refreshPx (rd : ℚ → ℚ) (c : Cfg) (rnd : Nat → Nat) (r : Refresh F) (t : Nat) (st : Store (Word F) × Nat) (i : Nat × Nat × Nat) :
    Option (Store (Word F) × Nat) :=
  if r.force = true ∨ r.dil i.2.1 i.2.2 = 0 then
    match decr r c.n (i.1 * c.n) st.1 with
    | none => none
    | some s =>
      match (List.range 98).foldlM (sampleIter rd c rnd r t (i.1 * c.n) i.2.1 i.2.2) (s, st.2) with
      | none => none
      | some st => (List.range' 1 (c.n - 1)).foldlM (fillStep rnd r t c.n (i.1 * c.n) i.2.1 i.2.2) st
  else some st

/-- The relevant pixels with their model indices, in raster order: `m_vnPxIdxLUT` and `nModelIdx` (lines 523-534, 541-552). -/
def indexed (px : List (Nat × Nat)) : List (Nat × Nat × Nat) := px.zipIdx.map fun e => (e.2, e.1)

/-- `nGlobalWordMapLookupIdx/4`, lines 528 and 546. -/
def lookup (c : Cfg) (y x : Nat) : Nat := y / 2 * (c.w / 2) + x / 2

/-- Access to a location map: `none` if it is not allocated or the index is outside. -/
def mapAt (c : Cfg) (m : Option (Nat → ℚ)) (i : Nat) : Option ℚ :=
  match m with
  | none => none
  | some f => if i < c.h / 2 * (c.w / 2) then some (f i) else none

/-- Adding `v` to the weight of a global word at map index `i` if what is there is smaller, lines 230-234, 385-389, 761-765, 1099-1103. -/
def bump (rd : ℚ → ℚ) (c : Cfg) (i : Nat) (v : ℚ) (g : GWord F) : Option (GWord F) :=
  match mapAt c g.map i with
  | none => none
  | some m =>
    if m < v then
      some { g with weight := rd (g.weight + v), map := g.map.map fun f j => if j = i then rd (f j + v) else f j }
    else some g

/-- An empty global word for a feature, lines 222-228 and 375-383. -/
def freshG (r : Refresh F) (f : F) : GWord F := ⟨0, some fun _ => 0, r.bits f, f⟩

/-- One pixel of `refresh: global resampling`, lines 194-241 (and 347-396). -/
def gSample (rd : ℚ → ℚ) (c : Cfg) (r : Refresh F) (t ng : Nat) (loc : Store (Word F)) (g : Store (GWord F)) (i : Nat × Nat × Nat) :
    Option (Store (GWord F)) :=
  match loc.addr (i.1 * c.n) with
  | none => none
  | some a =>
    match place (r.gnear i.2.1 i.2.2 (loc.mem a).feat) id (freshG r (loc.mem a).feat) ng 0 g with
    | none => none
    | some (g, j) =>
      match g.addr j with
      | none => none
      | some d =>
        match bump rd c (lookup c i.2.1 i.2.2) (weight rd t r.off (loc.mem a)) (g.mem d) with
        | none => none
        | some w => bubble GWord.weight 0 j (g.put d w)

/-- One sampling pass, lines 192-243 (and 345-398), with the spacing `inc` of the pixels. -/
def gPass (rd : ℚ → ℚ) (c : Cfg) (r : Refresh F) (t ng inc : Nat) (loc : Store (Word F)) (px : List (Nat × Nat)) (g : Store (GWord F)) :
    Option (Store (GWord F)) :=
  (indexed px).foldlM (fun g i =>
    if (i.2.1 * c.w + i.2.2) % inc = 0 ∧ (r.force = true ∨ r.dil i.2.1 i.2.2 = 0) then gSample rd c r t ng loc g i else some g) g

/-- One iteration of lines 245-256 (and 400-413). -/
def gFillStep (zero : F) (g : Store (GWord F)) (i : Nat) : Option (Store (GWord F)) :=
  match g.slot i with
  | none => none
  | some (some _) => some g
  | some none => g.take i ⟨0, some fun _ => 0, 0, zero⟩

/-- The order of the global words for each pixel: `vpGlobalDictSortLUT` by model index and rank. -/
abbrev Ranks := Nat → Nat → Nat

/-- Value of the global word of rank `j` at a pixel. -/
def ranked (c : Cfg) (g : Store (GWord F)) (i : Nat) (l : Nat → Nat) (j : Nat) : Option ℚ :=
  if l j < g.cap then mapAt c (g.mem (l j)).map i else none

/-- The pass of lines 420-427 (and 1325-1332) from rank `j` on: `v` is the last value. -/
def rankPass (c : Cfg) (g : Store (GWord F)) (i : Nat) : (rem j : Nat) → ℚ → (Nat → Nat) → Option (Nat → Nat)
  | 0, _, _, l => some l
  | rem + 1, j, v, l =>
    match ranked c g i l j with
    | none => none
    | some u =>
      if u > v then rankPass c g i rem (j + 1) v (fun m => if m = j then l (j - 1) else if m = j - 1 then l j else l m)
      else rankPass c g i rem (j + 1) u l

/-- `per-px global word sort`, lines 416-428 and 1321-1334. -/
def sortRanks (c : Cfg) (ng : Nat) (g : Store (GWord F)) (px : List (Nat × Nat)) (l : Ranks) : Option Ranks :=
  (indexed px).foldlM (fun l i =>
    match ranked c g (lookup c i.2.1 i.2.2) (l i.1) 0 with
    | none => none
    | some v => (rankPass c g (lookup c i.2.1 i.2.2) (ng - 1) 1 v (l i.1)).map fun m => fun q => if q = i.1 then m else l q) l

/-- The model: local words, global words, ranks, number of `rand()` calls. -/
structure Mdl (F : Type) where
  loc : Store (Word F)
  glo : Store (GWord F)
  ranks : Ranks
  k : Nat

/-- `refreshModel`, lines 107-429. `ng` is the number of global words, `zero` the feature with all values zero. -/
def refreshModel (rd : ℚ → ℚ) (c : Cfg) (ng : Nat) (zero : F) (rnd : Nat → Nat) (px : List (Nat × Nat)) (r : Refresh F) (t : Nat) (m : Mdl F) :
    Option (Mdl F) :=
  match (indexed px).foldlM (refreshPx rd c rnd r t) (m.loc, m.k) with
  | none => none
  | some (loc, k) =>
    match gPass rd c r t ng (max (c.h * c.w / ng) 1) loc px m.glo with
    | none => none
    | some g =>
      match gPass rd c r t ng (max (max (c.h * c.w / ng) 1 / 3) 1) loc px g with
      | none => none
      | some g =>
        match (List.range ng).foldlM (gFillStep zero) g with
        | none => none
        | some g => (sortRanks c ng g px m.ranks).map fun l => ⟨loc, g, l, k⟩

/-- Words of a newly resized list, lines 518-522, 537-540. -/
def blank (zero : F) : Word F := ⟨0, 0, 0, zero⟩

/-- Global words of a newly resized list. -/
def blankG (zero : F) : GWord F := ⟨0, none, 0, zero⟩

/-- Lines 521-552: the lists are emptied and refilled, the dictionaries are only resized, so slots that existed before (`dict`,
`gdict`) keep their pointers; new slots are null. The addresses of the words are those of the previous list, which holds when the
list does not have to grow. -/
def setup (c : Cfg) (ng : Nat) (zero : F) (np : Nat) (dict gdict : Nat → Option Nat) (k : Nat) : Mdl F :=
  ⟨⟨fun _ => blank zero, np * c.n, 0, dict, np * c.n⟩, ⟨fun _ => blankG zero, ng, 0, gdict, ng⟩, fun _ j => j, k⟩

/-- `initialize` on a new object, lines 515-556, with the refresh of line 555: nothing is masked. -/
def start (rd : ℚ → ℚ) (c : Cfg) (ng : Nat) (zero : F) (rnd : Nat → Nat) (px : List (Nat × Nat)) (r : Refresh F) (k : Nat) : Option (Mdl F) :=
  refreshModel rd c ng zero rnd px { r with base := 1, frac := 0, force := false, dil := fun _ _ => 0, off := 1000 } 0
    (setup c ng zero px.length (fun _ => none) (fun _ => none) k)

/-- `initialize` again with the same image size, number of channels and region of interest. -/
def restart (rd : ℚ → ℚ) (c : Cfg) (ng : Nat) (zero : F) (rnd : Nat → Nat) (px : List (Nat × Nat)) (r : Refresh F) (m : Mdl F) : Option (Mdl F) :=
  refreshModel rd c ng zero rnd px { r with base := 1, frac := 0, force := false, dil := fun _ _ => 0, off := 1000 } 0
    (setup c ng zero px.length m.loc.dict m.glo.dict m.k)

/-! ## `apply`: the pixel loop -/

/-- What a frame and the feedback state give at each pixel. `cur`: observed colour and descriptor; `near`: lines 696 (and
1032), a word matches; `illum`: the conditions of lines 681-684 (and 1015-1018) other than the random one; `irate`: its modulus,
line 685, for each word; `flat`, `border`, `lastFG`: lines 654, 644, 699; `R`: the distance factor; `rate`: line 659; `gnear`: lines 748
and 783; `nnear`: line 843 (and 1185); `nflat`: line 841; `nupd`: the new feature of a word of the neighbour if the conditions of line
857 (and 1200, 1214-1216) hold; `byRef`: the words of the neighbour are updated in place (line 1178, three channels) or copied (line 838,
one channel). `boot`, `moving`, `cooldown`: `bBootstrapping`, `m_bUsingMovingCamera`, `m_nModelResetCooldown`. `decay` and `total`: the
OpenCV operations of lines 1313-1317 and 1601. -/
structure Frame (F : Type) where
  off : Nat
  boot : Bool
  moving : Bool
  cooldown : Nat
  cur : Nat → Nat → F
  R : Nat → Nat → ℚ
  near : Nat → Nat → F → Bool
  illum : Nat → Nat → F → Bool
  irate : Nat → Nat → Nat → Nat
  flat : Nat → Nat → Bool
  border : Nat → Nat → Bool
  lastFG : Nat → Nat → Bool
  rate : Nat → Nat → Nat
  gnear : Nat → Nat → GWord F → Bool
  gnew : Nat → Nat → Nat
  nnear : Nat → Nat → F → Bool
  nflat : F → Bool
  nupd : Nat → Nat → Nat × Nat → F → Option F
  byRef : Bool
  decay : (Nat → ℚ) → (Nat → ℚ)
  total : (Nat → ℚ) → ℚ

/-- `nCurrWordOccIncr`, line 657. -/
def incr (f : Frame F) (y x : Nat) : Nat := if f.flat y x || f.boot then (1 + f.cooldown) * 2 else 1 + f.cooldown

/-- `fLocalWordsWeightSumThreshold`, lines 639-640. -/
def threshold (rd : ℚ → ℚ) (f : Frame F) (t y x : Nat) (w : Word F) : ℚ := rd (weight rd t f.off w / rd (f.R y x * 2))

/-- A word after the scan: illumination update (`il`), then the match of lines 696-700. -/
def scanned (rd : ℚ → ℚ) (f : Frame F) (t y x : Nat) (il : Bool) (w : Word F) : Word F :=
  if f.near y x w.feat then
    ⟨w.first, t, if (!f.lastFG y x || f.moving) && decide (weight rd t f.off w < 1) then w.occ + incr f y x else w.occ,
      if il then f.cur y x else w.feat⟩
  else { w with feat := if il then f.cur y x else w.feat }

/-- Whether the illumination update happens, lines 681-685, and the calls of `rand()`. `none`: modulo by zero. -/
def illumNow (rnd : Nat → Nat) (f : Frame F) (y x i : Nat) (w : Word F) (k : Nat) : Option (Bool × Nat) :=
  if f.illum y x w.feat then if f.irate y x i = 0 then none else some (decide (rnd k % f.irate y x i = 0), k + 1)
  else some (false, k)

/-- `if(fCurrLocalWordWeight>fLastLocalWordWeight) swap; else fLast = fCurr`, lines 708-715 and 719-727; no last weight is `FLT_MAX`. -/
def sift (b i : Nat) (v : ℚ) (lw : Option ℚ) (s : Store W) : Store W × Option ℚ :=
  match lw with
  | none => (s, some v)
  | some u => if v > u then (s.swap (b + i) (b + (i - 1)), some u) else (s, some v)

/-- The second loop, lines 718-729. -/
def scanTail (wt : W → ℚ) (b : Nat) : (rem i : Nat) → Option ℚ → Store W → Option (Store W)
  | 0, _, _, s => some s
  | rem + 1, i, lw, s =>
    match s.addr (b + i) with
    | none => none
    | some a => scanTail wt b rem (i + 1) (sift b i (wt (s.mem a)) lw s).2 (sift b i (wt (s.mem a)) lw s).1

/-- The scan of the dictionary of a pixel, lines 672-729 (and 1002-1065). The result is the words, the sum of the weights of the
matches and the number of `rand()` calls. -/
def scan (rd : ℚ → ℚ) (rnd : Nat → Nat) (f : Frame F) (t b y x : Nat) (thr : ℚ) :
    (rem i : Nat) → ℚ → Option ℚ → Store (Word F) → Nat → Option (Store (Word F) × ℚ × Nat)
  | 0, _, sum, _, s, k => some (s, sum, k)
  | rem + 1, i, sum, lw, s, k =>
    if sum < thr then
      match s.addr (b + i) with
      | none => none
      | some a =>
        match illumNow rnd f y x i (s.mem a) k with
        | none => none
        | some (il, k) =>
          let v := weight rd t f.off (s.mem a)
          let s1 := s.put a (scanned rd f t y x il (s.mem a))
          scan rd rnd f t b y x thr rem (i + 1) (if f.near y x (s.mem a).feat then rd (sum + v) else sum) (sift b i v lw s1).2
            (sift b i v lw s1).1 k
    else (scanTail (weight rd t f.off) b (rem + 1) i lw s).map fun s => (s, sum, k)

/-- The search of a global word for a pixel, lines 744-751 and 779-786: the address of the first close word by rank. The outer
`none`: a rank outside of the list. -/
def gSearch (near : GWord F → Bool) (g : Store (GWord F)) (l : Nat → Nat) : (rem j : Nat) → Option (Option Nat)
  | 0, _ => some none
  | rem + 1, j => if l j < g.cap then if near (g.mem (l j)) then some (some (l j)) else gSearch near g l rem (j + 1) else none

/-- Background: update of the global words, lines 743-767 (and 1079-1105). -/
def gUpdate (rd : ℚ → ℚ) (c : Cfg) (rnd : Nat → Nat) (ng : Nat) (f : Frame F) (p y x : Nat) (sum : ℚ) (m : Mdl F) : Option (Mdl F) :=
  if f.rate y x = 0 then none
  else if rnd m.k % f.rate y x = 0 then
    match gSearch (f.gnear y x) m.glo (m.ranks p) ng 0 with
    | none => none
    | some (some d) => (bump rd c (lookup c y x) sum (m.glo.mem d)).map fun w => { m with glo := m.glo.put d w, k := m.k + 1 }
    | some none =>
      if f.rate y x * 2 % 2 ^ 64 = 0 then none
      else if rnd (m.k + 1) % (f.rate y x * 2 % 2 ^ 64) = 0 then
        match m.glo.addr (ng - 1) with
        | none => none
        | some d =>
          (bump rd c (lookup c y x) sum ⟨0, (m.glo.mem d).map.map fun _ _ => 0, f.gnew y x, f.cur y x⟩).map fun w =>
            { m with glo := m.glo.put d w, k := m.k + 2 }
      else some { m with k := m.k + 2 }
  else some { m with k := m.k + 1 }

/-- Foreground: the label with the help of the global words, lines 778-803 (and 1116-1141), and the number of `rand()` calls. -/
def gLabel (rd : ℚ → ℚ) (c : Cfg) (rnd : Nat → Nat) (ng : Nat) (f : Frame F) (p y x : Nat) (thr sum : ℚ) (m : Mdl F) : Option (Bool × Nat) :=
  if f.flat y x = false ∧ f.rate y x = 0 then none
  else if f.flat y x = true ∨ rnd m.k % f.rate y x = 0 then
    match gSearch (f.gnear y x) m.glo (m.ranks p) ng 0 with
    | none => none
    | some none => some (true, if f.flat y x then m.k else m.k + 1)
    | some (some d) =>
      (mapAt c (m.glo.mem d).map (lookup c y x)).map fun v =>
        (decide (rd (sum + rd (v / (if f.flat y x then 2 else 4))) < thr), if f.flat y x then m.k else m.k + 1)
  else some (true, m.k + 1)

/-- `DEFAULT_LWORD_INIT_WEIGHT`, line 71. -/
def initWeight (rd : ℚ → ℚ) (f : Frame F) : ℚ := rd (1 / rd (f.off : ℚ))

/-- The word written over the last one, lines 804-814 and 871-880 (and 1142-1153, 1232-1242). -/
def newWord (f : Frame F) (t y x : Nat) : Word F := ⟨t, t, incr f y x, f.cur y x⟩

/-- Overwriting the last word of a dictionary if the weights found are below the initial weight. -/
def renew (rd : ℚ → ℚ) (f : Frame F) (t n b y x : Nat) (sum : ℚ) (s : Store (Word F)) : Option (Store (Word F)) :=
  if sum < initWeight rd f then (s.addr (b + (n - 1))).map fun a => s.put a (newWord f t y x) else some s

/-- A word of the neighbour that matches (with its feature `g` afterwards), lines 844-848 and 858-862. -/
def reinforced (rd : ℚ → ℚ) (f : Frame F) (t y x : Nat) (g : F) (w : Word F) : Word F :=
  ⟨w.first, t, if weight rd t f.off w < 1 then w.occ + (if f.nflat w.feat then incr f y x * 2 else incr f y x) else w.occ, g⟩

/-- The loop over the words of a neighbour, lines 835-870 (and 1175-1231). `qfg` is the label of the neighbour so far. -/
def neighbours (rd : ℚ → ℚ) (rnd : Nat → Nat) (f : Frame F) (t b y x : Nat) (q : Nat × Nat) (qfg : Bool) (thr : ℚ) :
    (rem i : Nat) → ℚ → Store (Word F) → Nat → Option (Store (Word F) × ℚ × Nat)
  | 0, _, sum, s, k => some (s, sum, k)
  | rem + 1, i, sum, s, k =>
    if sum < thr then
      match s.addr (b + i) with
      | none => none
      | some a =>
        let w := s.mem a
        if f.nnear y x w.feat then
          neighbours rd rnd f t b y x q qfg thr rem (i + 1) (rd (sum + weight rd t f.off w))
            (if f.byRef then s.put a (reinforced rd f t y x w.feat w) else s) k
        else if qfg = false ∧ f.flat y x = true then
          if f.boot = false ∧ f.rate y x = 0 then none
          else if f.boot = true ∨ rnd k % f.rate y x = 0 then
            match f.nupd y x q w.feat with
            | some g =>
              neighbours rd rnd f t b y x q qfg thr rem (i + 1) (rd (sum + weight rd t f.off w))
                (if f.byRef then s.put a (reinforced rd f t y x g w) else s) (if f.boot then k else k + 1)
            | none => neighbours rd rnd f t b y x q qfg thr rem (i + 1) sum s (if f.boot then k else k + 1)
          else neighbours rd rnd f t b y x q qfg thr rem (i + 1) sum s (k + 1)
        else neighbours rd rnd f t b y x q qfg thr rem (i + 1) sum s k
    else some (s, sum, k)

/-- State of the pixel loop: model and mask. -/
structure Loop (F : Type) where
  m : Mdl F
  mask : Nat → Nat → Bool

/-- The neighbour that receives the observation: position and, if it is relevant, its model index; lines 827-834. -/
def pick (c : Cfg) (px : List (Nat × Nat)) (rnd : Nat → Nat) (f : Frame F) (y x k : Nat) : Option ((Nat × Nat) × Option Nat) :=
  match (if f.flat y x || f.border y x || f.moving then Sampling.neighborPosition5 (rnd k) (x, y) c.b c.w c.h
      else Sampling.neighborPosition3 (rnd k) (x, y) c.b c.w c.h) with
  | none => none
  | some q => (inImage c q).map fun q => (q, px.idxOf? q)

/-- `neighb updt`, lines 824-884 (and 1164-1247); `fg` is the label of the pixel. -/
def spread (rd : ℚ → ℚ) (c : Cfg) (px : List (Nat × Nat)) (rnd : Nat → Nat) (f : Frame F) (t y x : Nat) (thr : ℚ) (fg : Bool) (l : Loop F) :
    Option (Loop F) :=
  if fg = false ∧ f.rate y x = 0 then none
  else
    let k := if fg then l.m.k else l.m.k + 1
    if (fg = false ∧ rnd l.m.k % f.rate y x = 0) ∨ f.border y x = true ∨ f.moving = true then
      match pick c px rnd f y x k with
      | none => none
      | some (_, none) => some { l with m := { l.m with k := k + 1 } }
      | some (q, some p) =>
        match neighbours rd rnd f t (p * c.n) y x q (l.mask q.1 q.2) thr c.n 0 0 l.m.loc (k + 1) with
        | none => none
        | some (s, sum, k) =>
          (renew rd f t c.n (p * c.n) y x sum s).map fun s => { l with m := { l.m with loc := s, k := k } }
    else some { l with m := { l.m with k := k } }

/-- Setting the label of a pixel. -/
def setFG (mask : Nat → Nat → Bool) (y x : Nat) (fg : Bool) : Nat → Nat → Bool := fun y' x' => if y' = y ∧ x' = x then fg else mask y' x'

/-- The decision, lines 734-817 (and 1070-1157): the model, and the raw label. -/
def decideFG (rd : ℚ → ℚ) (c : Cfg) (rnd : Nat → Nat) (ng : Nat) (f : Frame F) (t p y x : Nat) (thr sum : ℚ) (m : Mdl F) : Option (Mdl F × Bool) :=
  if thr ≤ sum ∨ f.border y x = true then (gUpdate rd c rnd ng f p y x sum m).map fun m => (m, false)
  else
    match gLabel rd c rnd ng f p y x thr sum m with
    | none => none
    | some (fg, k) => (renew rd f t c.n (p * c.n) y x sum m.loc).map fun s => ({ m with loc := s, k := k }, fg)

/-- One pixel of `apply`, lines 612-927 (and 939-1292). -/
def pixel (rd : ℚ → ℚ) (c : Cfg) (ng : Nat) (rnd : Nat → Nat) (px : List (Nat × Nat)) (f : Frame F) (t : Nat) (l : Loop F) (i : Nat × Nat × Nat) :
    Option (Loop F) :=
  match l.m.loc.addr (i.1 * c.n) with
  | none => none
  | some a =>
    let thr := threshold rd f t i.2.1 i.2.2 (l.m.loc.mem a)
    match scan rd rnd f t (i.1 * c.n) i.2.1 i.2.2 thr c.n 0 0 none l.m.loc l.m.k with
    | none => none
    | some (s, sum, k) =>
      match decideFG rd c rnd ng f t i.1 i.2.1 i.2.2 thr sum { l.m with loc := s, k := k } with
      | none => none
      | some (m, fg) => spread rd c px rnd f t i.2.1 i.2.2 thr fg ⟨m, setFG l.mask i.2.1 i.2.2 fg⟩

/-! ## `apply`: global words -/

/-- One global word, lines 1306-1317. -/
def gAged (rd : ℚ → ℚ) (f : Frame F) (recalc upd : Bool) (g : GWord F) : GWord F :=
  let g1 : GWord F :=
    if recalc = true ∧ 0 < g.weight then
      if (match g.map with | some m => f.total m | none => 0) < 1 then { g with weight := 0, map := g.map.map fun _ _ => 0 }
      else { g with weight := match g.map with | some m => f.total m | none => 0 }
    else g
  if upd = true ∧ 0 < g1.weight then { g1 with weight := rd (g1.weight * rd (9 / 10)), map := g1.map.map f.decay } else g1

/-- One iteration of lines 1305-1320. -/
def gTickStep (rd : ℚ → ℚ) (f : Frame F) (recalc upd : Bool) (g : Store (GWord F)) (i : Nat) : Option (Store (GWord F)) :=
  match g.addr i with
  | none => none
  | some a =>
    if i = 0 then some (g.put a (gAged rd f recalc upd (g.mem a)))
    else
      match (g.put a (gAged rd f recalc upd (g.mem a))).addr (i - 1) with
      | none => none
      | some d =>
        if ((g.put a (gAged rd f recalc upd (g.mem a))).mem a).weight > ((g.put a (gAged rd f recalc upd (g.mem a))).mem d).weight then
          some ((g.put a (gAged rd f recalc upd (g.mem a))).swap i (i - 1))
        else some (g.put a (gAged rd f recalc upd (g.mem a)))

/-- `nCurrGlobalWordUpdateRate`, line 573. -/
def gRate (f : Frame F) : Nat := if f.boot then 8 else 16

/-- `apply` as far as the words are concerned: the pixel loop from a cleared mask, then lines 1300-1334. `t` is the frame number
(`++m_nFrameIdx`). -/
def applyFrame (rd : ℚ → ℚ) (c : Cfg) (ng : Nat) (rnd : Nat → Nat) (px : List (Nat × Nat)) (f : Frame F) (t : Nat) (m : Mdl F) : Option (Loop F) :=
  match (indexed px).foldlM (pixel rd c ng rnd px f t) ⟨m, fun _ _ => false⟩ with
  | none => none
  | some l =>
    match (List.range ng).foldlM (gTickStep rd f (decide (t % (gRate f * 32) = 0)) (decide (t % gRate f = 0))) l.m.glo with
    | none => none
    | some g =>
      if t % gRate f = 0 then (sortRanks c ng g px l.m.ranks).map fun r => { l with m := { l.m with glo := g, ranks := r } }
      else some { l with m := { l.m with glo := g } }

/-- Calls after initialization. -/
inductive Op (F : Type)
  | frame (f : Frame F)
  | refresh (r : Refresh F)

/-- One call; the state carries the frame number. -/
def call (rd : ℚ → ℚ) (c : Cfg) (ng : Nat) (zero : F) (rnd : Nat → Nat) (px : List (Nat × Nat)) (st : Mdl F × Nat) : Op F → Option (Mdl F × Nat)
  | .frame f => (applyFrame rd c ng rnd px f (st.2 + 1) st.1).map fun l => (l.m, st.2 + 1)
  | .refresh r => (refreshModel rd c ng zero rnd px r st.2 st.1).map fun m => (m, st.2)

/-- A history: initialization, then calls. -/
def session (rd : ℚ → ℚ) (c : Cfg) (ng : Nat) (zero : F) (rnd : Nat → Nat) (px : List (Nat × Nat)) (r : Refresh F) (ops : List (Op F)) :
    Option (Mdl F × Nat) :=
  match start rd c ng zero rnd px r 0 with
  | none => none
  | some m => ops.foldlM (call rd c ng zero rnd px) (m, 0)

end Litiv.Pawcs
