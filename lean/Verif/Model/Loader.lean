import Verif.Model.Lut

/-!
# Model of the data loaders of a work batch (modules/datasets/src/utils.cpp)

What `getInput`, `getGT`, `getInputArray` and `loadFeatures` do between the disk and the caller: the automatic channel conversion and
resizing, the checks against the declared information, the cache of unpacked arrays, the position of the video reader, and the parsing
of a directory of images. `cv::Mat` is an image of at most two dimensions. `cv::imread`, `cv::VideoCapture` and `cv::cvtColor` are
represented by what they return. Log messages are left out. `none` stands for a failed assertion or an exception of OpenCV.
-/

namespace Litiv.Loader

/-- `lv::MatInfo` of an image (opencv.hpp): depth and channels of the type, rows and columns. -/
structure Info where
  depth : Nat
  ch : Nat
  rows : Nat
  cols : Nat
deriving DecidableEq, Repr

/-- `MatSize::empty()`. -/
def Info.empty (i : Info) : Bool := i.rows * i.cols == 0

/-- `lv::MatInfo()`. -/
def Info.none : Info := ⟨0, 1, 0, 0⟩

/-- An image: its type, its size and the values of the channels of every pixel. -/
structure Img where
  depth : Nat
  ch : Nat
  rows : Nat
  cols : Nat
  px : Nat → Nat → List Nat

/-- `cv::Mat::empty()`. -/
def Img.empty (m : Img) : Bool := m.rows * m.cols == 0

/-- `cv::Mat()`. -/
def Img.none : Img := ⟨0, 1, 0, 0, fun _ _ => []⟩

/-- `MatInfo` of an image: its type and its size. -/
def Img.info (m : Img) : Info := ⟨m.depth, m.ch, m.rows, m.cols⟩

/-- What `cv::cvtColor` computes for a pixel: the alpha value that `COLOR_BGR2BGRA` appends for a depth, and the value of
`COLOR_BGR2GRAY`. -/
structure Conv where
  alpha : Nat → Nat
  gray : Nat → List Nat → Nat

/-- Channel conversion of `transformImagePacket` (utils.cpp 622-633). -/
def cvtChannels (K : Conv) (m : Img) (i : Info) : Img :=
  if i.depth = m.depth ∧ i.ch ≠ m.ch then
    if i.ch = 4 ∧ m.ch = 3 then { m with ch := 4, px := fun r c => m.px r c ++ [K.alpha m.depth] }
    else if i.ch = 1 ∧ m.ch = 3 then { m with ch := 1, px := fun r c => [K.gray m.depth (m.px r c)] }
    else m
  else m

/-- `cv::resize` with `INTER_NEAREST` to a given size: pixel `x` is taken from `floor(x*old/new)`, at most the last one. The factor is
exact here; OpenCV rounds it to `double`. Empty sizes are rejected. -/
def resizeNN (m : Img) (rows cols : Nat) : Option Img :=
  if rows * cols = 0 ∨ m.empty then .none
  else some { m with
    rows := rows
    cols := cols
    px := fun r c => m.px (min (r * m.rows / rows) (m.rows - 1)) (min (c * m.cols / cols) (m.cols - 1)) }

/-- `transformImagePacket` (utils.cpp 609-639), without the debug option that writes the index into the image. -/
def transform (K : Conv) (m : Img) (i : Info) : Option Img :=
  let o := cvtChannels K m i
  if i.rows = o.rows ∧ i.cols = o.cols then some o else resizeNN o i.rows i.cols

/-- `PacketPolicy` as seen by the redirection functions: images, unspecified, or another one. -/
inductive Policy where
  | image
  | unspecified
  | other
deriving DecidableEq, Repr

/-- One packet in `getInput_redirect` and `getGT_redirect` (utils.cpp 648-661, 694-707), and one stream of a packet of an array
loader (utils.cpp 672-683, 718-729): the four bodies are the same. -/
def redirect (K : Conv) (pol : Policy) (raw : Img) (i : Info) : Option Img :=
  if raw.empty = false then do
    let m ← match pol with
      | .image => transform K raw i
      | .unspecified => some raw
      | .other => .none
    if m.depth = i.depth ∧ m.ch = i.ch ∧ m.rows = i.rows ∧ m.cols = i.cols then some m else .none
  else if i.empty then some raw
  else .none

/-- All streams of a packet in `getInput_redirect` and `getGT_redirect` of an array loader (utils.cpp 667-684, 713-730), before they
are packed. -/
def redirectArray (K : Conv) (pol : Policy) (streams : Nat) (raws : List Img) (infos : List Info) : Option (List Img) :=
  if raws.length = streams ∧ infos.length = streams then (raws.zip infos).mapM (fun x => redirect K pol x.1 x.2) else .none

/-! ### The packet cache and the cache of unpacked arrays -/

/-- State of an array loader for one kind of packet. `last`: index of the packet held by the precacher, `none` for `size_t(-1)`.
`held`: that packet, with the number of packets loaded before it. `views`: `m_vLatestUnpackedInput`, `m_vLatestUnpackedGT` or
`m_vLatestUnpackedFeatures`, with the number of the packet they are views of. -/
structure Cache (P V : Type) where
  last : Option Nat
  held : Option P
  stamp : Nat
  views : List V
  viewsOf : Nat

/-- A new loader. -/
def Cache.new {P V : Type} : Cache P V := ⟨.none, .none, 0, [], 0⟩

/-- What a call gives: the matrices, an exception, or views of memory that was released. -/
inductive Out (V : Type) where
  | ok (vs : List V)
  | error
  | dangling
deriving DecidableEq

/-- `DataPrecacher::getPacket` (utils.cpp 314-355) by its contract: the held packet for the same index, else the packet is loaded. An
exception of the loader leaves the state as it was. The precaching thread itself is in `Verif.Model.Precacher`. -/
def getPacket {P V : Type} (load : Nat → Option P) (c : Cache P V) (n : Nat) : Option P × Cache P V :=
  if c.last = some n then (c.held, c)
  else match load n with
    | .none => (.none, c)
    | some p => (some p, { c with last := some n, held := some p, stamp := c.stamp + 1 })

/-- Returning the vector of views. Empty vectors cannot dangle. -/
def Cache.out {P V : Type} (c : Cache P V) : Out V :=
  if c.views.isEmpty then .ok []
  else if c.viewsOf = c.stamp then .ok c.views
  else .dangling

/-- Loading and unpacking, shared by the three getters (utils.cpp 754-759, 769-774, 782-785). -/
def refresh {P V ι : Type} (load : Nat → Option P) (unpack : P → ι → Option (List V)) (info : ι) (c : Cache P V) (n : Nat) :
    Out V × Cache P V :=
  match getPacket load c n with
  | (.none, c) => (.error, c)
  | (some p, c) =>
    match unpack p info with
    | .none => (.error, c)
    | some vs =>
      let c := { c with views := vs, viewsOf := c.stamp }
      (c.out, c)

/-- `getInputArray` and `getGTArray` (utils.cpp 749-777). -/
def getArray {P V ι : Type} (streams : Nat) (infos : Nat → List ι) (load : Nat → Option P) (unpack : P → List ι → Option (List V))
    (c : Cache P V) (n : Nat) : Out V × Cache P V :=
  if streams = 0 then
    let c := { c with views := [] }
    (c.out, c)
  else if c.last ≠ some n then
    if (infos n).length = streams then refresh load unpack (infos n) c n else (.error, c)
  else (c.out, c)

/-- A sequence of calls of `getInputArray` or `getGTArray`. -/
def runArray {P V ι : Type} (streams : Nat) (infos : Nat → List ι) (load : Nat → Option P) (unpack : P → List ι → Option (List V)) :
    Cache P V → List Nat → List (Out V)
  | _, [] => []
  | c, n :: ns =>
    let r := getArray streams infos load unpack c n
    r.1 :: runArray streams infos load unpack r.2 ns

/-- Operations on features. -/
inductive FOp (P ι : Type) where
  | load (n : Nat)
  | loadArray (n : Nat) (info : ι)
  | save (n : Nat) (p : P)

/-- What an operation on features gives. -/
inductive FOut (P V : Type) where
  | packet (p : Option P)
  | array (o : Out V)
  | saved
deriving DecidableEq

/-- `loadFeatures` (utils.cpp 564-567), `loadFeaturesArray` (utils.cpp 779-788) and `saveFeatures` of a packet that is not empty (utils.cpp
569-577), with `loadRawFeatures` (utils.cpp 597-605): the disk gives the file of an index, or the empty packet `e`. -/
def stepF {P V ι : Type} (e : P) (unpack : P → ι → Option (List V)) (s : (Nat → Option P) × Cache P V) :
    FOp P ι → FOut P V × ((Nat → Option P) × Cache P V)
  | .load n =>
    let r := getPacket (fun k => some ((s.1 k).getD e)) s.2 n
    (.packet r.1, (s.1, r.2))
  | .loadArray n info =>
    if s.2.last ≠ some n then
      let r := refresh (fun k => some ((s.1 k).getD e)) unpack info s.2 n
      (.array r.1, (s.1, r.2))
    else (.array s.2.out, s)
  | .save n p => (.saved, (fun k => if k = n then some p else s.1 k, s.2))

/-- A sequence of operations on features. -/
def runF {P V ι : Type} (e : P) (unpack : P → ι → Option (List V)) :
    (Nat → Option P) × Cache P V → List (FOp P ι) → List (FOut P V)
  | _, [] => []
  | s, o :: os =>
    let r := stepF e unpack s o
    r.1 :: runF e unpack r.2 os

/-! ### Parsing -/

/-- The size of an image after scaling, `saturate_cast<int>(size*scale)` of `cv::resize` without a size; none is empty. The product is
exact here. -/
def scaleSize (scale : ℚ) (m : Img) : Option (Nat × Nat) :=
  if scale = 1 then some (m.rows, m.cols)
  else
    let r := (Lut.roundEven ((m.rows : ℚ) * scale)).toNat
    let c := (Lut.roundEven ((m.cols : ℚ) * scale)).toNat
    if r * c = 0 then .none else some (r, c)

/-- The information declared for an image (utils.cpp 962-967, 1195-1197): scaled size, and a fourth channel if 4-byte alignment is wanted. -/
def declare (scale : ℚ) (align : Bool) (m : Img) : Option Info := do
  let s ← scaleSize scale m
  some ⟨m.depth, if m.ch = 3 ∧ align then 4 else m.ch, s.1, s.2⟩

/-- The inner loop of `parseData` for images (utils.cpp 1186-1194): erases unreadable paths at position `n`. -/
def dropBad {φ : Type} (disk : φ → Img) : Nat → List φ → Nat → List φ × Option Img
  | 0, ps, _ => (ps, .none)
  | k + 1, ps, n =>
    match ps[n]? with
    | .none => (ps, .none)
    | some p => if (disk p).empty then dropBad disk k (ps.eraseIdx n) n else (ps, some (disk p))

/-- The state of an image producer after parsing: paths, declared information, and whether it is the same for all. -/
structure Parsed (φ : Type) where
  paths : List φ
  infos : List Info
  const : Bool
deriving DecidableEq

/-- The outer loop (utils.cpp 1185-1201). -/
def parseLoop {φ : Type} (disk : φ → Img) (scale : ℚ) (align : Bool) :
    Nat → Nat → Parsed φ → Info → Option (Parsed φ)
  | 0, _, st, _ => some st
  | k + 1, n, st, last =>
    if n < st.paths.length then
      match dropBad disk st.paths.length st.paths n with
      | (ps, .none) => some { st with paths := ps }
      | (ps, some m) => do
        let i ← declare scale align m
        parseLoop disk scale align k (n + 1)
          ⟨ps, st.infos ++ [i], if last.empty = false ∧ last ≠ i then false else st.const⟩ i
    else some st

/-- `parseData` of the image producer (utils.cpp 1169-1203), from the jpg, png and bmp files of the directory. -/
def parseImages {φ : Type} (disk : φ → Img) (scale : ℚ) (align : Bool) (files : List φ) : Option (Parsed φ) :=
  if files = [] then .none
  else do
    let st ← parseLoop disk scale align (files.length + 1) 0 ⟨files, [], true⟩ Info.none
    if st.infos = [] then .none else some st

/-- `getInputInfo` of the image producer (utils.cpp 1117-1121). -/
def imageInfo {φ : Type} (st : Parsed φ) (n : Nat) : Info :=
  if n ≥ st.infos.length then Info.none else (st.infos[n]?).getD Info.none

/-- `getRawInput` of the image producer (utils.cpp 1151-1156). -/
def imageRaw {φ : Type} (disk : φ → Img) (st : Parsed φ) (n : Nat) : Img :=
  match st.paths[n]? with
  | .none => Img.none
  | some p => disk p

/-- Loading an input packet of the image producer. -/
def imageGet {φ : Type} (K : Conv) (disk : φ → Img) (st : Parsed φ) (n : Nat) : Option Img :=
  redirect K .image (imageRaw disk st n) (imageInfo st n)

/-! ### Videos -/

/-- `cv::VideoCapture` by contract: its frames, and the position of the next one. -/
structure Reader where
  frames : List Img
  pos : Nat

/-- `set(CAP_PROP_POS_FRAMES,p)`: positions beyond the end are the end. -/
def Reader.seek (r : Reader) (p : Nat) : Reader := { r with pos := min p r.frames.length }

/-- `operator>>`: the frame at the position, which moves on; an empty matrix at the end. -/
def Reader.read (r : Reader) : Img × Reader :=
  match r.frames[r.pos]? with
  | .none => (Img.none, r)
  | some f => (f, { r with pos := r.pos + 1 })

/-- The state of a video producer: reader if opened, paths of the frames, index expected next by the reader, number of frames, declared
information. -/
structure Video (φ : Type) where
  reader : Option Reader
  paths : List φ
  expected : Nat
  count : Nat
  info : Info

/-- What `parseData` of the video producer opens (utils.cpp 938-952). `self`: the frames if the data path itself can be opened; `files`: the
files in it; `open'`: the frames if a file can be opened as a video. -/
def openVideo {φ : Type} (open' : φ → Option (List Img)) (self : Option (List Img)) (files : List φ) : Option (List Img) :=
  match self with
  | some fs => some fs
  | .none => match files with
    | [f] => open' f
    | _ => .none

/-- The first frame (utils.cpp 943, 956). -/
def firstFrame {φ : Type} (disk : φ → Img) (opened : Option (List Img)) (paths : List φ) : Img :=
  match opened with
  | some fs => (fs[0]?).getD Img.none
  | .none => if paths.length > 1 then (match paths with | p :: _ => disk p | [] => Img.none) else Img.none

/-- The number of frames (utils.cpp 944, 958); the one reported by the reader is the number of frames it can read. -/
def frameCount {φ : Type} (opened : Option (List Img)) (paths : List φ) : Nat :=
  match opened with
  | some fs => fs.length
  | .none => if paths.length > 1 then paths.length else 0

/-- The end of `parseData` of the video producer (utils.cpp 953-968). -/
def finishVideo {φ : Type} (disk : φ → Img) (scale : ℚ) (align : Bool) (opened : Option (List Img)) (paths : List φ) : Option (Video φ) :=
  if (firstFrame disk opened paths).empty then .none
  else do
    let i ← declare scale align (firstFrame disk opened paths)
    if frameCount opened paths > 0 then
      some ⟨opened.map (fun fs => ((((⟨fs, 0⟩ : Reader).seek 0).read).2).seek 0), paths, 0, frameCount opened paths, i⟩
    else .none

/-- `parseData` of the video producer (utils.cpp 925-969). -/
def parseVideo {φ : Type} (disk : φ → Img) (open' : φ → Option (List Img)) (scale : ℚ) (align : Bool) (self : Option (List Img))
    (files : List φ) : Option (Video φ) :=
  finishVideo disk scale align (openVideo open' self files) (if self.isSome then [] else files)

/-- `getRawInput` of the video producer (utils.cpp 897-912). -/
def videoRaw {φ : Type} (disk : φ → Img) (v : Video φ) (n : Nat) : Img × Video φ :=
  match v.reader with
  | .none => (match v.paths[n]? with | some p => disk p | .none => Img.none, v)
  | some r =>
    if v.expected ≠ n then
      let o := (r.seek n).read
      (o.1, { v with reader := some o.2, expected := n + 1 })
    else
      let o := r.read
      (o.1, { v with reader := some o.2, expected := v.expected + 1 })

/-- `getInputInfo` of the video producer (utils.cpp 874-878). -/
def videoInfo {φ : Type} (v : Video φ) (n : Nat) : Info := if n ≥ v.count then Info.none else v.info

/-- Loading an input packet of the video producer. -/
def videoGet {φ : Type} (K : Conv) (disk : φ → Img) (v : Video φ) (n : Nat) : Option Img × Video φ :=
  let r := videoRaw disk v n
  (redirect K .image r.1 (videoInfo v n), r.2)

/-- A sequence of loaded packets. -/
def runVideo {φ : Type} (K : Conv) (disk : φ → Img) : Video φ → List Nat → List (Option Img)
  | _, [] => []
  | v, n :: ns =>
    let r := videoGet K disk v n
    r.1 :: runVideo K disk r.2 ns

/-- `getGTInfo` of the image and video producers (utils.cpp 880-887, 1123-1130); the video producer has the same information for all ground
truths. -/
def gtInfo (lut : List (Nat × Nat)) (infos : List Info) (n : Nat) : Info :=
  match lut.lookup n with
  | .none => Info.none
  | some g => (infos[g]?).getD Info.none

/-- `getRawGT` (utils.cpp 914-923, 1158-1167). -/
def gtRaw {φ : Type} (disk : φ → Img) (lut : List (Nat × Nat)) (paths : List φ) (n : Nat) : Img :=
  match lut.lookup n with
  | .none => Img.none
  | some g => match paths[g]? with
    | .none => Img.none
    | some p => disk p

/-- Loading a ground truth packet. -/
def gtGet {φ : Type} (K : Conv) (disk : φ → Img) (lut : List (Nat × Nat)) (paths : List φ) (infos : List Info) (n : Nat) : Option Img :=
  redirect K .image (gtRaw disk lut paths n) (gtInfo lut infos n)

end Litiv.Loader
