import Verif.Model.Seq
import Verif.Model.Packets
import Mathlib.Data.Char
import Mathlib.Data.List.Lex
import Mathlib.Data.List.Sort

/-!
# Model of the directory listings and of the ground truth lookup tables of the video datasets

A directory, as `readdir` enumerates it, is a list of entries: a name and what `stat` says about it. The file
system is a function from paths to such directories, `none` when `opendir` fails. `std::string` is `List Char`
(one `Char` per byte), and `operator<` on strings is the lexicographic order.
-/

namespace Litiv.DirList

/-- What `stat` reports for an entry: `S_ISREG`, `S_ISDIR`, another kind of file, or a failed call. -/
inductive Kind where
  | reg
  | dir
  | other
  | noStat
deriving DecidableEq, Repr

/-- `opendir`: the entries in the order of `readdir`, `none` when the directory cannot be opened. -/
abbrev FS := List Char → Option (List (List Char × Kind))

/-- `std::sort` of a vector of strings. Standard-library behaviour: the result is a sorted permutation, and only
one exists. -/
def sortPaths (l : List (List Char)) : List (List Char) := l.insertionSort (· ≤ ·)

/-- `lv::getFilesFromDir`, `modules/utils/src/platform.cpp:61-114` (the POSIX branch, 90-112). -/
def getFilesFromDir (fs : FS) (d : List Char) : List (List Char) :=
  match fs d with
  | none => []
  | some es =>
    sortPaths ((es.filter fun e => e.2 == .reg && e.1 != "Thumbs.db".toList).map fun e =>
      Seq.addDirSlashIfMissing d ++ e.1)

/-- `lv::getSubDirsFromDir`, `platform.cpp:116-169` (the POSIX branch, 145-167). -/
def getSubDirsFromDir (fs : FS) (d : List Char) : List (List Char) :=
  match fs d with
  | none => []
  | some es =>
    sortPaths ((es.filter fun e => e.2 == .dir && e.1 != ".".toList && e.1 != "..".toList).map fun e =>
      Seq.addDirSlashIfMissing d ++ e.1)

/-- `std::string::find(t)`: the position of the first occurrence, `none` for `npos`. Standard-library behaviour. -/
def find (t : List Char) : List Char → Option Nat
  | [] => if t.isPrefixOf [] then some 0 else none
  | c :: s => if t.isPrefixOf (c :: s) then some 0 else (find t s).map (· + 1)

/-- `std::string::substr(pos,n)`: `none` is the `std::out_of_range` of a position past the end. -/
def substr (s : List Char) (pos n : Nat) : Option (List Char) :=
  if pos ≤ s.length then some ((s.drop pos).take n) else none

/-- `isspace` in the C locale. -/
def isSpace (c : Char) : Bool := c == ' ' || (9 ≤ c.toNat && c.toNat ≤ 13)

/-- The digit loop of `atoi`/`strtol` in base ten. -/
def digits : Nat → List Char → Nat
  | a, [] => a
  | a, c :: s => if c.isDigit then digits (10 * a + (c.toNat - 48)) s else a

/-- `atoi`: blanks, one sign, digits; what follows is ignored and a text without digits gives zero. The texts given
to it below have at most five characters, so that the undefined overflow case does not exist. -/
def atoi (s : List Char) : Int :=
  match s.dropWhile isSpace with
  | '-' :: t => -(digits 0 t : Int)
  | '+' :: t => digits 0 t
  | t => digits 0 t

/-- The conversion `(size_t)` of an `int`. -/
def toSize (i : Int) : Nat := (i % 2 ^ 64).toNat

/-- `std::unordered_map<size_t,size_t>` as an association list, last assignment first. -/
abbrev Lut := List (Nat × Nat)

/-- `m[k]=v`. -/
def Lut.set (m : Lut) (k v : Nat) : Lut := (k, v) :: m

/-- `m.count(k)` and `m.at(k)`. -/
def Lut.get (m : Lut) (k : Nat) : Option Nat := (m.find? fun e => e.1 == k).map (·.2)

/-- The number in a file name: `(size_t)atoi(s.substr(s.find(pre)+pre.size(),n).c_str())`,
`modules/datasets/include/litiv/datasets/impl/Wallflower.hpp:77` and `PETS2001.hpp:81`. When the prefix is missing
the `npos` of `find` wraps around in the sum. -/
def pathNumber (pre : List Char) (n : Nat) (s : List Char) : Option Nat := do
  let pos := ((find pre s).getD (2 ^ 64 - 1) + pre.length) % 2 ^ 64
  let t ← substr s pos n
  return toSize (atoi t)

/-- What `parseData` leaves behind in a video producer: input paths, ground truth paths and their table. -/
structure Parsed where
  inputs : List (List Char)
  gts : List (List Char)
  lut : Lut
deriving DecidableEq, Repr

/-- The path read for a packet, `IDataProducer_<Video>::getRawInput`, `modules/datasets/src/utils.cpp:895-911`, for
a sequence of image files. -/
def Parsed.input (p : Parsed) (k : Nat) : Option (List Char) := p.inputs[k]?

/-- The path of the ground truth read for a packet, `IDataProducer_<Video>::getRawGT`, `utils.cpp:914-923`; `none`
for the empty matrix. -/
def Parsed.gt (p : Parsed) (k : Nat) : Option (List Char) :=
  match p.lut.get k with
  | none => none
  | some i => p.gts[i]?

/-- `DataProducer_<…,Dataset_CDnet>::parseData`, `CDnet.hpp:68-101`: `none` is an error or a failed assertion. The
region files (81-97) are taken to be valid. -/
def parseCDnet (fs : FS) (data : List Char) : Option Parsed :=
  let subs := getSubDirsFromDir fs data
  if data ++ "groundtruth".toList ∈ subs ∧ data ++ "input".toList ∈ subs then
    let ins := getFilesFromDir fs (data ++ "input".toList)
    let gts := getFilesFromDir fs (data ++ "groundtruth".toList)
    if ins.length > 0 ∧ gts.length = ins.length then
      some ⟨ins, gts, (List.range ins.length).foldl (fun (m : Lut) i => Lut.set m i i) []⟩
    else none
  else none

/-- The loop over the files of a Wallflower sequence, `Wallflower.hpp:73-86`: whether the script was found, and the
parsed lists. -/
def wallLoop (data : List Char) : List (List Char) → Bool → Parsed → Option (Bool × Parsed)
  | [], b, p => some (b, p)
  | f :: fs, b, p =>
    if f = data ++ "script.txt".toList then wallLoop data fs true p
    else if (find "hand_segmented_".toList f).isSome then
      match pathNumber "hand_segmented_".toList 5 f with
      | none => none
      | some n => wallLoop data fs b { p with gts := p.gts ++ [f], lut := p.lut.set n p.gts.length }
    else if (find ".bmp".toList f).getD (2 ^ 64 - 1) ≠ (f.length + (2 ^ 64 - 4)) % 2 ^ 64 then none
    else wallLoop data fs b { p with inputs := p.inputs ++ [f] }

/-- `DataProducer_<…,Dataset_Wallflower>::parseData`, `Wallflower.hpp:60-101`; the ground truth image is taken to be
readable (89-91). -/
def parseWallflower (fs : FS) (data : List Char) : Option Parsed :=
  match wallLoop data (getFilesFromDir fs data) false ⟨[], [], []⟩ with
  | none => none
  | some (script, p) =>
    if p.gts.length = 0 ∨ script = false ∨ p.inputs.length = 0 ∨ p.gts.length ≠ 1 then none else some p

/-- The loop over the ground truth files of a PETS sequence, `PETS2001.hpp:80-81`. -/
def petsLoop : List (List Char) → Nat → Lut → Option Lut
  | [], _, m => some m
  | f :: fs, i, m =>
    match pathNumber "image_".toList 4 f with
    | none => none
    | some n => petsLoop fs (i + 1) (m.set n i)

/-- `DataProducer_<…,Dataset_PETS2001D3TC1>::parseData`, `PETS2001.hpp:60-95`: one video file, one directory of
ground truth files. The video and the first image are taken to be readable (69-71, 82-84); the video's frames are
not files, so that `inputs` is empty. -/
def parsePets (fs : FS) (data : List Char) : Option Parsed :=
  match getFilesFromDir fs data, getSubDirsFromDir fs data with
  | [_], [g] =>
    let gts := getFilesFromDir fs g
    if gts.length = 0 then none
    else match petsLoop gts 0 [] with
      | none => none
      | some m => some ⟨[], gts, m⟩
  | _, _ => none

/-- `DataEvaluator_<…,Dataset_CDnet>::getOutputName`, `CDnet.hpp:109-113`: `"bin%06zu"` of the index plus one (in
`size_t`), in a buffer of 32 characters. -/
def cdnetOutputName (k : Nat) : List Char := ("bin".toList ++ Packets.padded 6 ((k + 1) % 2 ^ 64)).take 31

end Litiv.DirList
