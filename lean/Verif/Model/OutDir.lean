import Verif.Model.Files
import Verif.Model.Seq

/-!
# Model of the output directories of datasets and work batches

Models `DataHandler::createOutputDir`, the constructor of `DataHandler` (`modules/datasets/src/utils.cpp:155-178`) and the
part of the constructor of `DatasetHandler` which makes directories (`utils.cpp:1685-1700`). A file system tells what each
path, as a list of names below the root or current directory, refers to. Other processes may act before every system call:
`env k` is what they do before the `k`-th one. Symbolic links and `..` are not interpreted. `none` is a failed `lvAssert`.
-/

namespace Litiv.OutDir
open Litiv.Files (Entry)
open Litiv.Seq (addDirSlashIfMissing)

/-- A resolved path. -/
abbrev Path := List (List Char)

/-- What each path refers to. -/
abbrev FS := Path → Entry

/-- One name of a path; empty names and `.` have no effect. POSIX path resolution. -/
def piece (w : List Char) : Path := if w = [] ∨ w = ['.'] then [] else [w]

/-- The names of a path, `cur` being the beginning of the current one. POSIX path resolution (only `/` separates). -/
def compsFrom (cur : List Char) : List Char → Path
  | [] => piece cur
  | c :: s => if c = '/' then piece cur ++ compsFrom [] s else compsFrom (cur ++ [c]) s

/-- The names of a path. -/
def comps (s : List Char) : Path := compsFrom [] s

/-- The file system and the number of system calls made so far. -/
structure St where
  fs : FS
  calls : Nat

/-- `lv::createDirIfNotExist`, platform.cpp:194-205, on a path: `stat`, then `mkdir` if nothing is there, or a second `stat`.
A directory can be made in an existing directory `d` where `perm d`. The returned value is `Files.createDir`'s second
component; every caller modelled here ignores it. -/
def createDir (env : Nat → FS → FS) (perm : Path → Bool) (st : St) (path : List Char) : St :=
  let p := comps path
  let fs1 := env st.calls st.fs
  let fs2 := env (st.calls + 1) fs1
  let allowed := decide (p ≠ []) && decide (fs2 p.dropLast = .dir) && perm p.dropLast
  let e := (Files.createDir allowed (fs1 p) (fs2 p)).1
  ⟨fun q => if q = p then e else fs2 q, st.calls + 2⟩

/-- `s.find('/',pos)`. -/
def findSlash (s : List Char) (pos : Nat) : Option Nat :=
  ((s.drop pos).findIdx? (· = '/')).map (· + pos)

/-- The loop of utils.cpp:161-164 over the slashes of the suffix; `fuel` is larger than their number. -/
def loop (env : Nat → FS → FS) (perm : Path → Bool) (g s : List Char) : Nat → Option Nat → St → St
  | 0, _, st => st
  | _ + 1, none, st => st
  | fuel + 1, some k, st =>
    if k ≠ s.length - 1 then
      loop env perm g s fuel (findSlash s (k + 1)) (createDir env perm st (g ++ s.take k))
    else st

/-- `DataHandler::createOutputDir`, utils.cpp:155-169: the file system and the returned path. -/
def createOutputDir (env : Nat → FS → FS) (perm : Path → Bool) (st : St) (g s : List Char) : Option (St × List Char) :=
  if g = [] ∨ s = [] then none
  else
    let gp := addDirSlashIfMissing g
    let st := if gp ≠ [] then createDir env perm st gp else st
    let st := loop env perm gp s (s.length + 1) (findSlash s 0) st
    let out := addDirSlashIfMissing (gp ++ s)
    some (if out ≠ [] then createDir env perm st out else st, out)

/-- The paths of a handler. -/
structure Paths where
  data : List Char
  output : List Char
  features : List Char

/-- The constructor of `DataHandler`, utils.cpp:171-178, with the data and output paths of the dataset. -/
def handler (env : Nat → FS → FS) (perm : Path → Bool) (st : St) (rootData rootOut rel : List Char) :
    Option (St × Paths) :=
  match createOutputDir env perm st rootOut rel with
  | none => none
  | some (st, out) =>
    match createOutputDir env perm st rootOut (addDirSlashIfMissing rel ++ "precomp/".toList) with
    | none => none
    | some (st, feat) => some (st, ⟨rootData ++ addDirSlashIfMissing rel, out, feat⟩)

/-- The constructor of `DatasetHandler`, utils.cpp:1685-1700: paths and directories. -/
def dataset (env : Nat → FS → FS) (perm : Path → Bool) (st : St) (data out : List Char) : St × Paths :=
  let o := addDirSlashIfMissing out
  let f := o ++ "precomp/".toList
  let st := if o ≠ [] then createDir env perm st o else st
  (createDir env perm st f, ⟨addDirSlashIfMissing data, o, f⟩)

/-- The relative path of a work batch found in a group, utils.cpp:292. -/
def batchRel (groupRel name : List Char) : List Char := groupRel ++ addDirSlashIfMissing name

end Litiv.OutDir
