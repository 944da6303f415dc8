import Mathlib.Data.List.Basic

/-!
# Model of the creation of files and directories

Models `lv::createBinFileWithPrealloc` and `lv::createDirIfNotExist` (`modules/utils/src/platform.cpp:194-228`, not the
Windows branches). A file is its bytes and permissions; `std::fstream` and POSIX calls are given by their documented
results. Writes succeed (no full disk); sizes are natural numbers (below 2^63 in the code). `none` is a failed `lvAssert`.
-/

namespace Litiv.Files

/-- A file: bytes, and whether this process may read and write it. -/
structure File where
  bytes : List Nat
  readable : Bool
  writable : Bool
deriving DecidableEq, Repr

/-- What is at the path: nothing (`creatable` if the directory lets a file be created), or a file. -/
inductive Slot where
  | absent (creatable : Bool)
  | file (f : File)
deriving DecidableEq, Repr

/-- `std::fstream(path, out|in|ate|binary)`: fails without a file. Standard-library behaviour (`r+`). -/
def openUpdate : Slot → Option File
  | .absent _ => none
  | .file f => if f.readable && f.writable then some f else none

/-- `open(path, out|binary)`: creates the file, or empties it. Standard-library behaviour (`w`). -/
def openTruncate : Slot → Option File
  | .absent c => if c then some ⟨[], true, true⟩ else none
  | .file f => if f.writable then some { f with bytes := [] } else none

/-- The sizes of the successive writes, platform.cpp:214-224; `x64` is `TARGET_PLATFORM_x64`, the limit of a buffer is 250MB.
The first argument bounds the number of rounds. -/
def chunks (x64 : Bool) : Nat → Nat → List Nat
  | 0, _ => []
  | n + 1, left =>
    if left > 0 then
      let size := if x64 then left else min (250 * 1024 * 1024) left
      size :: chunks x64 n (left - size)
    else []

/-- The file opened by the function, platform.cpp:208-211: its position is at its end. -/
def opened (s : Slot) : Option File :=
  match openUpdate s with
  | some f => some f
  | none => openTruncate s

/-- The bytes still to be written, platform.cpp:212-214. -/
def missing (f : File) (n : Nat) : Nat := if f.bytes.length < n then n - f.bytes.length else 0

/-- `createBinFileWithPrealloc`, platform.cpp:207-228: the file, and the position of the stream. The buffer is filled with
zeroes in both modes (`std::vector::resize`). -/
def prealloc (x64 : Bool) (s : Slot) (n : Nat) : Option (File × Nat) :=
  match opened s with
  | none => none
  | some f =>
    let k := missing f n
    some ({ f with bytes := f.bytes ++ (chunks x64 k k).flatMap fun c => List.replicate c 0 }, 0)

/-- The file left when the process stops after the `i` first writes and `j` bytes of the next one. -/
def crashed (x64 : Bool) (s : Slot) (n i j : Nat) : Option File :=
  match opened s with
  | none => none
  | some f =>
    let k := missing f n
    let cs := chunks x64 k k
    some { f with bytes := f.bytes ++ ((cs.take i).flatMap fun c => List.replicate c 0) ++
      List.replicate (min j (cs.getD i 0)) 0 }

/-! ### Directories -/

/-- What a path refers to. -/
inductive Entry where
  | none
  | dir
  | other
deriving DecidableEq, Repr

/-- `mkdir(2)`: 0 when nothing is there and the parent directory allows it. POSIX behaviour. -/
def mkdir (allowed : Bool) (e : Entry) : Entry × Bool :=
  if e = .none ∧ allowed then (.dir, true) else (e, false)

/-- `createDirIfNotExist`, platform.cpp:199-203. `e` is what the first `stat` sees, `e'` what is there when the next call
happens (other processes may have acted in between). The result is what is there at the end, and the returned value. -/
def createDir (allowed : Bool) (e e' : Entry) : Entry × Bool :=
  if e = .none then mkdir allowed e' else (e', e' = .dir)

end Litiv.Files
