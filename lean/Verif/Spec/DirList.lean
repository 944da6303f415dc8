import Verif.Model.DirList

/-! # Directories of numbered files, described without the parsers -/

namespace Litiv.DirList

/-- The number `n` written with exactly `w` decimal digits. -/
def num : Nat → Nat → List Char
  | 0, _ => []
  | w + 1, n => num w (n / 10) ++ [Char.ofNat (48 + n % 10)]

/-- The file of number `n`: `pre` followed by `w` digits and `suf`. -/
def fileName (pre : String) (w : Nat) (suf : String) (n : Nat) : List Char := pre.toList ++ num w n ++ suf.toList

/-- The directory `d` holds exactly the regular files `names`, in some order, besides entries that are not files. -/
def Holds (fs : FS) (d : List Char) (names : List (List Char)) : Prop :=
  ∃ es, fs d = some es ∧ (es.filter (fun e => e.2 == .reg)).Perm (names.map fun n => (n, Kind.reg))

/-- The subdirectories of `d` are exactly `names`, in some order, besides the two links `.` and `..`. -/
def HoldsDirs (fs : FS) (d : List Char) (names : List (List Char)) : Prop :=
  ∃ es, fs d = some es ∧
    (es.filter (fun e => e.2 == .dir && e.1 != ['.'] && e.1 != ['.', '.'])).Perm (names.map fun n => (n, Kind.dir))

/-- A directory path as the datasets keep it: not empty, ending with a slash. -/
def Slashed (d : List Char) : Prop := ∃ e, d = e ++ ['/']

/-- No occurrence of a text within another one. -/
def Absent (t s : List Char) : Prop := ¬ t <:+: s

end Litiv.DirList
