import Verif.Model.OutDir

/-!
# Specification of output directories
-/

namespace Litiv.OutDir
open Litiv.Files (Entry)

/-- Other processes may only make directories: no directory disappears, nothing else appears. -/
def OnlyMakesDirs (env : Nat → FS → FS) : Prop :=
  ∀ k fs q, (fs q = Entry.dir → env k fs q = Entry.dir) ∧ (env k fs q = Entry.other → fs q = Entry.other)

/-- No other process acts. -/
def alone : Nat → FS → FS := fun _ fs => fs

/-- A path which is not empty and does not end with a backslash. -/
def Plain (s : List Char) : Prop := s ≠ [] ∧ s.getLast? ≠ some '\\'

instance (s : List Char) : Decidable (Plain s) := inferInstanceAs (Decidable (_ ∧ _))

/-- Everything is in a directory. -/
def Tree (fs : FS) : Prop := ∀ q, q ≠ [] → fs q ≠ .none → fs q.dropLast = .dir

end Litiv.OutDir
