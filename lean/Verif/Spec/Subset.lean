import Verif.Spec.DirList

/-! # Subset files, windows and numbered frames, described without the parsers -/

namespace Litiv.Subset

/-- A line of a subset file: a comment (what follows `#`) or the number of a frame. -/
inductive Line where
  | comment (s : List Char)
  | number (n : Nat)
deriving DecidableEq, Repr

/-- The characters of a line. -/
def Line.text : Line → List Char
  | .comment s => '#' :: s
  | .number n => Nat.toDigits 10 n

/-- A file of lines, each ended by a line feed. -/
def fileText : List Line → List Char
  | [] => []
  | l :: ls => l.text ++ '\n' :: fileText ls

/-- Comments fit on one line. -/
def OneLine : Line → Prop
  | .comment s => '\n' ∉ s
  | .number _ => True

/-- The frames a file lists. -/
def numbers (ls : List Line) : List Nat :=
  ls.filterMap fun l => match l with
    | .comment _ => none
    | .number n => some n

/-- The frames within `w` frames of one of the frames `L`, in a sequence of `N` frames, in order. -/
def windowFrames (L : List Nat) (w N : Nat) : List Nat :=
  (List.range N).filter fun i => L.any fun n => i ≤ n + w && n ≤ i + w

/-- The file of frame `n` in directory `d`: five digits and an extension. -/
def frame (d : List Char) (ext : String) (n : Nat) : List Char := d ++ DirList.num 5 n ++ ext.toList

/-- An extension: a dot and characters that are neither dots, separators nor digits. -/
def Ext (ext : String) : Prop :=
  ∃ e, ext.toList = '.' :: e ∧ ∀ c ∈ e, c ≠ '.' ∧ c ≠ '/' ∧ c ≠ '\\' ∧ c.isDigit = false

/-- No five consecutive digits in a directory path. -/
def NoNumber (d : List Char) : Prop := ∀ n < 10 ^ 5, DirList.Absent (DirList.num 5 n) d

/-- A packet starts a new window when it is the first one, when windows have a single frame, or when the frame before
it in the sequence is not the packet before it. -/
def Starts (F : List Nat) (w k : Nat) : Prop :=
  k = 0 ∨ w = 0 ∨ F.length ≤ k ∨ F.getD (k - 1) 0 + 1 ≠ F.getD k 0

instance (F : List Nat) (w k : Nat) : Decidable (Starts F w k) := by unfold Starts; infer_instance

/-- The ground truth of frame `f` when the frames `E` are evaluated, `GV` have an RGB file and `GW` an LWIR file. -/
def truth (gr gl : List Char) (egr egl : String) (GV GW : List Nat) (E : Nat → Prop) [DecidablePred E] (f : Nat) : Option (List Char × List Char) :=
  if E f ∧ (f ∈ GV ∨ f ∈ GW) then
    some (if f ∈ GV then frame gr egr f else [], if f ∈ GW then frame gl egl f else [])
  else none

end Litiv.Subset
