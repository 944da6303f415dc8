import Verif.Model.Files

/-!
# Specification of the creation of files
-/

namespace Litiv.Files

/-- The bytes at a path. -/
def Slot.content : Slot → List Nat
  | .absent _ => []
  | .file f => f.bytes

/-- Bytes followed by zeroes up to a given length. -/
def padded (l : List Nat) (n : Nat) : List Nat := l ++ List.replicate (n - l.length) 0

/-- A path where a file can be created, or a file that can be read and written. -/
def Slot.Usable : Slot → Prop
  | .absent c => c = true
  | .file f => f.readable = true ∧ f.writable = true

end Litiv.Files
