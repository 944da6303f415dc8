import Verif.Model.VidReg

namespace Litiv.VidReg.Spec

open Litiv.VidReg

/-- The frames that are processed: those that can be read, at most `n`, and none after the one at which the user
quits. -/
def processed : List Frame → List Frame
  | [] => []
  | f :: t => if f.quit then [f] else f :: processed t

/-- The frames with a transformation, with their index from `i` on. -/
def registered : Nat → List Frame → List (Nat × Err)
  | _, [] => []
  | i, f :: t =>
    match f.reg with
    | none => registered (i + 1) t
    | some e => (i, e) :: registered (i + 1) t

/-- The mean of the errors of some frames. -/
def mean (l : List (Nat × Err)) : Err :=
  ⟨(l.map fun p => p.2.x).sum / (l.length : ℚ), (l.map fun p => p.2.y).sum / (l.length : ℚ),
    (l.map fun p => p.2.o).sum / (l.length : ℚ)⟩

end Litiv.VidReg.Spec
