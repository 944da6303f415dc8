import Mathlib.Data.Rat.Defs
import Mathlib.Algebra.Order.Field.Rat

/-!
# The evaluation loop of the video registration application

`apps/vidreg/src/main.cpp:126-231`. The registration algorithm is not in the repository: for each frame it gives
the errors of the transformation found, or nothing when there is no transformation yet. Errors are rational numbers.
The videos are the list of the frames that can be read from all four streams. The pictures are left out.
-/

namespace Litiv.VidReg

/-- The errors of a frame: the two coordinates of `oPolyRegError`, and `fPolyOverlapError`. -/
structure Err where
  x : ℚ
  y : ℚ
  o : ℚ
deriving DecidableEq

/-- A frame read from the streams: the errors when `GetTransformationMatrix` is not empty, and whether the user
presses 'q' when it is shown (never without the display). -/
structure Frame where
  reg : Option Err
  quit : Bool
deriving DecidableEq

/-- `oCumulative… += …`, lines 160-163. -/
def add (a b : Err) : Err := ⟨a.x + b.x, a.y + b.y, a.o + b.o⟩

/-- The variables of the loop: `nFirstIndex`, the cumulated errors, the cumulated blob errors, and the rows written
to the results file. -/
structure St where
  first : Nat
  sum : Err
  blob : ℚ
  rows : List (Nat × Err)
deriving DecidableEq

/-- Lines 126-129, with `nFrameCount`. -/
def start (n : Nat) : St := ⟨n, ⟨0, 0, 0⟩, 0, []⟩

/-- Lines 145-171: one frame. -/
def step (n i : Nat) (f : Frame) (s : St) : St :=
  match f.reg with
  | none => s
  | some e =>
    { s with
      first := if s.first = n then i else s.first
      sum := add s.sum e
      rows := s.rows ++ [(i, e)] }

/-- The loop of lines 130-213: `rem` is `nFrameCount - nCurrFrameIndex`. -/
def loop (n : Nat) : Nat → Nat → List Frame → St → St
  | 0, _, _, s => s
  | _ + 1, _, [], s => s
  | rem + 1, i, f :: t, s => if f.quit then step n i f s else loop n rem (i + 1) t (step n i f s)

/-- What is printed and stored at the end: the rows, the first index, the averages (`none`: division by zero). -/
structure Result where
  rows : List (Nat × Err)
  first : Nat
  avg : Option Err
  blobAvg : Option ℚ
deriving DecidableEq

/-- Lines 214-216, on the state after the loop. -/
def finish (n : Nat) (s : St) : Result :=
  let d : ℚ := ((n : Int) - (s.first : Int) : Int)
  ⟨s.rows, s.first, if d = 0 then none else some ⟨s.sum.x / d, s.sum.y / d, s.sum.o / d⟩,
    if d = 0 then none else some (s.blob / d)⟩

/-- Lines 126-231. -/
def run (n : Nat) (frames : List Frame) : Result := finish n (loop n n 0 frames (start n))

end Litiv.VidReg
