import Verif.Model.Packets

/-!
# Line numbers of shader sources

Model of `addLineNumbersToString` (modules/utils/src/opengl.cpp 183-198), used in the messages of shaders which do not compile. The
line counter is a natural number: `int` does not overflow.
-/

namespace Litiv.LineNum

open Litiv.Packets (padded)

/-- `cv::format("%06d: ",nCurrLine)`. -/
def format (n : Nat) : List Char := padded 6 n ++ [':', ' ']

/-- One round of the loop over characters: text so far and current line (opengl.cpp 189-195). -/
def step (tab : Bool) (st : List Char × Nat) (c : Char) : List Char × Nat :=
  if c = '\n' then (st.1 ++ ((if tab then ['\n', '\t'] else ['\n']) ++ format (st.2 + 1)), st.2 + 1)
  else (st.1 ++ [c], st.2)

/-- `addLineNumbersToString` (opengl.cpp 183-198). -/
def addLineNumbers (src : List Char) (tab : Bool) : List Char :=
  if src = [] then []
  else (src.foldl (step tab) (if tab then '\t' :: format 1 else format 1, 1)).1

end Litiv.LineNum
