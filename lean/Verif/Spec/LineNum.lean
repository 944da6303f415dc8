import Verif.Model.LineNum

/-!
# Numbered lines
-/

namespace Litiv.LineNum

/-- The lines of a text: the pieces between ends of lines. -/
def lines : List Char → List (List Char)
  | [] => [[]]
  | c :: s =>
    if c = '\n' then [] :: lines s
    else match lines s with
      | [] => [[c]]
      | l :: ls => (c :: l) :: ls

/-- The number which decimal digits stand for. -/
def value (ds : List Char) : Nat := ds.foldl (fun a c => 10 * a + (c.toNat - '0'.toNat)) 0

/-- `out` is `line` with a number in front: six digits or more, a colon and a space, after a tabulation if asked for. -/
def Numbered (tab : Bool) (n : Nat) (line out : List Char) : Prop :=
  ∃ ds : List Char, (∀ c ∈ ds, '0' ≤ c ∧ c ≤ '9') ∧ 6 ≤ ds.length ∧ value ds = n ∧
    out = (if tab then ['\t'] else []) ++ ds ++ [':', ' '] ++ line

end Litiv.LineNum
