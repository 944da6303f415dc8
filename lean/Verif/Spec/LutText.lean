import Verif.Model.LutText

/-!
# Reading a table of numbers

Independent of the model: a reader of the arguments of a GLSL array constructor, for decimal literals only.
-/

namespace Litiv.LutText

/-- What was read of the current argument: nothing, the digits of a number, or a number and space. -/
inductive Arg where
  | empty
  | digits (v : Nat)
  | ended (v : Nat)

/-- The value of a complete argument. -/
def Arg.value : Arg → Option Nat
  | .empty => none
  | .digits v => some v
  | .ended v => some v

/-- Reads arguments separated by commas. Numbers with a leading zero (octal in GLSL), two numbers without comma, empty
arguments and other characters are errors. -/
def read : Arg → List Char → Option (List Nat)
  | a, [] => a.value.map fun v => [v]
  | a, c :: r =>
    if c = ',' then a.value.bind fun v => (read .empty r).map fun l => v :: l
    else if c = ' ' ∨ c = '\n' then read (match a with | .digits v => .ended v | a => a) r
    else if '0'.toNat ≤ c.toNat ∧ c.toNat ≤ '9'.toNat then
      match a with
      | .empty => read (.digits (c.toNat - '0'.toNat)) r
      | .digits v => if v = 0 then none else read (.digits (10 * v + (c.toNat - '0'.toNat))) r
      | .ended _ => none
    else none

/-- The text declares a constant of the given name, an array of the given numbers. -/
def Declares (text name : List Char) (l : List Nat) : Prop :=
  ∃ args, text = "const uint ".toList ++ name ++ "[".toList ++ Nat.toDigits 10 l.length ++ "] = uint[".toList ++
      Nat.toDigits 10 l.length ++ "](".toList ++ args ++ ");\n".toList ∧
    read .empty args = some l

end Litiv.LutText
