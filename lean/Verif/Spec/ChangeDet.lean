import Verif.Model.ChangeDet

namespace Litiv.ChangeDet.Spec

open Litiv.ChangeDet

/-- The masks that the algorithm computes from state `st` on the frames `i`, `i + 1`, …, as long as it works, with
the rate that the application gives. -/
def masks {F S : Type} (input : Nat → Option F) (apply : S → F → Nat → Option (S × List Nat)) (rate : Nat → Nat) :
    Nat → Nat → S → List (Nat × List Nat)
  | 0, _, _ => []
  | n + 1, i, st =>
    match (input i).bind fun f => apply st f (rate i) with
    | none => []
    | some (st', m) => (i, m) :: masks input apply rate n (i + 1) st'

/-- The learning rate that the application promises: fast on the first 101 frames. -/
def promised (dflt i : Nat) : Nat := if i < 101 then 1 else dflt

/-- The frames pushed, with their masks. -/
def pushed : List Ev → List (Nat × List Nat)
  | [] => []
  | .push i m :: t => (i, m) :: pushed t
  | _ :: t => pushed t

/-- Starts and stops alternate, and the batch is not left in processing. -/
def closed : Bool → List Ev → Bool
  | p, [] => !p
  | p, .start :: t => !p && closed true t
  | p, .stop :: t => p && closed false t
  | p, .push _ _ :: t => p && closed p t
  | p, .report :: t => !p && closed p t

end Litiv.ChangeDet.Spec
