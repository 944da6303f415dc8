import Verif.Model.UnlockGuard

namespace Litiv.UnlockGuard.Spec

open Litiv.UnlockGuard

/-- Thread `t` uses guards on the mutexes `ms` only, and its own code leaves these mutexes alone. Other threads do
anything. -/
def Disciplined (t : Nat) (ms : List Nat) : Nat × Act → Prop
  | (u, .lock m) => u = t → m ∉ ms
  | (u, .unlock m) => u = t → m ∉ ms
  | (u, .enter l) => u = t → l = ms
  | _ => True

/-- What the owner of the guard can rely on: outside it owns the mutexes, in the scope it owns none of them. -/
def Scope (t : Nat) (ms : List Nat) (s : St) : Prop :=
  match s.phase t with
  | .out => ∀ m ∈ ms, s.owner m = some t
  | .inside _ => ∀ m ∈ ms, s.owner m ≠ some t
  | _ => True

end Litiv.UnlockGuard.Spec
