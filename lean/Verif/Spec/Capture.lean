import Verif.Model.Capture

namespace Litiv.Capture.Spec

open Litiv.Capture

variable {P : Type}

/-- The states after a history of steps. -/
inductive Reach (c : Cfg) (max : Nat → Nat) : List (Act P) → St P → Prop
  | init : Reach c max [] (init max)
  | step {tr s a s'} : Reach c max tr s → step c s a = some s' → Reach c max (tr ++ [a]) s'

/-- The state after some steps. -/
def exec (c : Cfg) (s : St P) : List (Act P) → Option (St P)
  | [] => some s
  | a :: t => (step c s a).bind fun s' => exec c s' t

/-- The grabs of a history, in order: whether they succeeded, and their packets. -/
def grabs : List (Act P) → List (Bool × (Nat → Nat × P))
  | [] => []
  | .grab got ps _ :: t => (got, ps) :: grabs t
  | _ :: t => grabs t

/-- What a stream got so far: saved, then waiting, with the index of the frame. -/
def received (w : Wr P) : List (Nat × P) :=
  (w.saved.map fun o => (o.idx, o.val)) ++ w.queue.map fun q => (q.idx, q.val)

/-- The bytes that wait in a queue. -/
def waiting (w : Wr P) : Nat := (w.queue.map fun q => q.size).sum

/-- The main thread is between two frames, or out of the loop. -/
def Between (s : St P) : Prop := match s.ph with
  | .push _ _ => False
  | _ => True

end Litiv.Capture.Spec
