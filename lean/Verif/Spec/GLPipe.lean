import Verif.Model.GLPipe

/-!
# Specification vocabulary for the GPU pipeline
-/

namespace Litiv.GLPipe.Spec

variable {σ τ I O G : Type}

/-- The results of an algorithm with a state on a list of frames, numbered from `k` on. -/
def results (g : σ → Nat → I → σ × O) : σ → Nat → List I → List O
  | _, _, [] => []
  | st, k, x :: xs => (g st k x).2 :: results g (g st k x).1 (k + 1) xs

/-- The shaders only use the current frame, its number and their state. -/
def Plain (f : Shader σ I O) (g : σ → Nat → I → σ × O) : Prop := ∀ st v, f st v = g st v.frame v.cur

/-- The pipeline was constructed and then used in any way. -/
def Reached (o : Opts) (f : Shader σ I O) (p : Pipe σ I O) : Prop :=
  ∃ (st : σ) (inL : Nat → I) (outL : Nat → O) (zero : O) (ops : List (Op I)), p = runOps o f zero ops (create o st inL outL)

/-- The frames processed by calls with the given inputs, where `a` is waiting and `b` was processed last: without a new
input, the frame processed before is taken again. -/
def processed : I → I → List (Option I) → List I
  | _, _, [] => []
  | a, b, x :: xs => a :: processed (x.getD b) a xs

/-- The indices given to the consumer after index `prev`: packets that exist; the last one may be one past the end, if it
comes after the last packet. -/
def Valid (count : Nat) : Nat → List Nat → Prop
  | _, [] => True
  | prev, [n] => n < count ∨ n = prev + 1
  | _, n :: ns => n < count ∧ Valid count n ns

/-- The evaluation of a list of frames (ground truth and output) numbered from `k` on. -/
def evalAll (h : EvalFn τ G O) : τ → Nat → List (G × O) → τ
  | st, _, [] => st
  | st, k, x :: xs => evalAll h (h st k x.1 x.2) (k + 1) xs

end Litiv.GLPipe.Spec
