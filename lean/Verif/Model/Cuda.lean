import Mathlib.Algebra.Group.Defs
import Mathlib.Logic.Function.Basic
import Mathlib.Algebra.Group.Nat.Defs

/-!
# Model of the execution of a CUDA thread block

A block runs its threads concurrently between two `__syncthreads()`. Each thread is a list of atomic actions on its two
registers and on the memory; a schedule is any list of thread numbers, one entry per action. Used by the models of the
kernels in modules/imgproc/cuda/affinity.cu and modules/features2d/cuda/SC.cu.
-/

namespace Litiv.Cuda

/-- An atomic action on the two registers of a thread and the memory. -/
abbrev Act (ι α : Type) := α × α → (ι → α) → (α × α) × (ι → α)

/-- Memory and registers at a barrier. -/
structure Block (ι α : Type) where
  mem : ι → α
  regs : Nat → α × α

/-- A block between two barriers: also the next action of each thread. -/
structure Run (ι α : Type) where
  mem : ι → α
  regs : Nat → α × α
  pc : Nat → Nat

variable {ι α : Type}

/-- Thread `t` performs its next action, if any is left before the barrier. -/
def stepT (acts : Nat → List (Act ι α)) (g : Run ι α) (t : Nat) : Run ι α :=
  ((acts t)[g.pc t]?).elim g fun a =>
    let r := a (g.regs t) g.mem
    ⟨r.2, Function.update g.regs t r.1, Function.update g.pc t (g.pc t + 1)⟩

/-- The work of the `n` threads of a block between two barriers: in the order given by a schedule, then whatever the schedule
left undone (nothing, if it is the schedule of a whole execution: every thread reaches the barrier). -/
def between (n : Nat) (acts : Nat → List (Act ι α)) (sched : List Nat) (b : Block ι α) : Block ι α :=
  let acts' : Nat → List (Act ι α) := fun t => if t < n then acts t else []
  let g := (sched ++ (List.range n).flatMap fun t => List.replicate (acts t).length t).foldl (stepT acts') ⟨b.mem, b.regs, fun _ => 0⟩
  ⟨g.mem, g.regs⟩

/-- The work up to the next barrier; `s.1` is the number of barriers so far, `sched p` the schedule after the `p`-th. -/
def sec (n : Nat) (sched : Nat → List Nat) (acts : Nat → List (Act ι α)) (s : Nat × Block ι α) : Nat × Block ι α :=
  (s.1 + 1, between n acts (sched s.1) s.2)

/-- Loads into the first and the second register, stores, and `x += y` once both are loaded. -/
def ld1 (c : ι) : Act ι α := fun r m => ((m c, r.2), m)
def ld2 (c : ι) : Act ι α := fun r m => ((r.1, m c), m)
def st [DecidableEq ι] (c : ι) (v : α) : Act ι α := fun r m => (r, Function.update m c v)
def addSt [DecidableEq ι] [Add α] (c : ι) : Act ι α := fun r m => (r, Function.update m c (r.2 + r.1))

/-- The values of the loop variable in `for(int nStep=n/2; nStep>0; nStep>>=1)`, from its first value. -/
def halves : Nat → Nat → List Nat
  | 0, _ => []
  | fuel + 1, s => if s = 0 then [] else s :: halves fuel (s / 2)

end Litiv.Cuda
