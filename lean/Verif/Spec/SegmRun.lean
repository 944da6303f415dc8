import Verif.Model.SegmRun

/-!
# Vocabulary for sequences of frames
-/

namespace Litiv.SegmRun.Spec
open Litiv.SegmRun

variable {F X S M G H : Type}

/-- the calls a user can make; `ahead` is a computation of features that are thrown away -/
inductive Call (F X : Type) where
  | frame (x : F)
  | ahead (x : F)
  | features (p : X)
  | reset

/-- one call, and the output it gives -/
def exec (o : Oracle F X S M G H) (c : Cfg) (s : State F X S M) : Call F X → State F X S M × Option (S × M)
  | .frame x => ((apply o c s x).1, some (apply o c s x).2)
  | .ahead _ => (s, none)
  | .features p => (setNextFeatures s p, none)
  | .reset => (resetTemporal s, none)

/-- the state after a sequence of calls -/
def after (o : Oracle F X S M G H) (c : Cfg) (s : State F X S M) : List (Call F X) → State F X S M
  | [] => s
  | k :: l => after o c (exec o c s k).1 l

/-- the outputs of a sequence of calls -/
def outputs (o : Oracle F X S M G H) (c : Cfg) (s : State F X S M) : List (Call F X) → List (Option (S × M))
  | [] => []
  | k :: l => (exec o c s k).2 :: outputs o c (exec o c s k).1 l

/-- the frames given since the last reset, latest first -/
def recent : List (Call F X) → List F → List F
  | [], h => h
  | .frame x :: l, h => recent l (x :: h)
  | .ahead _ :: l, h => recent l h
  | .features _ :: l, h => recent l h
  | .reset :: l, _ => recent l []

/-- A resegmentation move that counts no changed label changes no mask. -/
def Honest (o : Oracle F X S M G H) (c : Cfg) : Prop :=
  ∀ a t g fs xs ss (f : Nat → M), (∀ l, l < c.layers → (o.resegmMove a t g fs xs ss (view c.layers f)).2.1 l = 0) →
    ∀ l, l < c.layers → (o.resegmMove a t g fs xs ss (view c.layers f)).1 l = f l

/-- What the constructor and the default configuration guarantee; there is at least one layer for past frames. -/
def Valid (c : Cfg) : Prop := 1 < c.layers ∧ 0 < c.nLabels ∧ 0 < c.maxStereo ∧ 0 < c.maxResegm

end Litiv.SegmRun.Spec
