import Verif.Model.Report

/-!
# Specification of the evaluation reports
-/

namespace Litiv.Report.Spec

variable {B M : Type}

/-- The batches of a directory: its subdirectories which are not skipped, or the directory itself if it has none. -/
def batches (skip : String → Bool) (d : Dir) : List String :=
  if skip d.name then [] else if d.subdirs = [] then [d.name] else d.subdirs.filter fun s => !skip s

/-- The batches of a directory with something processed. -/
def processed (skip : String → Bool) (work : String → String → Work B) (d : Dir) : List String :=
  (batches skip d).filter fun s => decide ((work d.name s).outputs ≠ 0)

/-- Number of outputs and time of a directory, over its batches. -/
def outputs (skip : String → Bool) (work : String → String → Work B) (d : Dir) : Nat :=
  ((batches skip d).map fun s => (work d.name s).outputs).sum
def time (skip : String → Bool) (work : String → String → Work B) (d : Dir) : ℚ :=
  ((batches skip d).map fun s => (work d.name s).time).sum

/-- The directories with something processed. -/
def active (skip : String → Bool) (work : String → String → Work B) (dirs : List Dir) : List Dir :=
  dirs.filter fun d => decide (processed skip work d ≠ [])

/-- The metrics of the batches, of the directories and of the dataset. -/
structure Shown (M : Type) where
  batch : String → String → M
  dir : Dir → M
  dataset : M

/-- The rows expected for a directory in a report, at indentation `k`: its processed batches one level deeper (unless the directory is
itself the batch), then the directory. -/
def dirRows (skip : String → Bool) (work : String → String → Work B) (m : Shown M) (k : Nat) (d : Dir) : List (Row M) :=
  (if d.subdirs = [] then [] else (processed skip work d).map fun s => ⟨k + 1, s, m.batch d.name s⟩) ++ [⟨k, d.name, m.dir d⟩]

/-- The report expected for a batch. -/
def batchReport (work : String → String → Work B) (m : Shown M) (g s : String) (at_ : List String) : File M :=
  ⟨at_, s, [⟨0, s, m.batch g s⟩], (work g s).outputs, (work g s).time⟩

/-- The report expected for a directory. -/
def dirReport (skip : String → Bool) (work : String → String → Work B) (m : Shown M) (d : Dir) : File M :=
  ⟨[], d.name, dirRows skip work m 0 d, outputs skip work d, time skip work d⟩

/-- The report expected for the dataset. -/
def datasetReport (skip : String → Bool) (work : String → String → Work B) (m : Shown M) (name : String) (dirs : List Dir) : File M :=
  ⟨[], name, (active skip work dirs).flatMap (dirRows skip work m 1) ++ [⟨0, name, m.dataset⟩],
    (dirs.map (outputs skip work)).sum, (dirs.map (time skip work)).sum⟩

/-- `f` is one of the reports expected: one for each processed batch, one for each directory with processed batches in it, and one for the
dataset if anything was processed. -/
inductive Expected (skip : String → Bool) (work : String → String → Work B) (m : Shown M) (name : String) (dirs : List Dir) :
    File M → Prop
  | batch (d : Dir) (s : String) : d ∈ dirs → d.subdirs ≠ [] → s ∈ processed skip work d →
      Expected skip work m name dirs (batchReport work m d.name s [d.name])
  | alone (d : Dir) : d ∈ dirs → d.subdirs = [] → d.name ∈ processed skip work d →
      Expected skip work m name dirs (batchReport work m d.name d.name [])
  | dir (d : Dir) : d ∈ dirs → d.subdirs ≠ [] → processed skip work d ≠ [] → Expected skip work m name dirs (dirReport skip work m d)
  | dataset : active skip work dirs ≠ [] → Expected skip work m name dirs (datasetReport skip work m name dirs)

/-- `m` are the metrics of the handlers of the dataset, as given by `met`. -/
def Shows (met : Node B → M) (skip : String → Bool) (work : String → String → Work B) (name : String) (dirs : List Dir)
    (m : Shown M) : Prop :=
  (∀ d ∈ dirs, d.subdirs ≠ [] → ∀ s, met (batchNode [d.name, s] s (work d.name s)) = m.batch d.name s) ∧
  (∀ d ∈ dirs, d.subdirs = [] → met (batchNode [d.name] d.name (work d.name d.name)) = m.batch d.name d.name) ∧
  (∀ d ∈ dirs, met (groupNode skip work d) = m.dir d) ∧ met (datasetNode skip work name dirs) = m.dataset

/-- Names that can be told apart: directories with different names, and none named like the dataset. -/
def Distinct (name : String) (dirs : List Dir) : Prop := (dirs.map (·.name)).Nodup ∧ ∀ d ∈ dirs, d.name ≠ name

end Litiv.Report.Spec
