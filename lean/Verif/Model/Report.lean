import Mathlib.Data.Rat.Defs
import Mathlib.Algebra.Order.Ring.Rat

/-!
# Model of the evaluation reports, modules/datasets/src/eval.cpp:21-276

The report tree of a dataset: which report files are written, where, and with which rows. The texts of the headers, the
formatting of the numbers and the time stamps are not modelled. Directories are lists of names below the output directory of
the dataset, with `..` resolved; names without slashes. Counts do not overflow.
-/

namespace Litiv.Report

/-- A data handler: name, output directory and contents. `m_sBatchName`, `m_sOutputPath`, `m_bIsBare`, `m_vpBatches`
(`utils.cpp:84-90, 242-252`). A work batch has its number of outputs and its processing time (`getCurrentOutputCount`,
`getCurrentProcessTime`) and its counters `base`. -/
inductive Node (B : Type) where
  | leaf (name : String) (dir : List String) (outputs : Nat) (time : ℚ) (base : B)
  | group (name : String) (dir : List String) (bare : Bool) (bs : List (Node B))

variable {B M : Type}

def Node.name : Node B → String
  | .leaf n _ _ _ _ => n
  | .group n _ _ _ => n

def Node.dir : Node B → List String
  | .leaf _ d _ _ _ => d
  | .group _ d _ _ => d

mutual
/-- `getCurrentOutputCount`, `utils.cpp:207-209` for groups. -/
def Node.count : Node B → Nat
  | .leaf _ _ o _ _ => o
  | .group _ _ _ bs => countList bs
def countList : List (Node B) → Nat
  | [] => 0
  | b :: bs => b.count + countList bs
end

mutual
/-- `getCurrentProcessTime`, `utils.cpp:215-217` for groups. -/
def Node.time : Node B → ℚ
  | .leaf _ _ _ t _ => t
  | .group _ _ _ bs => timeList bs
def timeList : List (Node B) → ℚ
  | [] => 0
  | b :: bs => b.time + timeList bs
end

/-- A row of a report: number of `>` before the name, name (before `clampString`), metrics shown. -/
structure Row (M : Type) where
  indent : Nat
  name : String
  metrics : M

mutual
/-- `writeInlineBasicReport`, `writeInlineBinClassifEvalReport` and their variants, `eval.cpp:42-56, 86-108, 143-196,
229-276`; `met` stands for the metrics of a handler (`getMetrics(true)`, or its count, time and rate in basic reports). The
reports on arrays show one row per stream for each handler; they count as one row here. -/
def Node.inline (met : Node B → M) (k : Nat) : Node B → List (Row M)
  | .leaf n d o t b => if (Node.leaf n d o t b).count = 0 then [] else [⟨k, n, met (.leaf n d o t b)⟩]
  | .group n d bare bs =>
    if (Node.group n d bare bs).count = 0 then []
    else (if bare then [] else inlineList met (k + 1) bs) ++ [⟨k, n, met (.group n d bare bs)⟩]
def inlineList (met : Node B → M) (k : Nat) : List (Node B) → List (Row M)
  | [] => []
  | b :: bs => b.inline met k ++ inlineList met k bs
end

/-- A report file: its directory, its name (without `.txt`), its rows, and the count and time of its last lines. -/
structure File (M : Type) where
  dir : List String
  name : String
  rows : List (Row M)
  outputs : Nat
  time : ℚ

/-- The file opened at `eval.cpp:31, 73, 128, 214`: `getOutputPath()+(isRoot()?"":"../")+getName()+".txt"`. -/
def Node.file (met : Node B → M) (root : Bool) (n : Node B) : File M :=
  { dir := if root then n.dir else n.dir.dropLast, name := n.name, rows := n.inline met 0, outputs := n.count, time := n.time }

mutual
/-- `writeEvalReport()`, `eval.cpp:22-40, 60-84, 112-141, 200-227`: the files written, in order. Without evaluation the
basic report is written in the same way (with another `met`). -/
def Node.write (met : Node B → M) (root : Bool) : Node B → List (File M)
  | .leaf n d o t b => if (Node.leaf n d o t b).count = 0 then [] else [(Node.leaf n d o t b).file met root]
  | .group n d bare bs =>
    if (Node.group n d bare bs).count = 0 then []
    else writeList met bs ++ (if bare then [] else [(Node.group n d bare bs).file met root])
def writeList (met : Node B → M) : List (Node B) → List (File M)
  | [] => []
  | b :: bs => b.write met false ++ writeList met bs
end

/-- The output directory after some files have been written: a later file replaces an earlier one of the same path. -/
def onDisk (fs : List (File M)) (dir : List String) (name : String) : Option (File M) :=
  fs.reverse.find? fun f => decide (f.dir = dir ∧ f.name = name)

/-! ## Creation of the tree -/

/-- The contents of a work batch: outputs, time and counters so far. -/
structure Work (B : Type) where
  outputs : Nat
  time : ℚ
  base : B

/-- A work batch, with the directory `utils.cpp:170-178` gives it. -/
def batchNode (dir : List String) (name : String) (w : Work B) : Node B := .leaf name dir w.outputs w.time w.base

/-- A directory of the dataset: its name and those of its subdirectories. -/
structure Dir where
  name : String
  subdirs : List String

/-- `DataGroupHandler::parseData`, `utils.cpp:276-296`; `skip` stands for the test of the skip tokens, `work` for what has
been processed in a batch of a given group. -/
def groupNode (skip : String → Bool) (work : String → String → Work B) (d : Dir) : Node B :=
  if skip d.name then .group d.name [d.name] true []
  else if d.subdirs.isEmpty then .group d.name [d.name] true [batchNode [d.name] d.name (work d.name d.name)]
  else .group d.name [d.name] false
    ((d.subdirs.filter fun s => !skip s).map fun s => batchNode [d.name, s] s (work d.name s))

/-- `IDataset_::parseData`, `datasets.hpp:165-174`. -/
def datasetNode (skip : String → Bool) (work : String → String → Work B) (name : String) (dirs : List Dir) : Node B :=
  .group name [] false (dirs.map (groupNode skip work))

end Litiv.Report
