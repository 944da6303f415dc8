import Verif.Model.Metrics

/-!
# Model of dataset batch groups

Models `lv::DataGroupHandler` (modules/datasets/src/utils.cpp:184-296), the default parsing of a dataset directory and
`lv::MetricRetriever_` (modules/datasets/include/litiv/datasets/metrics.hpp:409-435). `datasets.hpp` stands for
modules/datasets/include/litiv/datasets.hpp.
-/

namespace Litiv.Groups

open Litiv.Metrics

/-- A data handler: a work batch (`WorkBatch`, datasets.hpp:73-130) or a group with its `m_bIsBare` flag and its
`m_vpBatches` array (`WorkBatchGroup` and the dataset itself). -/
inductive Batch (L : Type) where
  | leaf (l : L)
  | group (bare : Bool) (bs : List (Batch L))

variable {L : Type}

mutual
/-- The group totals, utils.cpp:184-219: each one sums the same getter over `getBatches(true)` with `size_t`
(64-bit, wrapping) arithmetic; `f` is the getter of a work batch. -/
def Batch.count (f : L → Nat) : Batch L → Nat
  | .leaf l => f l
  | .group _ bs => countList f 0 bs
/-- `lv::accumulateMembers` over the children. -/
def countList (f : L → Nat) (acc : Nat) : List (Batch L) → Nat
  | [] => acc
  | b :: bs => countList f ((acc + b.count f) % 2^64) bs
end

mutual
/-- `isProcessing`/`isPrecaching`, utils.cpp:228-240: the first child which answers yes ends the loop. -/
def Batch.anyOf (f : L → Bool) : Batch L → Bool
  | .leaf l => f l
  | .group _ bs => anyOfList f bs
/-- The loop of `isProcessing`/`isPrecaching`. -/
def anyOfList (f : L → Bool) : List (Batch L) → Bool
  | [] => false
  | b :: bs => if b.anyOf f then true else anyOfList f bs
end

mutual
/-- `lPushBatches` in `getBatches`, utils.cpp:254-260; `acc` is `vpBatches`. -/
def pushBatches (acc : List L) : Batch L → List L
  | .leaf l => acc ++ [l]
  | .group _ bs => pushBatchList acc bs
/-- The loops at utils.cpp:256-257 and 261-262. -/
def pushBatchList (acc : List L) : List (Batch L) → List L
  | [] => acc
  | b :: bs => pushBatchList (pushBatches acc b) bs
end

/-- `getBatches(false)`, utils.cpp:250-264, and datasets.hpp:91 for a work batch (always empty). -/
def Batch.getBatches : Batch L → List L
  | .leaf _ => []
  | .group _ bs => pushBatchList [] bs

/-- What a work batch contributes to the metrics: the number of processed packets and its counters. -/
structure LeafData where
  outputs : Nat
  base : BinClassif

mutual
/-- `getMetricsBase`, metrics.hpp:413-419 for groups; a work batch returns its own counters. -/
def Batch.metricsBase : Batch LeafData → BinClassif
  | .leaf l => l.base
  | .group _ bs => baseList {} bs
/-- The accumulation loop, metrics.hpp:416-417. -/
def baseList (acc : BinClassif) : List (Batch LeafData) → BinClassif
  | [] => acc
  | b :: bs => baseList (acc.acc b.metricsBase) bs
end

/-- `IIMetricsCalculator::create<...>(getMetricsBase())`, metrics.hpp:433. -/
noncomputable def mkCalc (c : BinClassif) : Option Calc := (calcMetrics c).map fun m => { metrics := m }

mutual
/-- `getMetrics(bAverage)`, metrics.hpp:421-434; `none` is a violated assertion. -/
noncomputable def Batch.getMetrics (avg : Bool) : Batch LeafData → Option Calc
  | .leaf l => mkCalc l.base
  | .group bare bs => if avg && !bare then firstProcessed avg bs else mkCalc (baseList {} bs)
/-- The search for the first child with processed packets, metrics.hpp:424-427. -/
noncomputable def firstProcessed (avg : Bool) : List (Batch LeafData) → Option Calc
  | [] => none
  | b :: bs => if b.count LeafData.outputs = 0 then firstProcessed avg bs
    else (b.getMetrics avg).bind fun c => accRest avg c bs
/-- The accumulation over the remaining children, metrics.hpp:428-430. -/
noncomputable def accRest (avg : Bool) (c : Calc) : List (Batch LeafData) → Option Calc
  | [] => some c
  | b :: bs => if b.count LeafData.outputs > 0 then
      (b.getMetrics avg).bind fun m => (c.acc m).bind fun c' => accRest avg c' bs
    else accRest avg c bs
end

/-- A line of `printDataStructure`: a group header or a work batch (names, sizes and indentation are not modelled). -/
inductive Line (L : Type) where
  | header
  | batch (l : L)
deriving DecidableEq

mutual
/-- `DataHandler::printDataStructure`, utils.cpp:104-117; `none` is the violated assertion at line 107. -/
def Batch.print : Batch L → Option (List (Line L))
  | .leaf l => some [.batch l]
  | .group true bs => match bs with
    | [b] => b.print
    | _ => none
  | .group false bs => (printList bs).map (Line.header :: ·)
/-- The loop over the children, utils.cpp:112-113. -/
def printList : List (Batch L) → Option (List (Line L))
  | [] => some []
  | b :: bs => do return (← b.print) ++ (← printList bs)
end

/-- `DatasetHandler::printDataStructure`, utils.cpp:1644-1652. -/
def printDataset (bs : List (Batch L)) : Option (List (Line L)) :=
  if bs.isEmpty then some [.header] else (printList bs).map (Line.header :: ·)

/-! ### Parsing -/

/-- A directory of the dataset: its name and the names of its subdirectories in the order of `getSubDirsFromDir`. -/
structure Dir where
  name : String
  subdirs : List String

/-- `DataGroupHandler::parseData`, utils.cpp:276-296; work batches are identified by group and batch name, and
`skip` stands for `lv::string_contains_token(·,getSkipTokens())`. -/
def parseGroup (skip : String → Bool) (d : Dir) : Batch (String × String) :=
  if skip d.name then .group true []
  else if d.subdirs.isEmpty then .group true [.leaf (d.name, d.name)]
  else .group false ((d.subdirs.filter fun s => !skip s).map fun s => .leaf (d.name, s))

/-- `IDataset_::parseData`, datasets.hpp:165-174: one group per work batch directory. -/
def parseDataset (skip : String → Bool) (dirs : List Dir) : Batch (String × String) :=
  .group false (dirs.map (parseGroup skip))

/-- The end of `IDataset_::parseData`, datasets.hpp:173: the structure is printed (the arguments of `lvLog_` are evaluated
at every verbosity), so that creating the dataset fails when printing fails. -/
def createDataset (skip : String → Bool) (dirs : List Dir) : Option (Batch (String × String)) :=
  (printDataset (dirs.map (parseGroup skip))).map fun _ => parseDataset skip dirs

end Litiv.Groups
