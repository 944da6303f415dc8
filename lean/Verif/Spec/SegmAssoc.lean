import Mathlib.Data.Finset.Card
import Mathlib.Data.Finset.Range
import Mathlib.Data.Finset.Prod
import Mathlib.Order.Interval.Finset.Basic
import Mathlib.Data.Int.Interval
import Mathlib.Algebra.BigOperators.Group.Finset.Basic
import Verif.Model.SegmAssoc
import Verif.Spec.Reducer

/-!
# Vocabulary for stereo associations
-/

namespace Litiv.SegmAssoc.Spec
open Litiv.SegmAssoc

/-- the column of the other camera's image that a pixel in column `k` with internal label `l` is matched with -/
def target (c : Cfg) (k l : Nat) : Int :=
  if c.right then (k : Int) + (c.dmin + l : Nat) else (k : Int) - (c.dmin + l : Nat)

/-- the pixels of a row of the ROI that a labeling matches with a given column -/
def matched (c : Cfg) (lab : Nat → Nat → Nat) (r : Nat) (a : Int) : Finset Nat :=
  (Finset.range c.cols).filter (fun k => c.roi r k = true ∧ lab r k < c.nReal ∧ target c k (lab r k) = a)

/-- what the constructor and the initialization of the matcher guarantee -/
def Valid (c : Cfg) : Prop := c.dmin < c.dmax ∧ c.nReal ≤ 253

/-- labels of ROI pixels are legal -/
def Legal (c : Cfg) (lab : Nat → Nat → Nat) : Prop :=
  ∀ r k, r < c.rows → k < c.cols → c.roi r k = true → lab r k < c.nLabels

/-- the bookkeeping of a state agrees with its labeling -/
def Exact (c : Cfg) (s : State) : Prop :=
  ∀ r, r < c.rows → ∀ a : Int, 0 ≤ a + c.mapOff → a + c.mapOff < c.mapCols →
    getCount c s r a = some (matched c s.lab r a).card

/-- the entry of the association map for a row, a column of the other image and a label -/
def entry (c : Cfg) (s : State) (r : Nat) (a : Int) (l : Nat) : Option Int :=
  (flat c r a).map (fun p => s.amap (p * c.nReal + l))

/-- every match is recorded under its target and its label, and nothing else is -/
def Recorded (c : Cfg) (s : State) : Prop :=
  ∀ r, r < c.rows → ∀ a : Int, 0 ≤ a + c.mapOff → a + c.mapOff < c.mapCols → ∀ l, l < c.nReal →
    (∀ k ∈ matched c s.lab r a, s.lab r k = l → entry c s r a l = some (int16 k)) ∧
    ((∀ k ∈ matched c s.lab r a, s.lab r k ≠ l) → entry c s r a l = some (-1))

/-- the energy of a labeling: for every column of the other image, the price of the number of its matches; for every
ROI pixel, the price of its label and the prices of its label with those of the ROI pixels below and to the right -/
def Energy (c : Cfg) (m : Costs) (lab : Nat → Nat → Nat) : Int :=
  ∑ r ∈ Finset.range c.rows, ∑ a ∈ Finset.Ico (-c.dmax : Int) (c.cols + c.dmax), sumCost (matched c lab r a).card +
  ∑ n ∈ (Finset.range c.rows ×ˢ Finset.range c.cols).filter (fun n => c.roi n.1 n.2 = true),
    (m.unary n.1 n.2 (lab n.1 n.2) +
      ((if n.1 + 1 < c.rows ∧ c.roi (n.1 + 1) n.2 = true then m.pair n.1 n.2 0 [lab n.1 n.2, lab (n.1 + 1) n.2] else 0) +
      (if n.2 + 1 < c.cols ∧ c.roi n.1 (n.2 + 1) = true then m.pair n.1 n.2 1 [lab n.1 n.2, lab n.1 (n.2 + 1)] else 0)))

/-- The persistency contract of the minimizer (`ComputeWeakPersistencies`) for a function `q` of binary variables: the
labels `lbl` (0 and 1; negative means undecided) can replace those of any assignment without raising `q`. -/
def Persistent (q : (Nat → Bool) → Int) (lbl : Nat → Int) : Prop :=
  ∀ z : Nat → Bool, q (fun i => if lbl i = 1 then true else if lbl i = 0 then false else z i) ≤ q z

/-- the labeling where the ROI pixels chosen by the minimizer have switched to `alpha` -/
def switched (c : Cfg) (lab : Nat → Nat → Nat) (alpha : Nat) (lbl : Nat → Int) : Nat → Nat → Nat :=
  fun r k => if (r, k) ∈ nodes c ∧ lbl ((nodes c).idxOf (r, k)) = 1 then alpha else lab r k

/-- Runs of the move loop: the labeling is initialized, then any number of fusion moves with any label, any costs (they
change when the segmentation is updated) and any persistent answer of the minimizer are applied. -/
inductive Run (c : Cfg) : State → Prop
  | start (unary : Nat → Nat → Nat → Int) (warped : Nat → Nat → Nat) (s : State) :
      Legal c warped → reset c unary warped = some s → Run c s
  | move (m : Costs) (s s' : State) (alpha : Nat) (lbl : Nat → Int) (ts : List (Int × List Nat)) (n : Nat) :
      Run c s → alpha < c.nLabels → moveTerms c m s alpha = some ts →
      Persistent (Reducer.Spec.value ts) lbl → applyMove c alpha lbl s = some (s', n) → Run c s'

end Litiv.SegmAssoc.Spec
