/-!
# Description of a graphical model

`modules/utils/include/litiv/utils/opengm.hpp:93-109` (`lv::gm::printModelInfo`). A model is given by the number of
labels of each variable and by the number of variables of each factor. Numbers are natural numbers; `SIZE_MAX` is
the largest 64-bit number. The text is kept in a structured form.
-/

namespace Litiv.GMInfo

/-- `SIZE_MAX`. -/
def sizeMax : Nat := 2 ^ 64 - 1

/-- Lines 95-99: smallest and largest number of labels. -/
def labelRange (labels : List Nat) : Nat × Nat :=
  labels.foldl (fun (a : Nat × Nat) n => (min n a.1, max n a.2)) (sizeMax, 0)

/-- Line 102: `mFactOrderHist[k] += 1` on a `std::map`, as a list in increasing order of keys. -/
def bump (k : Nat) : List (Nat × Nat) → List (Nat × Nat)
  | [] => [(k, 1)]
  | (a, c) :: t =>
    if k < a then (k, 1) :: (a, c) :: t
    else if a < k then (a, c) :: bump k t
    else (a, c + 1) :: t

/-- Lines 100-102: the histogram of the orders of the factors. -/
def histogram (orders : List Nat) : List (Nat × Nat) :=
  orders.foldl (fun h k => bump k h) []

/-- What is printed about the labels, line 104. -/
inductive LabelText where
  /-- "… labels each" -/
  | each (n : Nat)
  /-- "… labels min, … labels max" -/
  | range (lo hi : Nat)
deriving DecidableEq

/-- The printed description. -/
structure Info where
  vars : Nat
  labels : LabelText
  factors : Nat
  /-- order and number of factors, a line for each -/
  bins : List (Nat × Nat)
deriving DecidableEq

/-- `printModelInfo`, lines 93-109. `none`: the assertion of line 103 fails. -/
def printModelInfo (labels orders : List Nat) : Option Info :=
  let r := labelRange labels
  let h := histogram orders
  if (h.foldl (fun n p => n + p.2) 0) = orders.length then
    some ⟨labels.length, if r.1 = r.2 then .each r.1 else .range r.1 r.2, orders.length, h⟩
  else none

end Litiv.GMInfo
