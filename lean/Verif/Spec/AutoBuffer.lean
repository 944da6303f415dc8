import Verif.Model.AutoBuffer

/-!
# Specification of a set of resizable sequences (what a user of `AutoBuffer` expects)

Each live buffer is a list. An element is `none` where the interface does not promise a value (elements gained by
growing without writing). The contents of a moved-from buffer are unspecified (`contents = none`) until it is given new
contents.
-/

namespace Litiv.AutoBuffer

/-- A live buffer seen from outside. -/
structure Abs (α : Type) where
  /-- the static capacity in its type -/
  ns : Nat
  /-- the elements, or `none` when unspecified -/
  contents : Option (List (Option α))

/-- All live buffers. -/
abbrev AState (α : Type) := Nat → Option (Abs α)

variable {α : Type}

/-- Give buffer `i` a new state. -/
def AState.put (a : AState α) (i : Nat) (x : Option (Abs α)) : AState α := fun k => if k = i then x else a k

/-- A list resized to `n` elements: the first elements are kept, new ones are unspecified. -/
def resized (n : Nat) (l : List (Option α)) : List (Option α) := l.take n ++ List.replicate (n - l.length) none

/-- The contents after resizing to `n`; the size is known even if the old contents are not. -/
def Abs.resize (x : Abs α) (n : Nat) : Abs α := { x with contents := some (resized n (x.contents.getD [])) }

/-- What each operation means. -/
def specStep (a : AState α) : Op α → AState α
  | .construct i ns n => a.put i (some ⟨ns, some (List.replicate n none)⟩)
  | .destroy i => a.put i none
  | .resize i n => a.put i ((a i).map (·.resize n))
  | .reserve _ _ => a
  | .resizeStatic i => a.put i ((a i).map fun x => x.resize x.ns)
  | .clear i => a.put i ((a i).map fun x => { x with contents := some [] })
  | .pushBack i v => a.put i ((a i).map fun x => { x with contents := x.contents.map (· ++ [some v]) })
  | .write i idx v => a.put i ((a i).map fun x => { x with contents := x.contents.map (·.set idx (some v)) })
  | .copyConstruct i ns j => a.put i (some ⟨ns, (a j).bind (·.contents)⟩)
  | .moveConstruct i ns j =>
    (a.put i (some ⟨ns, (a j).bind (·.contents)⟩)).put j ((a j).map fun x => { x with contents := none })
  | .copyAssign i j => a.put i ((a i).map fun x => { x with contents := (a j).bind (·.contents) })
  | .moveAssign i j =>
    (a.put i ((a i).map fun x => { x with contents := (a j).bind (·.contents) })).put j
      ((a j).map fun x => { x with contents := none })

/-- When a program may use an operation: objects are constructed before use and not twice, indexed writes are inside the
sequence, and copies and moves are between buffer types with different static capacities (the case for which the class
declares them). -/
def Allowed (a : AState α) : Op α → Prop
  | .construct i ns _ => a i = none ∧ 1 ≤ ns
  | .destroy i => a i ≠ none
  | .resize i _ => a i ≠ none
  | .reserve i _ => a i ≠ none
  | .resizeStatic i => a i ≠ none
  | .clear i => a i ≠ none
  | .pushBack i _ => a i ≠ none
  | .write i idx _ => ∃ x l, a i = some x ∧ x.contents = some l ∧ idx < l.length
  | .copyConstruct i ns j => a i = none ∧ 1 ≤ ns ∧ ∃ x, a j = some x ∧ x.ns ≠ ns
  | .moveConstruct i ns j => a i = none ∧ 1 ≤ ns ∧ ∃ x, a j = some x ∧ x.ns ≠ ns
  | .copyAssign i j => ∃ x y, a i = some x ∧ a j = some y ∧ x.ns ≠ y.ns
  | .moveAssign i j => ∃ x y, a i = some x ∧ a j = some y ∧ x.ns ≠ y.ns

/-- The specification after a history. -/
def specExec (a : AState α) : List (Op α) → AState α
  | [] => a
  | op :: ops => specExec (specStep a op) ops

/-- Every operation of the history is allowed when it is made. -/
def AllowedAll (a : AState α) : List (Op α) → Prop
  | [] => True
  | op :: ops => Allowed a op ∧ AllowedAll (specStep a op) ops

/-- No buffer exists. -/
def AState.empty : AState α := fun _ => none

end Litiv.AutoBuffer
