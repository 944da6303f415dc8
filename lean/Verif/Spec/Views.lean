import Verif.Model.Views

/-!
# Specification of matrix views

Elements addressed by multi-dimensional indices.
-/

namespace Litiv.Views

/-- the index is within the sizes -/
def InB (sizes idx : List Nat) : Prop := List.Forall₂ (fun n i => i < n) sizes idx

/-- offset of an element -/
def addr : List (Nat × Nat) → List Nat → Nat
  | (_, s) :: ds, i :: is => i * s + addr ds is
  | _, _ => 0

/-- the units of the element at an index -/
def Mat.elem {β : Type} (mem : Nat → β) (m : Mat) (idx : List Nat) : List β :=
  (List.range m.esz).map (fun c => mem (m.base + addr m.dims idx + c))

/-- row-major position of an index -/
def lin : List Nat → List Nat → Nat
  | _ :: ns, i :: is => i * ns.prod + lin ns is
  | _, _ => 0

/-- the element at an index of a newly allocated matrix -/
def Copy.elem {β : Type} (c : Copy β) (idx : List Nat) : Option (List β) := c.data[lin c.sizes idx]?

/-- headers made by OpenCV: elements are packed in the last dimension and slices of a dimension do
not overlap -/
def Nested (esz : Nat) : List (Nat × Nat) → Prop
  | [] => True
  | [(_, s)] => s = esz
  | (_, s0) :: (n1, s1) :: ds => s1 * n1 ≤ s0 ∧ Nested esz ((n1, s1) :: ds)

/-- entries of `l` at the dimensions with several elements -/
def dropSingles : List Nat → List Nat → List Nat
  | n :: ns, i :: is => if 1 < n then i :: dropSingles ns is else dropSingles ns is
  | _, _ => []

/-- two-dimensional form of an index or a shape with less than two entries, filled with `u` -/
def atLeast2 (u : Nat) : List Nat → List Nat
  | [] => [u, u]
  | [n] => [u, n]
  | l => l

end Litiv.Views
