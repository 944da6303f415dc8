import Verif.Model.Thinning
import Mathlib.Logic.Relation

/-!
# Vocabulary for the thinning properties
-/

namespace Litiv.Thinning.Spec

/-- Pixel `p` belongs to the image and is set. -/
def IsSet (rows cols : Nat) (f : Img) (p : Nat × Nat) : Prop := p.1 < rows ∧ p.2 < cols ∧ f p.1 p.2 ≠ 0

/-- The two positions are distinct and differ by at most one in each direction. -/
def Adj (p q : Nat × Nat) : Prop := p ≠ q ∧ p.1 ≤ q.1 + 1 ∧ q.1 ≤ p.1 + 1 ∧ p.2 ≤ q.2 + 1 ∧ q.2 ≤ p.2 + 1

/-- The pixel has at most one set neighbour: it is isolated or the end of a line. -/
def Tip (rows cols : Nat) (f : Img) (p : Nat × Nat) : Prop :=
  ∀ q r, Adj p q → Adj p r → IsSet rows cols f q → IsSet rows cols f r → q = r

/-- The pixel lies on the outermost frame of the image. -/
def Border (rows cols : Nat) (p : Nat × Nat) : Prop := p.1 = 0 ∨ p.2 = 0 ∨ p.1 + 1 = rows ∨ p.2 + 1 = cols

/-- There is a path of set pixels from `p` to `q`. -/
def Linked (rows cols : Nat) (f : Img) (p q : Nat × Nat) : Prop :=
  IsSet rows cols f p ∧ Relation.ReflTransGen (fun a b => Adj a b ∧ IsSet rows cols f b) p q

/-- Every pixel of `g` is a pixel of `f` or zero. -/
def Erodes (rows cols : Nat) (f g : Img) : Prop := ∀ y x, y < rows → x < cols → g y x = f y x ∨ g y x = 0

/-- The images agree. -/
def Same (rows cols : Nat) (f g : Img) : Prop := ∀ y x, y < rows → x < cols → g y x = f y x

/-- `g` has the same connected components as `f`, each possibly smaller but none empty. -/
structure SameComponents (rows cols : Nat) (f g : Img) : Prop where
  subset : ∀ p, IsSet rows cols g p → IsSet rows cols f p
  linked : ∀ p q, IsSet rows cols g p → IsSet rows cols g q → (Linked rows cols g p q ↔ Linked rows cols f p q)
  inhabited : ∀ p, IsSet rows cols f p → ∃ q, IsSet rows cols g q ∧ Linked rows cols f p q

/-- `out` is what `lv::thinning` returns for `f`. -/
def Thins (b : Build) (mode : Mode) (rows cols : Nat) (f out : Img) : Prop :=
  ∃ fuel, thinning b mode rows cols fuel f = some (.done out)

/-- Reading past the lookup array yields some byte rather than undefined behaviour. -/
def Benign (b : Build) : Prop := ∀ n it f i j, (b.oob n it f i j).isSome

/-- The byte read past the lookup array depends on the image and place only, not on the round. -/
def Steady (b : Build) : Prop := Benign b ∧ ∀ n m, b.oob n = b.oob m

/-- The build without the extra lines in which the byte past the end happens to be the first one of the array, as the
algorithm intends (index 8 standing for index 0). -/
def intended : Build := ⟨false, fun _ _ f i j => some (f (i + 1) j)⟩

/-- Reading past the array is undefined behaviour. -/
def strict (fixed : Bool) : Build := ⟨fixed, fun _ _ _ _ _ => none⟩

/-- The ring of the eight neighbours of a pixel, clockwise from north (`P2 … P9` of Zhang and Suen). -/
def ring (f : Img) (y x : Nat) : List Bool :=
  [f (y - 1) x, f (y - 1) (x + 1), f y (x + 1), f (y + 1) (x + 1), f (y + 1) x, f (y + 1) (x - 1), f y (x - 1), f (y - 1) (x - 1)].map
    fun (v : BitVec 8) => v != 0

/-- Entry `i` of the ring, counted around. -/
def at8 (r : List Bool) (i : Nat) : Bool := r.getD (i % 8) false

/-- Number of changes from unset to set along the ring. -/
def rises (r : List Bool) : Nat := (List.range 8).countP fun (i : Nat) => !at8 r i && at8 r (i + 1)

/-- The published conditions of Zhang and Suen (1984) for removing a set pixel in the first (`second = false`) or second
sub-iteration. -/
def ZhangSuenRemoves (second : Bool) (r : List Bool) : Prop :=
  2 ≤ r.countP (fun (v : Bool) => v) ∧ r.countP (fun (v : Bool) => v) ≤ 6 ∧ rises r = 1 ∧
  (second = false → ¬(at8 r 0 ∧ at8 r 2 ∧ at8 r 4) ∧ ¬(at8 r 2 ∧ at8 r 4 ∧ at8 r 6)) ∧
  (second = true → ¬(at8 r 0 ∧ at8 r 2 ∧ at8 r 6) ∧ ¬(at8 r 0 ∧ at8 r 4 ∧ at8 r 6))

/-- The conditions G1, G2, G3 (G3') of the parallel algorithm described by Lam, Lee and Suen (1992), with `x1 … x8` running
clockwise from south: `X_H = 1`, `2 ≤ min(n1, n2) ≤ 3` and `(x2 ∨ x3 ∨ ¬x8) ∧ x1 = 0` (`(x6 ∨ x7 ∨ ¬x4) ∧ x5 = 0`). -/
def LamLeeSuenRemoves (second : Bool) (r : List Bool) : Prop :=
  let x (i : Nat) : Bool := at8 r (i + 3)
  let XH := (List.range 4).countP fun (i : Nat) => !x (2 * i + 1) && (x (2 * i + 2) || x (2 * i + 3))
  let n1 := (List.range 4).countP fun (k : Nat) => x (2 * k + 1) || x (2 * k + 2)
  let n2 := (List.range 4).countP fun (k : Nat) => x (2 * k + 2) || x (2 * k + 3)
  XH = 1 ∧ 2 ≤ min n1 n2 ∧ min n1 n2 ≤ 3 ∧
  (second = false → ((x 2 || x 3 || !x 8) && x 1) = false) ∧ (second = true → ((x 6 || x 7 || !x 4) && x 5) = false)

instance (s : Bool) (r : List Bool) : Decidable (ZhangSuenRemoves s r) := by unfold ZhangSuenRemoves; infer_instance

instance (s : Bool) (r : List Bool) : Decidable (LamLeeSuenRemoves s r) := by unfold LamLeeSuenRemoves; dsimp only; infer_instance

end Litiv.Thinning.Spec
