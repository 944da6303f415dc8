import Verif.Model.Loader

/-!
# Specification vocabulary for the data loaders
-/

namespace Litiv.Loader.Spec

/-- Position `s` among `old` covers position `x` among `new` when both are spread over the same length. -/
def Covers (old new x s : Nat) : Prop := s < old ∧ s * new ≤ x * old ∧ x * old < (s + 1) * new

/-- An image type that can be converted to the declared one: the same, or three channels to four or to one. -/
def Suitable (raw : Img) (i : Info) : Prop := raw.depth = i.depth ∧ (raw.ch = i.ch ∨ (raw.ch = 3 ∧ (i.ch = 4 ∨ i.ch = 1)))

/-- A converted pixel. -/
def convPx (K : Conv) (raw : Img) (i : Info) (p : List Nat) : List Nat :=
  if raw.ch = i.ch then p else if i.ch = 4 then p ++ [K.alpha raw.depth] else [K.gray raw.depth p]

/-- The image `m` has the declared size and type, and each of its pixels is the converted pixel of `raw` at the same relative place. -/
def Delivered (K : Conv) (raw : Img) (i : Info) (m : Img) : Prop :=
  m.depth = i.depth ∧ m.ch = i.ch ∧ m.rows = i.rows ∧ m.cols = i.cols ∧
    ∀ r c, r < i.rows → c < i.cols → ∃ sr sc, Covers raw.rows i.rows r sr ∧ Covers raw.cols i.cols c sc ∧
      m.px r c = convPx K raw i (raw.px sr sc)

/-- No pixels. -/
def NoPixels (rows cols : Nat) : Prop := rows = 0 ∨ cols = 0

/-- A packet that can be delivered: nothing when nothing is declared, or an image that fits the declared information. -/
def CanDeliver (pol : Policy) (raw : Img) (i : Info) : Prop :=
  (NoPixels raw.rows raw.cols ∧ NoPixels i.rows i.cols) ∨
    (¬ NoPixels raw.rows raw.cols ∧ ¬ NoPixels i.rows i.cols ∧
      ((pol = .image ∧ Suitable raw i) ∨
        (pol = .unspecified ∧ raw.depth = i.depth ∧ raw.ch = i.ch ∧ raw.rows = i.rows ∧ raw.cols = i.cols)))

/-- What is delivered. -/
def StreamOut (K : Conv) (pol : Policy) (raw : Img) (i : Info) (m : Img) : Prop :=
  (NoPixels raw.rows raw.cols ∧ NoPixels i.rows i.cols ∧ m = raw) ∨
    (¬ NoPixels raw.rows raw.cols ∧ ¬ NoPixels i.rows i.cols ∧
      ((pol = .image ∧ Delivered K raw i m) ∨ (pol = .unspecified ∧ m = raw ∧ Delivered K raw i m)))

/-- What a call for the arrays of packet `n` has to give: all its streams, or an exception if they cannot be delivered. -/
def ArrayOut (K : Conv) (pol : Policy) (streams : Nat) (raws : Nat → List Img) (infos : Nat → List Info) (n : Nat) (o : Out Img) : Prop :=
  match o with
  | .ok ms => (streams = 0 ∧ ms = []) ∨
      ((raws n).length = streams ∧ (infos n).length = streams ∧ ms.length = streams ∧
        ∀ (k : Nat) raw i m, (raws n)[k]? = some raw → (infos n)[k]? = some i → ms[k]? = some m → StreamOut K pol raw i m)
  | .error => streams ≠ 0 ∧ ¬ ((raws n).length = streams ∧ (infos n).length = streams ∧
      ∀ (k : Nat) raw i, (raws n)[k]? = some raw → (infos n)[k]? = some i → CanDeliver pol raw i)
  | .dangling => False

/-- A matrix and the information it was packed with: the same type and size, or no pixels. -/
def Agree (m : Img) (i : Info) : Prop :=
  (NoPixels m.rows m.cols ∧ NoPixels i.rows i.cols) ∨ (m.depth = i.depth ∧ m.ch = i.ch ∧ m.rows = i.rows ∧ m.cols = i.cols)

/-- What operations on features have to give: always what is on the disk at that moment, the empty packet `e` for a missing file. -/
def wantF {P V ι : Type} (e : P) (unpack : P → ι → Option (List V)) : (Nat → Option P) → List (FOp P ι) → List (FOut P V)
  | _, [] => []
  | disk, .load n :: os => .packet (some ((disk n).getD e)) :: wantF e unpack disk os
  | disk, .loadArray n i :: os =>
    (match unpack ((disk n).getD e) i with
      | some vs => .array (.ok vs)
      | none => .array .error) :: wantF e unpack disk os
  | disk, .save n p :: os => .saved :: wantF e unpack (fun k => if k = n then some p else disk k) os

/-- Sequences of array loads and saves in which the information given depends on the index only, all packets loaded can be unpacked with
it, and the packet last loaded is not overwritten. -/
def ArraysOnly {P V ι : Type} (e : P) (unpack : P → ι → Option (List V)) (infos : Nat → ι) :
    (Nat → Option P) → Option Nat → List (FOp P ι) → Prop
  | _, _, [] => True
  | _, _, .load _ :: _ => False
  | disk, _, .loadArray n i :: os => i = infos n ∧ unpack ((disk n).getD e) i ≠ none ∧ ArraysOnly e unpack infos disk (some n) os
  | disk, last, .save n p :: os => last ≠ some n ∧ ArraysOnly e unpack infos (fun k => if k = n then some p else disk k) last os

/-- Sequences of packet loads and saves in which the packet last loaded is not overwritten. -/
def PacketsOnly {P ι : Type} : Option Nat → List (FOp P ι) → Prop
  | _, [] => True
  | _, .load n :: os => PacketsOnly (some n) os
  | _, .loadArray _ _ :: _ => False
  | last, .save n _ :: os => last ≠ some n ∧ PacketsOnly last os

/-- The information declared for an image: its depth, its channels or four instead of three, its scaled size up to half a pixel. -/
def DeclaredFor (scale : ℚ) (align : Bool) (m : Img) (i : Info) : Prop :=
  i.depth = m.depth ∧ i.ch = (if m.ch = 3 ∧ align = true then 4 else m.ch) ∧ ¬ NoPixels i.rows i.cols ∧
    (scale = 1 → i.rows = m.rows ∧ i.cols = m.cols) ∧
    |(i.rows : ℚ) - m.rows * scale| ≤ 1 / 2 ∧ |(i.cols : ℚ) - m.cols * scale| ≤ 1 / 2

/-- An image of which scaling leaves nothing. -/
def Vanishes (scale : ℚ) (m : Img) : Prop := scale ≠ 1 ∧ ((m.rows : ℚ) * scale ≤ 1 / 2 ∨ (m.cols : ℚ) * scale ≤ 1 / 2)

/-- The frames found at a data path: those of the video it is, else those of the video that is its only file, else its files. -/
def source {φ : Type} (disk : φ → Img) (open' : φ → Option (List Img)) (self : Option (List Img)) (files : List φ) : List Img :=
  match self, files with
  | some fs, _ => fs
  | none, [f] => (open' f).getD []
  | none, ps => ps.map disk

/-- What packet `n` of a source of images has to be. -/
def SourceOut (K : Conv) (src : List Img) (i : Info) (n : Nat) (o : Option Img) : Prop :=
  match src[n]? with
  | none => o = some Img.none
  | some f => (¬ NoPixels f.rows f.cols ∧ Suitable f i ∧ ∃ m, o = some m ∧ Delivered K f i m) ∨
      ((NoPixels f.rows f.cols ∨ ¬ Suitable f i) ∧ o = none)

end Litiv.Loader.Spec
