import Verif.Model.VapLoad

/-!
# What packets of the VAP trimodal dataset should be
-/

namespace Litiv.VapLoad

/-- The names of the modalities. -/
def Mod.name : Mod → String
  | .rgb => "RGB"
  | .thermal => "THERMAL"
  | .depth => "DEPTH"

/-- What is known of an image. -/
def Img.info (img : Img) : Info := ⟨img.ty, img.rows, img.cols⟩

/-- Two images have the same type, size and pixels. -/
def Img.Same (a b : Img) : Prop := a.info = b.info ∧ ∀ y < a.rows, ∀ x < a.cols, a.px y x = b.px y x

/-- The pixel at a place, or zero if there is none. -/
def Img.at (img : Img) : Option (Nat × Nat) → Nat
  | some (y, x) => img.px y x
  | none => 0

/-- The value of a mask for a value in a file. -/
def maskValue (v : Nat) : Nat := if v > 128 then 255 else 0

/-- The files are images of the dataset: of the original size, and of the types of images and masks. -/
def Files.Valid (f : Files) : Prop :=
  (∀ m, (f.image m).rows = 480 ∧ (f.image m).cols = 640 ∧ (f.gt m).info = ⟨.u8c1, 480, 640⟩ ∧ (f.approx m).info = ⟨.u8c1, 480, 640⟩) ∧
  (f.image .rgb).ty = .u8c3 ∧ (f.image .thermal).ty = .u8c1 ∧ (f.image .depth).ty = .u16c1

/-- The remapping moves pixels without mixing their values: every pixel of the result has one source, the same for images and
masks. -/
def Gathers (ops : Ops) : Prop :=
  (∃ s : Nat → Nat → Option (Nat × Nat), ∀ ip img y x, ops.remapRGB ip img y x = img.at (s y x)) ∧
  (∃ s : Nat → Nat → Option (Nat × Nat), ∀ ip img y x, ops.remapThermal ip img y x = img.at (s y x))

end Litiv.VapLoad
