import Verif.Model.Display

/-!
# Specification vocabulary for the display helper
-/

namespace Litiv.Display.Spec

/-- A size within another. -/
def Fits (max s : Size) : Prop := s.w ≤ max.w ∧ s.h ≤ max.h

/-- A positive size, at most `2^20` each way. -/
def Sane (s : Size) : Prop := 0 < s.w ∧ 0 < s.h ∧ s.w ≤ 2 ^ 20 ∧ s.h ≤ 2 ^ 20

/-- What happens to a helper between two displays: mouse events, key presses, options. -/
inductive Act where
  | mouse (event x y flags : Int)
  | key (raw : Int)
  | continuous (b : Bool)
  | cursor (b : Bool)

/-- The state after an act. -/
def Act.run {α : Type} (s : St α) : Act → St α
  | .mouse event x y flags => Display.mouse s event x y flags
  | .key raw => (waitKey s raw).2
  | .continuous b => setContinuous s b
  | .cursor b => setCursor s b

/-- `prepare` gives images of the tile size. -/
def Resizes {ι α : Type} (prepare : ι → Size → Option (Int × Int × Bool) → Img α) : Prop :=
  ∀ i t c, 0 < t.w → 0 < t.h → ((prepare i t c).cols : Int) = t.w ∧ ((prepare i t c).rows : Int) = t.h

/-- The size of a display of equal tiles. -/
def total {ι : Type} (rows : List (List ι)) (sug : Size) : Size := ⟨sug.w * ((rows.headD []).length : Int), sug.h * (rows.length : Int)⟩

/-- Codes of the keys to go right and left in an album: the letters `d` and `a`, and codes of the arrow keys. -/
def Right (key : Int) : Prop := key % 256 ∈ [(('d').toNat : Int), 28] ∨ key ∈ [2490368, 1113939]
/-- See `Right`. -/
def Left (key : Int) : Prop := key % 256 ∈ [(('a').toNat : Int), 31] ∨ key ∈ [2424832, 1113937]
/-- Escape. -/
def Escape (key : Int) : Prop := key % 256 = 27

instance (key : Int) : Decidable (Right key) := by unfold Right; infer_instance
instance (key : Int) : Decidable (Left key) := by unfold Left; infer_instance

/-- Steps to the right minus steps to the left. -/
def steps : List Int → Int
  | [] => 0
  | k :: ks => (if Right k then 1 else if Left k then -1 else 0) + steps ks

/-- How often the space bar is among some key codes. -/
def spaces (keys : List Int) : Nat := (keys.filter (fun k => decide (0 ≤ k ∧ k % 256 = ((' ').toNat : Int)))).length

end Litiv.Display.Spec
