import Verif.Model.GLLobster
import Verif.Spec.LBSP
import Mathlib.Algebra.BigOperators.Intervals

/-!
# Specification vocabulary for the GPU LOBSTER
-/

namespace Litiv.GLLobster.Spec
open LBSP.Spec

/-- Image types the shader supports: gray or BGRA; at least one sample. -/
def Supported (d : Dim) : Prop := (d.ch = 1 ∨ d.ch = 4) ∧ 0 < d.n

/-- `w` is the descriptor around a pixel of an image given by offsets, for a reference value and threshold: one bit for
each neighbour of the pattern, nothing else. -/
def IsPattern (patch : Int → Int → BitVec 8) (ref t : BitVec 8) (w : W) : Prop :=
  (∀ e ∈ drawing, (w.getLsbD e.1 = true ↔ Differs (patch e.2.1 e.2.2) ref t)) ∧ ∀ i, 16 ≤ i → w.getLsbD i = false

/-- Number of bits in which two words differ. -/
def differing (a b : W) : Nat := (List.range 32).countP fun i => a.getLsbD i != b.getLsbD i

/-- Distance of two values. -/
def dist (a b : Nat) : Nat := max a b - min a b

/-- The stored sample (`col`, `desc` by channel) matches the input at pixel `p`: the colours are close, and the
descriptors of the input around `p` with the stored colours as references are close to the stored ones. For one channel
the thresholds are half of the colour threshold and the descriptor threshold; for three, three times the thresholds in
total and half of that in each channel. -/
def Matches (g : Cfg) (inp : GlImg) (p : Nat × Nat) (col desc : Nat → W) : Prop :=
  ∃ w : Nat → W,
    (∀ c, IsPattern (fun dx dy => inp (p.1 + dx) (p.2 + dy) c) ((col c).setWidth 8) (g.lut ((col c).setWidth 8)) (w c)) ∧
    if g.d.ch = 4 then
      (∀ c < 3, dist (inp p.1 p.2 c).toNat (col c).toNat ≤ 3 * g.colThr / 2 ∧ differing (w c) (desc c) ≤ 3 * g.descThr / 2) ∧
      ∑ c ∈ Finset.range 3, dist (inp p.1 p.2 c).toNat (col c).toNat ≤ 3 * g.colThr ∧
      ∑ c ∈ Finset.range 3, differing (w c) (desc c) ≤ 3 * g.descThr
    else dist (inp p.1 p.2 0).toNat (col 0).toNat ≤ g.colThr / 2 ∧ differing (w 0) (desc 0) ≤ g.descThr

open Classical in
/-- How many samples of the pixel with index `idx` match the input at `p`. -/
noncomputable def matching (g : Cfg) (inp : GlImg) (p : Nat × Nat) (b : Buf) (idx : Nat) : Nat :=
  ((Finset.range g.d.n).filter fun s => Matches g inp p (fun c => b (glColor g.d idx s c)) fun c => b (glDesc g.d idx s c)).card

/-- Index of a pixel (x, y). -/
def idxOf (d : Dim) (q : Nat × Nat) : Nat := q.2 * d.cols + q.1

/-- The two pixels are the same or neighbours. -/
def Adjacent (p q : Nat × Nat) : Prop := dist p.1 q.1 ≤ 1 ∧ dist p.2 q.2 ≤ 1

/-- The region of interest keeps away from the border of the frame by `m` pixels. -/
def RoiInner (m : Nat) (d : Dim) (roi : Int → Int → BitVec 8) : Prop :=
  ∀ x y : Int, roi x y ≠ 0 → m ≤ x ∧ x < (d.cols : Int) - m ∧ m ≤ y ∧ y < (d.rows : Int) - m

/-- What is stored for channel `c` of the input at a pixel: byte `c` of the colour (0 for the alpha channel). -/
def colorAt (inp : GlImg) (p : Nat × Nat) (c : Nat) : W := if c = 3 then 0 else (inp p.1 p.2 c).setWidth 32

/-- `w` is what should be stored as descriptor of channel `c` of the input at a pixel. -/
def DescAt (lut : BitVec 8 → BitVec 8) (inp : GlImg) (p : Nat × Nat) (c : Nat) (w : W) : Prop :=
  if c = 3 then w = 0 else IsPattern (fun dx dy => inp (p.1 + dx) (p.2 + dy) c) (inp p.1 p.2 c) (lut (inp p.1 p.2 c)) w

/-- All samples of pixel `q` have colour `v` and an empty descriptor (single-channel images). -/
def AllSamples (d : Dim) (b : Buf) (q : Nat × Nat) (v : BitVec 8) : Prop :=
  ∀ s < d.n, b (glColor d (idxOf d q) s 0) = v.setWidth 32 ∧ b (glDesc d (idxOf d q) s 0) = 0

/-- The channel of the `cv::Mat` for channel `c` of the shader: blue and red are swapped. -/
def swapped (ch c : Nat) : Nat := if ch = 1 then c else match c with | 0 => 2 | 2 => 0 | c => c

/-- Position (x, y) is inside the frame by two pixels and, if pixel `q` is too, in the 7x7 window around `q`. -/
def Candidate (d : Dim) (q : Nat × Nat) (x y : Nat) : Prop :=
  (2 ≤ x ∧ x + 2 < d.cols ∧ 2 ≤ y ∧ y + 2 < d.rows) ∧
  (2 ≤ q.1 ∧ q.1 + 2 < d.cols ∧ 2 ≤ q.2 ∧ q.2 + 2 < d.rows → dist x q.1 ≤ 3 ∧ dist y q.2 ≤ 3)

/-- Sample `s` of pixel `q` has the colour of the image at (x, y). -/
def ColorFrom (d : Dim) (img : HostImg) (b : Buf) (q : Nat × Nat) (s x y : Nat) : Prop :=
  ∀ c < d.ch, b (glColor d (idxOf d q) s c) = (img y x (swapped d.ch c)).setWidth 32

/-- Channel `c` of sample `s` of pixel `q` has the descriptor of the image at (x, y). -/
def DescFrom (lut : BitVec 8 → BitVec 8) (d : Dim) (img : HostImg) (b : Buf) (q : Nat × Nat) (s x y c : Nat) : Prop :=
  IsPattern (fun dx dy => img ((y : Int) + dy).toNat ((x : Int) + dx).toNat (swapped d.ch c)) (img y x (swapped d.ch c))
    (lut (img y x (swapped d.ch c))) (b (glDesc d (idxOf d q) s c))

/-- The frame has value `v` everywhere (single-channel images). -/
def Uniform (d : Dim) (inp : GlImg) (v : BitVec 8) : Prop :=
  ∀ x y : Int, 0 ≤ x → x < d.cols → 0 ≤ y → y < d.rows → inp x y 0 = v

end Litiv.GLLobster.Spec
