import Verif.Model.GMM

/-!
# Model of the foreground/background mixture functions of modules/imgproc/include/litiv/imgproc.hpp

The input image is a function from the flat pixel index and the channel, the mask and the region of interest are predicates on pixel indices (a missing
region is the constant `true`), `n` is the number of pixels. `cv::kmeans` is a parameter that sees the samples and the number of
clusters, `none` is an exception. The conversions between `uchar`, `float` and `double` are exact.
-/

namespace Litiv.GMMSeg

open Litiv.GMM

/-- The type of `cv::kmeans`: samples, cluster count, labels. -/
abbrev Kmeans : Type := List (List ℝ) → Nat → Option (Nat → Nat)

/-- A buffer of samples and the number of samples in it (`s_aBGSamples`, `nBGSamples`), `imgproc.hpp:219-220`. -/
structure Buf where
  /-- the cells -/
  cells : Nat → ℝ
  /-- number of samples -/
  count : Nat

/-- `std::transform` of a pixel to the next free samples of the buffer, `imgproc.hpp:229,231`. -/
def Buf.push (D : Nat) (b : Buf) (px : Nat → ℝ) : Buf :=
  ⟨(List.range D).foldl (fun m d => put m (b.count * D + d) (px d)) b.cells, b.count + 1⟩

/-- The loop that separates the pixels, `imgproc.hpp:225-233`; the state is the background and the foreground buffer. -/
def separate (D : Nat) (img : Nat → Nat → ℝ) (mask roi : Nat → Bool) (n : Nat) (bg fg : Nat → ℝ) : Buf × Buf :=
  (List.range n).foldl (fun s k =>
    if roi k then (if mask k then (s.1, s.2.push D (img k)) else (s.1.push D (img k), s.2)) else s) (⟨bg, 0⟩, ⟨fg, 0⟩)

/-- Training of one mixture, `imgproc.hpp:236-245` (background) and `imgproc.hpp:246-255` (foreground). -/
noncomputable def train (kmeans : Kmeans) (C D : Nat) (g : Gmm) (b : Buf) : Option Gmm :=
  let g := initLearning C D g
  if b.count > D then
    (kmeans ((List.range b.count).map fun i => (List.range D).map fun d => b.cells (i * D + d)) C).bind fun labels =>
      endLearning luEps C D ((List.range b.count).foldl (fun g i => addSample D g (labels i, fun d => b.cells (i * D + d))) g)
  else endLearning luEps C D g

/-- `initGaussianMixtureParams`, `imgproc.hpp:210-256`; `bg0` and `fg0` are the previous contents of the static buffers. -/
noncomputable def initParams (kmeans : Kmeans) (C1 C2 D : Nat) (img : Nat → Nat → ℝ) (mask roi : Nat → Bool) (n : Nat) (bg0 fg0 : Nat → ℝ)
    (gb gf : Gmm) : Option (Gmm × Gmm) :=
  let s := separate D img mask roi n bg0 fg0
  (train kmeans C1 D gb s.1).bind fun gb' => (train kmeans C2 D gf s.2).map fun gf' => (gb', gf')

/-- `assignGaussianMixtureComponents`, `imgproc.hpp:258-278`; `old` is the content of the output after `create`. -/
noncomputable def assign (C1 C2 D : Nat) (img : Nat → Nat → ℝ) (mask roi : Nat → Bool) (n : Nat) (gb gf : Gmm) (old : Nat → Int) : Nat → Int :=
  (List.range n).foldl (fun m k =>
    if roi k then (fun j => if j = k then ((if mask k then best C2 D gf (img k) else best C1 D gb (img k) : Nat) : Int) else m j) else m) old

/-- The loop of `learnGaussianMixtureParams`, `imgproc.hpp:294-307`; the state is the background and the foreground mixture. -/
noncomputable def relearnLoop (C1 C2 D : Nat) (img : Nat → Nat → ℝ) (mask roi : Nat → Bool) (n : Nat) (labels : Nat → Int) (gb gf : Gmm) : Gmm × Gmm :=
  (List.range n).foldl (fun s k =>
    if roi k then
      let l := labels k
      if 0 ≤ l ∧ l < (if mask k then C2 else C1 : Nat) then
        if mask k then (s.1, addSample D s.2 (l.toNat, img k)) else (addSample D s.1 (l.toNat, img k), s.2)
      else s
    else s) (gb, gf)

/-- `learnGaussianMixtureParams`, `imgproc.hpp:280-310`. -/
noncomputable def relearn (C1 C2 D : Nat) (img : Nat → Nat → ℝ) (mask roi : Nat → Bool) (n : Nat) (labels : Nat → Int) (gb gf : Gmm) :
    Option (Gmm × Gmm) :=
  let s := relearnLoop C1 C2 D img mask roi n labels (initLearning C1 D gb) (initLearning C2 D gf)
  (endLearning luEps C1 D s.1).bind fun gb' => (endLearning luEps C2 D s.2).map fun gf' => (gb', gf')

end Litiv.GMMSeg
