import Verif.Model.LBSP
import Verif.Model.Sampling
import Verif.Model.GLPreload
import Mathlib.Data.Rat.Floor

/-!
# Model of the GPU LOBSTER, `modules/video/src/BackgroundSubtractorLOBSTER.cpp:32-391`

Host side: buffer layout, `refreshModel` and the background images. Shader side: the main stage (its post-processing
stage is in `Verif/Model/GLPreload.lean`), with the default macros (`BGSLOBSTER_GLSL_USE_BASIC_IMPL` 0).

The buffer is an array of 32-bit words. An invocation is a program of atomic word loads and stores; the invocations of a
dispatch run in any interleaving. The random numbers of an invocation are a stream (each invocation has its own TinyMT
state). The uploaded input has its channels in the order red, green, blue (`GL_BGRA_INTEGER`, `opengl.hpp:306`), the
`cv::Mat` in the order blue, green, red, alpha. Loads outside of an image give 0. The descriptor of the shader is that of
`Verif/Model/LBSP.lean` on the image; that the preloaded window holds the image is C157. Images of three channels, which
the shader does not support, are not considered.
-/

namespace Litiv.GLLobster

/-- A word of the model buffer. -/
abbrev W := BitVec 32

/-- The model buffer. -/
abbrev Buf := Nat → W

/-- Frame size, channels and number of samples. -/
structure Dim where
  cols : Nat
  rows : Nat
  ch : Nat
  n : Nat

/-! ### Layout -/

/-- `m_nPxModelSize`, BackgroundSubtractorLOBSTER.cpp:112. -/
def pxSize (d : Dim) : Nat := d.ch * d.n * 2

/-- `m_nPxModelPadding`, BackgroundSubtractorLOBSTER.cpp:113. -/
def padding (d : Dim) : Nat := if pxSize d % 4 ≠ 0 then 4 - pxSize d % 4 else 0

/-- `m_nColStepSize`, BackgroundSubtractorLOBSTER.cpp:114. -/
def colStep (d : Dim) : Nat := pxSize d + padding d

/-- `m_nRowStepSize`, BackgroundSubtractorLOBSTER.cpp:115. -/
def rowStep (d : Dim) : Nat := colStep d * d.cols

/-- `m_nBGModelSize`, BackgroundSubtractorLOBSTER.cpp:116. -/
def modelSize (d : Dim) : Nat := rowStep d * d.rows

/-- Host offset of a colour word, BackgroundSubtractorLOBSTER.cpp:58, 61, 71, 74. -/
def hostColor (d : Dim) (row col s c : Nat) : Nat := c + (s * d.ch + (col * colStep d + row * rowStep d))

/-- Host offset of a descriptor word, BackgroundSubtractorLOBSTER.cpp:72, 75. -/
def hostDesc (d : Dim) (row col s c : Nat) : Nat := c + (s * d.ch + (col * colStep d + row * rowStep d) + d.n * d.ch)

/-- Size and alignment in words of the sample type of the shader, `uvec4` or `uint` (std430). -/
def elem (d : Dim) : Nat := if d.ch = 4 then 4 else 1

/-- Size of `PxModel` in words: two arrays and the padding, rounded up to the alignment (std430),
BackgroundSubtractorLOBSTER.cpp:174-179. -/
def structSize (d : Dim) : Nat := (elem d * d.n + elem d * d.n + padding d + (elem d - 1)) / elem d * elem d

/-- Offset of a component of `aoPxModels[idx].color_samples[s]`. -/
def glColor (d : Dim) (idx s c : Nat) : Nat := idx * structSize d + s * elem d + c

/-- Offset of a component of `aoPxModels[idx].lbsp_samples[s]`. -/
def glDesc (d : Dim) (idx s c : Nat) : Nat := idx * structSize d + (elem d * d.n + s * elem d) + c

/-! ### Host: refresh of the model -/

/-- `nSampleChannelIdx`, BackgroundSubtractorLOBSTER.cpp:76, 347. -/
def srcChan (d : Dim) (c : Nat) : Nat := if c = 3 ∨ d.ch = 1 then c else 2 - c

/-- A host image: row, column, channel. -/
abbrev HostImg := Nat → Nat → Nat → BitVec 8

/-- The sixteen neighbours of a pixel in a channel, `LBSP.hpp:155-168`. -/
def nbs (img : HostImg) (y x c : Nat) : Fin 16 → BitVec 8 := fun i =>
  img ((y : Int) + LBSP.offY i).toNat ((x : Int) + LBSP.offX i).toNat c

/-- The channel loop of the refresh, BackgroundSubtractorLOBSTER.cpp:73-86: the colour comes from the swapped channel, the
neighbours from the other. -/
def putSample (impl : LBSP.Impl) (lut : BitVec 8 → BitVec 8) (d : Dim) (img : HostImg) (row col s y x : Nat) (b : Buf) : Buf :=
  (List.range d.ch).foldl (fun (b : Buf) (c : Nat) =>
    let ref := img y x (srcChan d c)
    Function.update (Function.update b (hostColor d row col s c) (ref.setWidth 32)) (hostDesc d row col s c)
      ((LBSP.threshold impl (nbs img y x c) ref (lut ref)).setWidth 32)) b

/-- The test of a byte of `m_oLastFGMask`, skipped if forced; `none`: outside of the mask. -/
def unmasked (force : Bool) (fg : List (BitVec 8)) (a : Nat) : Option Bool :=
  if force then some true else fg[a]?.map fun v => v == 0

/-- One sample of one pixel, BackgroundSubtractorLOBSTER.cpp:64-88; the state is the buffer and the number of calls to
`rand()`. -/
def refreshSample (impl : LBSP.Impl) (lut : BitVec 8 → BitVec 8) (d : Dim) (img : HostImg) (fg : List (BitVec 8)) (force : Bool)
    (rnd : Nat → Nat) (row col s : Nat) (st : Buf × Nat) : Option (Buf × Nat) :=
  let q := Sampling.samplePosition7 (rnd st.2) (col, row) ((5 / 2 : Nat) : Int) d.cols d.rows
  (unmasked force fg (q.1.toNat + q.2.toNat * d.cols)).map fun ok =>
    (if ok then putSample impl lut d img row col (s % d.n) q.2.toNat q.1.toNat st.1 else st.1, st.2 + 1)

/-- One pixel, BackgroundSubtractorLOBSTER.cpp:57-90: the row offset in the mask uses the frame height. -/
def refreshPixel (impl : LBSP.Impl) (lut : BitVec 8 → BitVec 8) (d : Dim) (img : HostImg) (fg : List (BitVec 8)) (force : Bool)
    (rnd : Nat → Nat) (start cnt : Nat) (st : Buf × Nat) (p : Nat × Nat) : Option (Buf × Nat) :=
  match unmasked force fg (p.2 + p.1 * d.rows) with
  | none => none
  | some false => some st
  | some true => (List.range cnt).foldlM (fun st (i : Nat) => refreshSample impl lut d img fg force rnd p.1 p.2 (start + i) st) st

/-- The two loops over the frame, pixels as (row, column). -/
def raster (d : Dim) : List (Nat × Nat) :=
  ((List.range d.rows).map fun (r : Nat) => (List.range d.cols).map fun (c : Nat) => (r, c)).flatten

/-- `refreshModel`, BackgroundSubtractorLOBSTER.cpp:45-97. `frac`: `none` for a full refresh, `some cnt` for `cnt` samples
from a random one on. -/
def refresh (impl : LBSP.Impl) (lut : BitVec 8 → BitVec 8) (d : Dim) (img : HostImg) (fg : List (BitVec 8)) (force : Bool)
    (rnd : Nat → Nat) (frac : Option Nat) (b : Buf) : Option Buf :=
  let (start, cnt, k) := match frac with
    | none => (0, d.n, 0)
    | some cnt => (rnd 0 % d.n, cnt, 1)
  ((raster d).foldlM (refreshPixel impl lut d img fg force rnd start cnt) (b, k)).map (·.1)

/-! ### Host: background images -/

/-- Conversion of a non-negative float to an unsigned integer of `bits` bits; `none`: undefined. -/
def castTo (bits : Nat) (q : ℚ) : Option Nat := if ⌊q⌋.toNat < 2 ^ bits then some ⌊q⌋.toNat else none

/-- The sum and quotient of one channel of one pixel, BackgroundSubtractorLOBSTER.cpp:337-349, 373-385, for the colours
(`hostColor`) or the descriptors (`hostDesc`). -/
def meanOf (rd : ℚ → ℚ) (d : Dim) (b : Buf) (addr : Nat → Nat → Nat) (c : Nat) : ℚ :=
  rd ((List.range d.n).foldl (fun (a : ℚ) (s : Nat) => rd (a + rd ((b (addr s c)).toNat : ℚ))) 0 / d.n)

/-- One pixel of `getBackgroundImage` or `getBackgroundDescriptorsImage`: channel `c` of the buffer goes to channel
`nSampleChannelIdx` of the image. -/
def bgPixel (rd : ℚ → ℚ) (bits : Nat) (d : Dim) (b : Buf) (addr : Nat → Nat → Nat) : Option (Nat → Nat) :=
  (List.range d.ch).foldlM (fun (o : Nat → Nat) (c : Nat) =>
    (castTo bits (meanOf rd d b addr c)).map fun v => Function.update o (srcChan d c) v) fun _ => 0

/-- `getBackgroundImage`, BackgroundSubtractorLOBSTER.cpp:321-352, at a pixel. -/
def bgImage (rd : ℚ → ℚ) (d : Dim) (b : Buf) (row col : Nat) : Option (Nat → Nat) := bgPixel rd 8 d b (hostColor d row col)

/-- `getBackgroundDescriptorsImage`, BackgroundSubtractorLOBSTER.cpp:354-391, at a pixel. -/
def bgDescs (rd : ℚ → ℚ) (d : Dim) (b : Buf) (row col : Nat) : Option (Nat → Nat) := bgPixel rd 16 d b (hostDesc d row col)

/-! ### Shader -/

/-- What an invocation has still to do. -/
inductive Prog where
  | read (a : Nat) (k : W → Prog)
  | write (a : Nat) (v : W) (k : Prog)
  | out (r : Nat)

/-- Load of consecutive words. -/
def readVec : Nat → Nat → (List W → Prog) → Prog
  | 0, _, k => k []
  | m + 1, a, k => .read a fun v => readVec m (a + 1) fun l => k (v :: l)

/-- Store of consecutive words. -/
def writeVec : List W → Nat → Prog → Prog
  | [], _, k => k
  | v :: l, a, k => .write a v (writeVec l (a + 1) k)

/-- The values put into the shader source. -/
structure Cfg where
  d : Dim
  colThr : Nat
  descThr : Nat
  req : Nat
  rate : Nat
  lut : BitVec 8 → BitVec 8

/-- The input image: x, y, channel (red, green, blue). -/
abbrev GlImg := Int → Int → Nat → BitVec 8

/-- Number of components read from a sample (`.rgb` of a `uvec4`, or the `uint`). -/
def comps (d : Dim) : Nat := if d.ch = 4 then 3 else 1

/-- `lbsp` of a channel at a pixel with reference `ref`, threshold from `anLBSPThresLUT`. -/
def lbsp (g : Cfg) (inp : GlImg) (p : Nat × Nat) (c : Nat) (ref : BitVec 8) : W :=
  LBSP.glslDesc (fun dx dy => inp (p.1 + dx) (p.2 + dy) c) ref (g.lut ref)

/-- `absdiff`, math.hpp:772-777. -/
def absdiff (a b : W) : Nat := (a.toInt - b.toInt).natAbs

/-- `hdist`, math.hpp:803-805. -/
def hdist (a b : W) : Nat := (List.range 32).countP fun i => (a ^^^ b).getLsbD i

/-- The colour distance of component `c` to a stored sample. -/
def colDist (inp : GlImg) (p : Nat × Nat) (col : List W) (c : Nat) : Nat := absdiff ((inp p.1 p.2 c).setWidth 32) (col.getD c 0)

/-- The descriptor distance of component `c` to a stored sample, the stored colour being the reference; the colour words
are bytes (`stored_bytes`). -/
def descDist (g : Cfg) (inp : GlImg) (p : Nat × Nat) (col desc : List W) (c : Nat) : Nat :=
  hdist (lbsp g inp p c ((col.getD c 0).setWidth 8)) (desc.getD c 0)

/-- The test of a sample, BackgroundSubtractorLOBSTER.cpp:217-234. -/
def matchesSample (g : Cfg) (inp : GlImg) (p : Nat × Nat) (col desc : List W) : Bool :=
  if g.d.ch = 4 then
    (List.range 3).all (fun c => decide (colDist inp p col c ≤ g.colThr * 3 / 2)) &&
    decide (colDist inp p col 0 + colDist inp p col 1 + colDist inp p col 2 ≤ g.colThr * 3) &&
    (List.range 3).all (fun c => decide (descDist g inp p col desc c ≤ g.descThr * 3 / 2)) &&
    decide (descDist g inp p col desc 0 + descDist g inp p col desc 1 + descDist g inp p col desc 2 ≤ g.descThr * 3)
  else decide (colDist inp p col 0 ≤ g.colThr / 2) && decide (descDist g inp p col desc 0 ≤ g.descThr)

/-- The sample loop with its early exit, BackgroundSubtractorLOBSTER.cpp:208-240; `m` samples remain. -/
def scan (g : Cfg) (inp : GlImg) (p : Nat × Nat) (idx : Nat) : Nat → Nat → Nat → (Nat → Prog) → Prog
  | 0, _, good, k => k good
  | m + 1, s, good, k =>
    readVec (comps g.d) (glColor g.d idx s 0) fun col => readVec (comps g.d) (glDesc g.d idx s 0) fun desc =>
      let good' := if matchesSample g inp p col desc then good + 1 else good
      if good' ≥ g.req then k good' else scan g inp p idx m (s + 1) good' k

/-- The colour stored for the input pixel (`uvec4(vInputColor,0)` or `vInputColor.r`). -/
def colorWords (d : Dim) (inp : GlImg) (p : Nat × Nat) : List W :=
  (List.range (comps d)).map (fun (c : Nat) => (inp p.1 p.2 c).setWidth 32) ++ (if d.ch = 4 then [0] else [])

/-- The descriptor stored for the input pixel. -/
def descWords (g : Cfg) (inp : GlImg) (p : Nat × Nat) : List W :=
  (List.range (comps g.d)).map (fun (c : Nat) => lbsp g inp p c (inp p.1 p.2 c)) ++ (if g.d.ch = 4 then [0] else [])

/-- The two stores of an update, BackgroundSubtractorLOBSTER.cpp:249-250, 256-257, with a random number each. -/
def resample (g : Cfg) (inp : GlImg) (p : Nat × Nat) (idx : Nat) (r1 r2 : W) (k : Prog) : Prog :=
  writeVec (colorWords g.d inp p) (glColor g.d idx (r1.toNat % g.d.n) 0)
    (writeVec (descWords g inp p) (glDesc g.d idx (r2.toNat % g.d.n) 0) k)

/-- `nNeighbPxModelIdx`, BackgroundSubtractorLOBSTER.cpp:255 (unsigned 32-bit arithmetic). -/
def nbIdx (d : Dim) (v : Int × Int) : Nat := (BitVec.ofInt 32 v.2 * BitVec.ofNat 32 d.cols + BitVec.ofInt 32 v.1).toNat

/-- The neighbour update, BackgroundSubtractorLOBSTER.cpp:253-259, from the `k`-th random number on. -/
def spread (g : Cfg) (inp : GlImg) (rnd : Nat → W) (p : Nat × Nat) (k : Nat) : Prog :=
  if (rnd k).toNat % g.rate = 0 then
    resample g inp p (nbIdx g.d (GLPreload.randNeighbor 0 g.d.cols g.d.rows (p.1, p.2) (rnd (k + 1)))) (rnd (k + 2)) (rnd (k + 3)) (.out 0)
  else .out 0

/-- `main` of the shader, BackgroundSubtractorLOBSTER.cpp:184-293, for the invocation at pixel `p` = (x, y); the result is
the value stored to the output image. -/
def invocation (g : Cfg) (inp : GlImg) (roi : Int → Int → BitVec 8) (rnd : Nat → W) (p : Nat × Nat) : Prog :=
  if roi p.1 p.2 = 0 then .out 0
  else
    scan g inp p (p.2 * g.d.cols + p.1) g.d.n 0 0 fun good =>
      if good < g.req then .out 255
      else if (rnd 0).toNat % g.rate = 0 then
        resample g inp p (p.2 * g.d.cols + p.1) (rnd 1) (rnd 2) (spread g inp rnd p 3)
      else spread g inp rnd p 1

/-- The buffer and the remaining programs of all invocations. -/
structure Sys where
  mem : Buf
  pc : Nat × Nat → Prog

/-- One atomic action of an invocation. -/
def step (s : Sys) (i : Nat × Nat) : Sys :=
  match s.pc i with
  | .read a k => { s with pc := Function.update s.pc i (k (s.mem a)) }
  | .write a v k => ⟨Function.update s.mem a v, Function.update s.pc i k⟩
  | .out _ => s

/-- A dispatch of the main stage, in the order of a schedule. -/
def dispatch (g : Cfg) (inp : GlImg) (roi : Int → Int → BitVec 8) (rnd : Nat × Nat → Nat → W) (b : Buf)
    (sched : List (Nat × Nat)) : Sys :=
  sched.foldl step ⟨b, fun p => invocation g inp roi (rnd p) p⟩

/-- Successive frames, one dispatch each: input, random numbers and schedule. -/
def session (g : Cfg) (roi : Int → Int → BitVec 8) (b : Buf)
    (frames : List (GlImg × (Nat × Nat → Nat → W) × List (Nat × Nat))) : Buf :=
  frames.foldl (fun b f => (dispatch g f.1 roi f.2.1 b f.2.2).mem) b

/-- A program running alone: its result and the buffer after it. -/
def exec : Prog → Buf → Nat × Buf
  | .read a k, b => exec (k (b a)) b
  | .write a v k, b => exec k (Function.update b a v)
  | .out r, b => (r, b)

end Litiv.GLLobster
