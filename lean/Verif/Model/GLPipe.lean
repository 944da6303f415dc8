import Mathlib.Logic.Function.Basic

/-!
# Model of the GPU image pipeline, `modules/utils/src/opengl-imgproc.cpp:104-398`, and of its data consumer,
`modules/datasets/include/litiv/datasets/utils.hpp:1097-1201`

Textures and pixel buffers hold values of arbitrary types; the shaders of a pipeline are an arbitrary function with a
state (`σ`, the storage buffers). `layers` is `GLUTILS_IMGPROC_DEFAULT_LAYER_COUNT`, `pboIn` and `pboOut` are
`GLUTILS_IMGPROC_USE_DOUBLE_PBO_INPUT` and `_OUTPUT` (2, 0 and 1 in the code). OpenGL is taken by its contract; sizes and
types of images, sampler bindings, debug images, display and timers are left out. The pipeline has an input and an output.
-/

namespace Litiv.GLPipe

/-- The build-time options, opengl-imgproc.hpp:23-27. -/
structure Opts where
  layers : Nat
  pboIn : Bool
  pboOut : Bool

/-- What the shaders see in one call: the frame number, the input layers `nCurrLayerIdx` and `nLastLayerIdx`, the output
layer `nLastLayerIdx`, and the contents of the output layer which they will overwrite. -/
structure View (I O : Type) where
  frame : Nat
  cur : I
  last : I
  lastOut : O
  old : O

/-- The shaders: all compute stages of one call. -/
abbrev Shader (σ I O : Type) := σ → View I O → σ × O

/-- The members of `GLImageProcAlgo`, opengl-imgproc.hpp:111-129; `none` in an output buffer: never filled. -/
structure Pipe (σ I O : Type) where
  next : Nat
  curr : Nat
  last : Nat
  currPBO : Nat
  nextPBO : Nat
  inL : Nat → I
  outL : Nat → O
  inP : Nat → I
  outP : Nat → Option O
  lastOut : Option O
  frame : Nat
  lastIdx : Nat
  fetching : Bool
  st : σ

variable {σ τ I O G : Type}

/-- The constructor, opengl-imgproc.cpp:40-52 (`size_t(-1)` for the output index), with textures of arbitrary contents. -/
def create (o : Opts) (st : σ) (inL : Nat → I) (outL : Nat → O) : Pipe σ I O :=
  ⟨1, 0, o.layers - 1, 0, 1, inL, outL, inL, fun _ => none, none, 2 ^ 64 - 1, 2 ^ 64 - 1, false, st⟩

/-- `initialize_gl`, opengl-imgproc.cpp:104-200: the first input goes to the current and the next layer. -/
def initGL (p : Pipe σ I O) (init : I) : Pipe σ I O :=
  { p with
    inL := Function.update (Function.update p.inL p.curr init) p.next init
    inP := fun _ => init
    outP := fun _ => none
    lastOut := none
    frame := 0 }

/-- `setOutputFetching`, opengl-imgproc.hpp:43. -/
def setFetching (b : Bool) (p : Pipe σ I O) : Pipe σ I O := { p with fetching := b }

/-- Advance of the layers and buffers, opengl-imgproc.cpp:205-209. -/
def rotate (o : Opts) (p : Pipe σ I O) : Pipe σ I O :=
  { p with
    last := p.curr
    curr := p.next
    next := (p.next + 1) % o.layers
    currPBO := p.nextPBO
    nextPBO := (p.nextPBO + 1) % 2 }

/-- Upload of the next input before the dispatch, opengl-imgproc.cpp:219-220, 233-237, 252-256; `none`: empty image. -/
def upload (o : Opts) (x : Option I) (p : Pipe σ I O) : Pipe σ I O :=
  match x with
  | none => p
  | some x =>
    if o.pboIn then { p with inP := Function.update p.inP p.nextPBO x }
    else { p with inL := Function.update p.inL p.next x }

/-- The images bound for the dispatch, opengl-imgproc.cpp:257-264, 275-277. -/
def viewOf (p : Pipe σ I O) : View I O := ⟨p.frame, p.inL p.curr, p.inL p.last, p.outL p.last, p.outL p.curr⟩

/-- The dispatch of all stages, opengl-imgproc.cpp:273-279, on the bound layers. -/
def runShader (f : Shader σ I O) (p : Pipe σ I O) : Pipe σ I O :=
  let r := f p.st (viewOf p)
  { p with st := r.1, outL := Function.update p.outL p.curr r.2 }

/-- What the shaders see in a call of `apply_gl`. -/
def seen (o : Opts) (x : Option I) (p : Pipe σ I O) : View I O := viewOf (upload o x (rotate o p))

/-- Transfer from the input buffer to the next layer after the dispatch, opengl-imgproc.cpp:282-291. -/
def transfer (o : Opts) (p : Pipe σ I O) : Pipe σ I O :=
  if o.pboIn then { p with inL := Function.update p.inL p.next (p.inP p.nextPBO) } else p

/-- Fetching of the output, opengl-imgproc.cpp:317-341. -/
def fetchStep (o : Opts) (p : Pipe σ I O) : Pipe σ I O :=
  if p.fetching then
    if o.pboOut then { p with lastIdx := p.frame, outP := Function.update p.outP p.nextPBO (some (p.outL p.curr)) }
    else { p with lastIdx := p.frame, lastOut := some (p.outL p.curr) }
  else p

/-- `apply_gl`, opengl-imgproc.cpp:202-380. -/
def applyGL (o : Opts) (f : Shader σ I O) (x : Option I) (p : Pipe σ I O) : Pipe σ I O :=
  let p := fetchStep o (transfer o (runShader f (upload o x (rotate o p))))
  { p with frame := p.frame + 1 }

/-- `fetchLastOutput`, opengl-imgproc.cpp:382-390; outer `none`: the assertion fails. -/
def fetchLast (o : Opts) (p : Pipe σ I O) : Option (Option O × Nat) :=
  if p.fetching then some (if o.pboOut then p.outP p.nextPBO else p.lastOut, p.lastIdx) else none

/-- `getLatestForegroundMask` and `getLatestEdgeMask`, BackgroundSubtractionUtils.cpp:165-173 and
EdgeDetectionUtils.cpp:25-34; `zero` is the empty mask. -/
def latestMask (o : Opts) (zero : O) (p : Pipe σ I O) : Pipe σ I O × Option O :=
  let p := if p.fetching then p else setFetching true p
  (p, if p.frame > 0 then ((fetchLast o p).map (·.1)).getD none else some zero)

/-- `apply_gl(oNextImage,oLastMask,…)`, BackgroundSubtractionUtils.cpp:198-201, EdgeDetectionUtils.cpp:45-48. -/
def applyMask (o : Opts) (f : Shader σ I O) (zero : O) (x : I) (p : Pipe σ I O) : Pipe σ I O × Option O :=
  latestMask o zero (applyGL o f (some x) p)

/-- Calls on a pipeline. -/
inductive Op (I : Type) where
  | init (x : I)
  | apply (x : Option I)
  | fetching (b : Bool)
  | mask

/-- A sequence of calls. -/
def runOps (o : Opts) (f : Shader σ I O) (zero : O) (ops : List (Op I)) (p : Pipe σ I O) : Pipe σ I O :=
  ops.foldl (fun p op => match op with
    | .init x => initGL p x
    | .apply x => applyGL o f x p
    | .fetching b => setFetching b p
    | .mask => (latestMask o zero p).1) p

/-- Calls of `apply_gl`, each followed by `fetchLastOutput`. -/
def fetches (o : Opts) (f : Shader σ I O) : List (Option I) → Pipe σ I O → List (Option (Option O × Nat))
  | [], _ => []
  | x :: xs, p => fetchLast o (applyGL o f x p) :: fetches o f xs (applyGL o f x p)

/-- Several calls of `apply`; the masks returned. -/
def applyMasks (o : Opts) (f : Shader σ I O) (zero : O) : List I → Pipe σ I O → Pipe σ I O × List (Option O)
  | [], p => (p, [])
  | x :: xs, p =>
    let (p, m) := applyMask o f zero x p
    let (p, ms) := applyMasks o f zero xs p
    (p, m :: ms)

/-! ### The data consumer -/

/-- A work batch and its options: packet counts, `isSavingOutput`, a display helper, `isEvaluating`,
`DATASETUTILS_VALIDATE_ASYNC_EVALUATORS`. -/
structure Batch (I G : Type) where
  count : Nat
  gtCount : Nat
  input : Nat → I
  gt : Nat → G
  saving : Bool
  display : Bool
  evaluating : Bool
  validate : Bool

/-- Is `m_lDataCallback` set? eval.hpp:284-288. -/
def Batch.callback (w : Batch I G) : Bool := w.evaluating && w.validate

/-- `getInput`; `none`: no such packet. -/
def Batch.getInput (w : Batch I G) (i : Nat) : Option I := if i < w.count then some (w.input i) else none

/-- `getGT`. -/
def Batch.getGT (w : Batch I G) (i : Nat) : Option G := if i < w.gtCount then some (w.gt i) else none

/-- The evaluation algorithm: its own layers for the ground truth and a state (the counters); the output is that of the
parent. opengl-imgproc.cpp:592-674. -/
structure Evaluator (τ G : Type) where
  next : Nat
  curr : Nat
  gtL : Nat → G
  frame : Nat
  st : τ

/-- The evaluation of one frame: state, frame number, ground truth, output. -/
abbrev EvalFn (τ G O : Type) := τ → Nat → G → O → τ

/-- `GLImageProcEvaluatorAlgo::apply_gl(oNextGT)`, opengl-imgproc.cpp:681-782 without input buffers (the counters are
modelled in `Verif/Model/GLEval.lean`); `none`: more frames than announced. -/
def evalGL (o : Opts) (h : EvalFn τ G O) (tot : Nat) (gt : G) (p : Pipe σ I O) (e : Evaluator τ G) : Option (Evaluator τ G) :=
  if e.frame < tot then
    let curr := e.next
    let next := (e.next + 1) % o.layers
    let gtL := Function.update e.gtL next gt
    some ⟨next, curr, gtL, e.frame + 1, h e.st e.frame (gtL curr) (p.outL p.curr)⟩
  else none

/-- The members of `IAsyncDataConsumer_`, utils.hpp:987-994, and a record of its effects: outputs saved, packets counted
and calls of the callback (input, output, ground truth, index). -/
structure Consumer (σ τ I O G : Type) where
  pipe : Pipe σ I O
  eval : Evaluator τ G
  last : Nat
  curr : Nat
  next : Nat
  lastIn : I
  currIn : I
  nextIn : I
  lastGT : G
  currGT : G
  nextGT : G
  saved : List (Nat × Option O)
  counted : List Nat
  called : List (I × Option O × G × Nat)

/-- The first two ground truth images, utils.hpp:1137-1144. -/
def initGT (w : Batch I G) (g0 : G) : Option (G × G) :=
  if w.evaluating then do
    let a ← w.getGT 0
    let b ← w.getGT 1
    pure (a, b)
  else some (g0, g0)

/-- `initialize_gl` of a new consumer, utils.hpp:1097-1152 and eval.hpp:279-295; `g0`: the ground truth images of a batch which
does not evaluate. -/
def consumerInit (w : Batch I G) (p : Pipe σ I O) (e0 : Evaluator τ G) (g0 : G) : Option (Consumer σ τ I O G) :=
  if w.gtCount > 1 then do
    let i0 ← w.getInput 0
    let i1 ← w.getInput 1
    let gg ← initGT w g0
    let p := if w.saving || w.display then setFetching true p else p
    let p := initGL p i0
    let p := if w.callback then setFetching true p else p
    let e := { e0 with next := 1, curr := 0, frame := 0, gtL := Function.update (Function.update e0.gtL 0 gg.1) 1 gg.1 }
    pure ⟨p, e, 0, 0, 1, i0, i0, i1, gg.1, gg.1, gg.2, [], [], []⟩
  else none

/-- `pre_apply_gl`, utils.hpp:1154-1164. -/
def preApply (w : Batch I G) (n : Nat) (c : Consumer σ τ I O G) : Option (Consumer σ τ I O G) :=
  if n ≠ c.next then do
    let x ← w.getInput n
    let c := { c with nextIn := x }
    if w.evaluating then do
      let g ← w.getGT n
      pure { c with nextGT := g }
    else pure c
  else pure c

/-- The copies of the current images, utils.hpp:1171-1178. -/
def shift (w : Batch I G) (c : Consumer σ τ I O G) : Consumer σ τ I O G :=
  if w.display || w.callback then
    let c := { c with lastIn := c.currIn, currIn := c.nextIn }
    if w.evaluating then { c with lastGT := c.currGT, currGT := c.nextGT } else c
  else c

/-- Loading of the packet after the next, utils.hpp:1179-1183. -/
def loadNext (w : Batch I G) (c : Consumer σ τ I O G) : Option (Consumer σ τ I O G) :=
  if c.next < w.count then do
    let x ← w.getInput c.next
    let c := { c with nextIn := x }
    if w.evaluating then do
      let g ← w.getGT c.next
      pure { c with nextGT := g }
    else pure c
  else pure c

/-- Results of one call, utils.hpp:1184-1199. -/
def results (o : Opts) (w : Batch I G) (c : Consumer σ τ I O G) : Option (Consumer σ τ I O G) :=
  let c := { c with counted := c.counted ++ [c.last] }
  if w.saving || w.display || w.callback then do
    let (out, _) ← fetchLast o c.pipe
    let c := if w.callback then { c with called := c.called ++ [(c.lastIn, out, c.lastGT, c.last)] } else c
    pure (if w.saving then { c with saved := c.saved ++ [(c.last, out)] } else c)
  else pure c

/-- The evaluation in `post_apply_gl`, utils.hpp:1168-1169. -/
def evalStep (o : Opts) (h : EvalFn τ G O) (w : Batch I G) (c : Consumer σ τ I O G) : Option (Evaluator τ G) :=
  if w.evaluating then evalGL o h w.gtCount c.nextGT c.pipe c.eval else some c.eval

/-- `post_apply_gl`, utils.hpp:1166-1201. -/
def postApply (o : Opts) (h : EvalFn τ G O) (w : Batch I G) (n : Nat) (c : Consumer σ τ I O G) : Option (Consumer σ τ I O G) := do
  let e ← evalStep o h w c
  let c := { c with eval := e, last := c.curr, curr := n, next := n + 1 }
  let c ← loadNext w (shift w c)
  results o w c

/-- `apply_gl`, utils.hpp:1106-1114. -/
def consume (o : Opts) (f : Shader σ I O) (h : EvalFn τ G O) (w : Batch I G) (n : Nat) (c : Consumer σ τ I O G) :
    Option (Consumer σ τ I O G) := do
  let c ← preApply w n c
  postApply o h w n { c with pipe := applyGL o f (some c.nextIn) c.pipe }

/-- Several calls with the given indices of the next packets. -/
def consumeAll (o : Opts) (f : Shader σ I O) (h : EvalFn τ G O) (w : Batch I G) : List Nat → Consumer σ τ I O G → Option (Consumer σ τ I O G)
  | [], c => some c
  | n :: ns, c => do consumeAll o f h w ns (← consume o f h w n c)

end Litiv.GLPipe
