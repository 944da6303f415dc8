import Mathlib.Data.List.Basic

/-!
# Frames, passes and moves of the segmentation matcher

Model of the control flow of `SegmMatcher` (modules/imgproc/src/SegmMatcher.cpp): the sliding window of `apply`, features
computed ahead of time, `resetTemporalModel`, and the two nested loops of the inference (`infer` 3067-3470) as compiled
(FGBZ stereo moves, SOSPD resegmentation moves, continuous model updates, no full disparity resets). What the pieces
compute is left to arbitrary functions (`Oracle`); what they read and when they are called is modelled. Both cameras are
kept together: `F` is the input of a frame, `X` a set of features, `S` the disparity labels and `M` the masks of both
cameras. All images of a sequence have the same type (no reallocation, 756-760); logs, displays and the energy checks
are left out. Layers beyond the last one hold values nobody reads.
-/

namespace Litiv.SegmRun

/-- The computations of the matcher. `G` stands for the mixture models of a resegmentation pass, `H` for what the stereo
model keeps between its updates (unary costs, median labels of the shapes, occlusion maps). -/
structure Oracle (F X S M G H : Type) where
  /-- `calcFeatures`: from the previous frame if there is one (2210-2236, 2325-2345) -/
  feat : Option F → F → X
  /-- initial masks of a frame (783-784) -/
  firstMask : F → M
  /-- both initializations of the stereo labels (3097-3102, 1407-1461): from the features and masks of the latest layer
  and the labels of the previous frame if there is one -/
  initStereo : X → M → Option S → S × H
  /-- a fusion move for the n-th label in the ordering (3212-3251), and the number of labels it counts as changed -/
  stereoMove : Nat → X → H → S → S × Nat
  /-- labels of the other camera recomputed by projection (3304-3307) -/
  project : S → S
  /-- update of the resegmentation model and primal-dual move (3332, 3371-3399): label (foreground or not), whether
  temporal cliques are used (2051), models of the pass (none at its beginning), and all layers; gives the masks, the
  number of changed labels of every layer, and the models -/
  resegmMove : Bool → Bool → Option G → List F → List X → List S → List M → (Nat → M) × (Nat → Nat) × G
  /-- `calcShapeDistFeatures` (2523-2543) -/
  shapeDist : M → X → X
  /-- `calcShapeFeatures` (3437) -/
  shapeFeat : M → X → X
  /-- update of the stereo model after a pass (3442-3447) -/
  refresh : H → X → M → S → S × H
  /-- fewer than 0.01% of the labels differ (3428-3433) -/
  few4 : List M → List M → Bool
  /-- fewer than 0.1% of the labels differ (3451-3456) -/
  few3 : List M → List M → Bool
  /-- final smoothing (3459-3465) -/
  lastStereo : S → S
  /-- final smoothing (3466-3467) -/
  lastMask : M → M

/-- What the constructor fixes (SegmMatcher.cpp 881-890): temporal layers, stereo labels, largest number of stereo moves
and of resegmentation moves per pass. -/
structure Cfg where
  layers : Nat
  nLabels : Nat
  maxStereo : Nat
  maxResegm : Nat

/-- The layers seen by a computation. -/
def view {A : Type} (T : Nat) (f : Nat → A) : List A := (List.range T).map f

variable {F X S M G H : Type}

/-- State of a resegmentation pass (SegmMatcher.cpp 3314-3321): `nResegmMoveIter`, `nConsecUnchangedResegmLabels`,
`nTotChangedResegmLabels`, `aanChangedResegmLabels`, features, masks, models, `oPreResegmUpdateLabeling`. -/
structure Pass (X M G : Type) where
  iter : Nat
  consec : Nat
  tot : Nat
  changed : Nat → Nat
  feats : Nat → X
  segm : Nat → M
  gmm : Option G
  pre : List M

/-- One iteration of the loop of a pass (SegmMatcher.cpp 3323-3434); the flag tells whether it breaks. -/
def passBody (o : Oracle F X S M G H) (c : Cfg) (temporal : Bool) (inputs : Nat → F) (stereo : Nat → S) (init : Nat)
    (p : Pass X M G) : Pass X M G × Bool :=
  let bInit := p.iter - init == 1
  let bNew := (p.iter - init) % 2 == 1
  let alphaFg := p.iter % 2 == 0
  let feats := fun l => if l < c.layers ∧ p.changed l > 0 then o.shapeDist (p.segm l) (p.feats l) else p.feats l
  let gmm := if bInit then none else p.gmm
  let pre := if bNew then view c.layers p.segm else p.pre
  let r := o.resegmMove alphaFg temporal gmm (view c.layers inputs) (view c.layers feats) (view c.layers stereo)
    (view c.layers p.segm)
  let p' : Pass X M G :=
    { p with feats := feats, gmm := some r.2.2, pre := pre, segm := r.1, changed := r.2.1 }
  if bNew then (p', false)
  else
    let n := ((view c.layers r.2.1).foldl (· + ·) 0)
    ({ p' with consec := if n > 0 then 0 else p.consec + 2, tot := p.tot + n }, o.few4 pre (view c.layers r.1))

/-- The loop of a pass (SegmMatcher.cpp 3322); `fuel` only bounds the recursion. -/
def passLoop (o : Oracle F X S M G H) (c : Cfg) (temporal : Bool) (inputs : Nat → F) (stereo : Nat → S) (init : Nat) :
    Nat → Pass X M G → Pass X M G
  | 0, p => { p with iter := p.iter + 1 }
  | fuel + 1, p =>
    let p1 := { p with iter := p.iter + 1 }
    if p1.iter - init ≤ c.maxResegm ∧ p1.consec < 2 then
      let r := passBody o c temporal inputs stereo init p1
      if r.2 then r.1 else passLoop o c temporal inputs stereo init fuel r.1
    else p1

/-- A pass (SegmMatcher.cpp 3314-3435). -/
def pass (o : Oracle F X S M G H) (c : Cfg) (temporal : Bool) (inputs : Nat → F) (stereo : Nat → S) (iter : Nat)
    (feats : Nat → X) (segm : Nat → M) (pre : List M) : Pass X M G :=
  passLoop o c temporal inputs stereo iter c.maxResegm ⟨iter, 0, 0, fun _ => 0, feats, segm, none, pre⟩

/-- State of the inference (SegmMatcher.cpp 3157, 3165-3169): `nStereoMoveIter`, `nStereoLabelOrderingIdx`,
`nConsecUnchangedStereoLabels`, `nResegmMoveIter`, features, stereo labels, masks, stereo model,
`oPreStereoUpdateLabeling`, `oPreResegmUpdateLabeling`. -/
structure Inf (X S M H : Type) where
  iter : Nat
  order : Nat
  consec : Nat
  rIter : Nat
  feats : Nat → X
  stereo : Nat → S
  segm : Nat → M
  model : H
  preS : List M
  preR : List M

/-- The resegmentation part of an iteration (SegmMatcher.cpp 3302-3457); the flag tells whether the loop breaks. -/
def resegmPart (o : Oracle F X S M G H) (c : Cfg) (frames : Nat) (inputs : Nat → F) (i : Inf X S M H) :
    Inf X S M H × Bool :=
  let s0 := o.project (i.stereo 0)
  let stereo0 := Function.update i.stereo 0 s0
  let stereo := if frames = 0 then (fun l => if 1 ≤ l ∧ l < c.layers then s0 else stereo0 l) else stereo0
  let temporal := decide (c.layers > 1 ∧ frames ≥ c.layers - 1)
  let p := pass (G := G) o c temporal inputs stereo i.rIter i.feats i.segm i.preR
  let i1 : Inf X S M H := { i with rIter := p.iter, feats := p.feats, stereo := stereo, segm := p.segm, preR := p.pre }
  let i2 : Inf X S M H :=
    if p.tot > 0 then
      let f0 := o.shapeFeat (p.segm 0) (p.feats 0)
      let r := o.refresh i.model f0 (p.segm 0) s0
      { i1 with feats := Function.update p.feats 0 f0, stereo := Function.update stereo 0 r.1, model := r.2, consec := 0 }
    else i1
  if o.few3 i.preS (view c.layers p.segm) then (i2, true)
  else ({ i2 with preS := view c.layers p.segm }, false)

/-- One iteration of the loop of the inference (SegmMatcher.cpp 3170-3458). -/
def infBody (o : Oracle F X S M G H) (c : Cfg) (frames : Nat) (inputs : Nat → F) (i : Inf X S M H) : Inf X S M H × Bool :=
  let r := o.stereoMove i.order (i.feats 0) i.model (i.stereo 0)
  let bResegm := i.iter % c.nLabels == 0
  let i1 : Inf X S M H :=
    { i with
      stereo := Function.update i.stereo 0 r.1
      order := (i.order + 1) % c.nLabels
      consec := if r.2 > 0 then 0 else i.consec + 1
      iter := i.iter + 1 }
  if bResegm then resegmPart o c frames inputs i1 else (i1, false)

/-- The loop of the inference (SegmMatcher.cpp 3170); `fuel` only bounds the recursion. -/
def infLoop (o : Oracle F X S M G H) (c : Cfg) (frames : Nat) (inputs : Nat → F) : Nat → Inf X S M H → Inf X S M H
  | 0, i => i
  | fuel + 1, i =>
    if i.iter < c.maxStereo ∧ i.consec < c.nLabels then
      let r := infBody o c frames inputs i
      if r.2 then r.1 else infLoop o c frames inputs fuel r.1
    else i

/-- The matcher between two calls: `m_aaInputs`, `m_avFeatures`, `m_aaStereoLabelings`, `m_aaResegmLabelings`,
`m_nFramesProcessed`, `m_vLoadedFeatures` if `m_bUsePrecalcFeaturesNext`. -/
structure State (F X S M : Type) where
  inputs : Nat → F
  feats : Nat → X
  stereo : Nat → S
  segm : Nat → M
  frames : Nat
  loaded : Option X

/-- `infer` (SegmMatcher.cpp 3067-3470) without its outputs. -/
def infer (o : Oracle F X S M G H) (c : Cfg) (s : State F X S M) : State F X S M :=
  let r := o.initStereo (s.feats 0) (s.segm 0) (if s.frames > 0 then some (s.stereo 1) else none)
  let i := infLoop o c s.frames s.inputs c.maxStereo
    ⟨0, 0, 0, 0, s.feats, Function.update s.stereo 0 r.1, s.segm, r.2, view c.layers s.segm, view c.layers s.segm⟩
  { s with
    feats := i.feats
    stereo := Function.update i.stereo 0 (o.lastStereo (i.stereo 0))
    segm := fun l => if l < c.layers then o.lastMask (i.segm l) else i.segm l }

/-- One step of the sliding loop (SegmMatcher.cpp 763-771): layer `l-1` goes to layer `l`, features are swapped. -/
def slideLayer (s : State F X S M) (l : Nat) : State F X S M :=
  { s with
    inputs := Function.update s.inputs l (s.inputs (l - 1))
    stereo := Function.update s.stereo l (s.stereo (l - 1))
    segm := Function.update s.segm l (s.segm (l - 1))
    feats := Function.update (Function.update s.feats l (s.feats (l - 1))) (l - 1) (s.feats l) }

/-- The sliding loop (SegmMatcher.cpp 762-772), from the oldest layer on. -/
def slide (c : Cfg) (s : State F X S M) : State F X S M :=
  (List.range' 1 (c.layers - 1)).reverse.foldl slideLayer s

/-- `calcFeatures` of the user (SegmMatcher.cpp 817-821, 2210-2236): the previous frame is the latest one. -/
def calcFeatures (o : Oracle F X S M G H) (c : Cfg) (s : State F X S M) (x : F) : X :=
  o.feat (if c.layers > 1 ∧ s.frames > 0 then some (s.inputs 0) else none) x

/-- `setNextFeatures` (SegmMatcher.cpp 823-827, 2577-2606). -/
def setNextFeatures (s : State F X S M) (p : X) : State F X S M := { s with loaded := some p }

/-- `resetTemporalModel` (SegmMatcher.cpp 829-832). -/
def resetTemporal (s : State F X S M) : State F X S M := { s with frames := 0 }

/-- `apply` up to the inference (SegmMatcher.cpp 741-794). -/
def load (o : Oracle F X S M G H) (c : Cfg) (s : State F X S M) (x : F) : State F X S M :=
  let s1 := slide c s
  let s2 := { s1 with inputs := Function.update s1.inputs 0 x }
  let f0 := s2.loaded.getD (o.feat (if c.layers > 1 ∧ s2.frames > 0 then some (s2.inputs 1) else none) x)
  let s3 := { s2 with
    feats := Function.update s2.feats 0 f0, loaded := none, segm := Function.update s2.segm 0 (o.firstMask x) }
  if s3.frames = 0 then
    { s3 with
      inputs := fun l => if 1 ≤ l ∧ l < c.layers then s3.inputs 0 else s3.inputs l
      feats := fun l => if 1 ≤ l ∧ l < c.layers then s3.feats 0 else s3.feats l
      segm := fun l => if 1 ≤ l ∧ l < c.layers then s3.segm 0 else s3.segm l }
  else s3

/-- `apply` (SegmMatcher.cpp 741-802). -/
def apply (o : Oracle F X S M G H) (c : Cfg) (s : State F X S M) (x : F) : State F X S M × (S × M) :=
  let s1 := infer o c (load o c s x)
  let s2 := { s1 with frames := s1.frames + 1 }
  (s2, (s2.stereo 0, s2.segm 0))

/-- `getOutput` (SegmMatcher.cpp 804-815): refused without a frame or beyond the last layer. -/
def getOutput (c : Cfg) (s : State F X S M) (l : Nat) : Option (S × M) :=
  if s.frames > 0 ∧ l < c.layers then some (s.stereo l, s.segm l) else none

end Litiv.SegmRun
