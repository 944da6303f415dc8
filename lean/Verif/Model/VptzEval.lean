import Verif.Model.Vptz

/-!
# Evaluation of trackers with the virtual camera

Models `vptz::Evaluator` of `modules/vptz/src/virtualptz.cpp:390-780`. The camera is reduced to its position in the video (`Verif.Model.VptzCam` models
the rest); what the ground-truth translator sees is an input of a result (`Verif.Model.Vptz` models it). `double` is modelled by the real numbers.
The file of results is modelled by its open brackets (`cv::FileStorage` throws when they do not match); its values are not, but for the frame
indices.
-/

namespace Litiv.VptzEval
open Litiv.Vptz

/-- What is still open in the file, innermost first: `true` for a map, `false` for a sequence (the file itself is a map). `none`: an element was
written where it cannot be, or a closing bracket did not match. -/
def File := Option (List Bool)

/-- The empty file. -/
def File.empty : File := some ([] : List Bool)

/-- A key and a value, or the key of something that is opened: only in a map. -/
def File.key (f : File) : File := Option.bind f fun l => match l with | false :: _ => none | _ => some l

/-- `<< "key" << "["`. -/
def File.openKeyed (f : File) (b : Bool) : File := Option.bind f.key fun l => some (b :: l)

/-- `<< "{"` or `<< "{:"` with no key: only in a sequence. -/
def File.openAnon (f : File) (b : Bool) : File := Option.bind f fun l => match l with | false :: _ => some (b :: l) | _ => none

/-- `<< "}"` or `<< "]"`. -/
def File.close (f : File) (b : Bool) : File := Option.bind f fun l => match l with | b' :: l' => if b' = b then some l' else none | [] => none

/-- What follows the indices in `Setup` (loading the first target, lines 756-775): it can succeed, throw an exception of this framework, or throw one
of OpenCV (a bounding box that is not inside of the frame, line 763). -/
inductive Rest where
  | fine | error | cvError
deriving DecidableEq

/-- A test: the arguments of line 395, and the data that is read for it: the number of frames in the video and in the ground-truth file, the position of
the first and of the last frame of the ground truth, and the number of frames it has. -/
structure Test where
  nFirst : ℤ
  nLast : ℤ
  camCount : ℤ
  fileCount : ℤ
  gtFirst : ℤ
  gtLast : ℤ
  gtCount : ℕ
  rest : Rest

/-- The indices of the first and of the last frame that `Setup` computes, lines 709-753 and 757. -/
def setupIdx (t : Test) : Option (ℤ × ℤ) :=
  if ¬(t.nFirst < t.nLast ∧ t.nLast > 0) then none
  else if t.fileCount = 0 then none
  else if t.fileCount ≠ t.camCount then none
  else if t.gtCount = 0 then none
  else if t.gtFirst > t.fileCount then none
  else if (t.gtCount : ℤ) ≠ t.gtLast - t.gtFirst + 1 then none
  else
    let last := if t.nLast < t.gtLast then t.nLast else t.gtLast
    if t.nFirst < 0 then
      if t.gtFirst > t.camCount - 1 ∨ t.gtFirst < 0 then none else some (t.gtFirst, last)
    else if t.nFirst < t.gtFirst then none
    else if t.nFirst ≥ last then none
    else if t.nFirst > t.camCount - 1 then none else some (t.nFirst, last)

/-- What the translator sees of the current ground truth: the target and its box (`tgtTargetPoint`, `tgtBoundingBox`), and the size of the image. -/
structure Seen where
  x : ℤ
  y : ℤ
  box : Rect
  W : ℤ
  H : ℤ

/-- A result: the position of the frame, what was seen of the ground truth, the box of the tracker. -/
structure Result where
  pos : ℤ
  seen : Seen
  box : Rect

/-- An evaluator (`modules/vptz/include/litiv/vptz/virtualptz.hpp:242-302`). -/
structure Ev where
  /-- `m_bUsingMultiTestSet`, `m_voTestSet`. -/
  multi : Bool
  tests : List Test
  /-- `m_bRunning`, `m_bReady`, `m_bQueried`. -/
  running : Bool
  ready : Bool
  queried : Bool
  /-- `m_nCurrTestIdx`. -/
  idx : ℤ
  /-- `m_nFirstTestFrameIdx`, `m_nLastTestFrameIdx`, `m_nFirstGTSeqFrameIdx`, the number of frames of the ground truth, `m_nTestFrameCount`. -/
  first : ℤ
  last : ℤ
  gtFirst : ℤ
  gtCount : ℕ
  frameCount : ℤ
  /-- The position of the camera and its number of frames; `m_nCurrFrameIdx`. -/
  pos : ℤ
  camCount : ℤ
  cur : ℤ
  /-- The results of the current test, last first (in the code: their lines in the file). -/
  results : List Result
  /-- `m_nCurrOutOfViewFrameCount`, `m_nCurrProcessedFrameCount`, `m_dCurrTargetPointErrorSum`, `m_dCurrTargetPointOffsetSum`,
  `m_dCurrBBoxOverlapRatioSum`. -/
  oov : ℕ
  processed : ℕ
  err : ℝ
  off : ℝ
  overlap : ℝ
  file : File

/-- The constructors, lines 390-456. -/
def create (multi : Bool) (tests : List Test) : Ev :=
  ⟨multi, tests, false, false, false, -1, 0, 0, 0, 0, 0, 0, 0, 0, [], 0, 0, 0, 0, 0, if multi then File.empty.key.openKeyed false else File.empty⟩

/-- `SetupTesting`, lines 484-517, with the state that `Setup` (lines 706-780) leaves. The first flag of the result says if it returned (and did not
throw). Every exception but those of OpenCV is caught and thrown again. -/
def setupTesting (s : Ev) (i : ℤ) : Bool × Ev :=
  if ¬(i < s.tests.length ∧ i ≥ 0) then (false, s)
  else if s.running then (false, s)
  else
    let f1 := if s.multi && s.ready then s.file.close true else s.file
    let f2 := if s.multi then (f1.openAnon true).key else f1
    match s.tests[i.toNat]? with
    | none => (false, s)
    | some t =>
      let f3 := f2.key
      let fail := (false, { s with file := (if s.multi then f3.close true else f3), ready := false, queried := false, running := false, idx := -1 })
      match setupIdx t with
      | none => fail
      | some (a, b) =>
        match t.rest with
        | .error => fail
        | .cvError => (false, { s with file := f3, ready := false, queried := false, running := false, first := a, last := b, gtFirst := t.gtFirst, gtCount := t.gtCount, frameCount := b - a, pos := a, camCount := t.camCount })
        | .fine => (true, { s with file := f3, ready := true, queried := false, running := false, idx := i, first := a, last := b, gtFirst := t.gtFirst, gtCount := t.gtCount, frameCount := b - a, pos := a, camCount := t.camCount, cur := a })

/-- `BeginTesting`, lines 519-544. -/
def beginTesting (s : Ev) : Bool × Ev :=
  if ¬s.ready then (false, s)
  else if s.first > s.camCount - 1 ∨ s.first < 0 then
    (false, { s with file := (if s.multi then s.file.close true else s.file), ready := false, queried := false, idx := -1 })
  else (true, { s with pos := s.first, file := s.file.openKeyed false, oov := 0, processed := 0, err := 0, off := 0, overlap := 0, results := [], running := true, queried := false })

/-- `GetNextFrame`, lines 622-656: `moves` is false if the position that is given makes the camera throw; `p` is the frame at the simulated time after the
wait (line 164). The frame is assumed to be readable. -/
def nextFrame (s : Ev) (moves : Bool) (p : ℤ) : Bool × Ev :=
  if ¬(s.ready ∧ s.running) then (false, s)
  else if ¬moves then (false, s)
  else
    let pos := if s.pos ≥ s.camCount then s.pos else max p (s.pos + 1)
    if s.pos ≥ s.camCount ∨ ¬pos < s.camCount then (true, { s with pos := pos, queried := false })
    else if pos < s.first ∨ pos > s.last then (true, { s with pos := pos, cur := pos, queried := false })
    else (true, { s with pos := pos, cur := pos, queried := true })

/-- The test of lines 675-677: the target is out of view, or the box of the tracker is too small. -/
def outOfView (g : Seen) (b : Rect) : Bool :=
  g.x < 0 || g.y < 0 || g.x > g.W - 1 || g.x > g.H - 1 || b.w < 3 || b.h < 3

/-- Half of an integer, rounded to the nearest, to the even one of two (`saturate_cast<int>` of a product with 0.5). -/
def half (n : ℤ) : ℤ := if n % 2 = 0 then n / 2 else if (n / 2) % 2 = 0 then n / 2 else n / 2 + 1

/-- Distance of two points, `norm`. -/
noncomputable def norm2 (x y x' y' : ℤ) : ℝ := √(((x - x') ^ 2 + (y - y') ^ 2 : ℤ) : ℝ)

/-- `a & b` of two rectangles (OpenCV): empty if one of the sizes is not positive. -/
def inter (a b : Rect) : Rect :=
  let x := max a.x b.x
  let y := max a.y b.y
  let w := min (a.x + a.w) (b.x + b.w) - x
  let h := min (a.y + a.h) (b.y + b.h) - y
  if w ≤ 0 ∨ h ≤ 0 then ⟨0, 0, 0, 0⟩ else ⟨x, y, w, h⟩

/-- `cv::Rect::area`. -/
def area (r : Rect) : ℤ := r.w * r.h

/-- The overlap of lines 690-692 (zero for the division of zero by zero, which gives a NaN in the code: see `overlap_empty_refuted`). -/
noncomputable def overlapRatio (a b : Rect) : ℝ := (area (inter a b) : ℝ) / ((area a + area b - area (inter a b) : ℤ) : ℝ)

/-- Outcome of a result: the index of the ground truth was out of range, or the call returned or threw. -/
inductive Res where
  | badIndex
  | done (returned : Bool) (s : Ev)

/-- `UpdateCurrentResult`, lines 664-704; `seen` is `none` if the translator throws. -/
noncomputable def update (s : Ev) (seen : Option Seen) (b : Rect) : Res :=
  if ¬(s.ready ∧ s.running) then .done false s
  else if ¬s.queried then .done false s
  else if s.cur - s.gtFirst < 0 ∨ s.cur - s.gtFirst ≥ s.gtCount then .badIndex
  else
    match seen with
    | none => .done false s
    | some g =>
      let out := outOfView g b
      .done true { s with
        oov := if out then s.oov + 1 else s.oov
        err := if out then s.err else s.err + norm2 g.x g.y (half (2 * b.x + b.w)) (half (2 * b.y + b.h))
        off := if out then s.off else s.off + norm2 g.x g.y (g.W / 2) (g.H / 2)
        overlap := s.overlap + overlapRatio g.box b
        file := ((s.file.openAnon true).key).close true
        processed := s.processed + 1
        results := ⟨s.cur, g, b⟩ :: s.results
        queried := false }

/-- The averages that `EndTesting` computes for a test, lines 549-556: error, offset, overlap, fragmentation, ratio of frames out of view, ratio of
processed frames. (A division by zero gives zero here, an infinity or a NaN in the code.) -/
structure Averages where
  err : ℝ
  off : ℝ
  overlap : ℝ
  frag : ℝ
  oov : ℝ
  processed : ℝ

/-- Lines 549-555. -/
noncomputable def averages (s : Ev) : Averages :=
  let n : ℝ := (max ((s.processed : ℤ) - s.oov) 1 : ℤ)
  ⟨s.err / n, s.off / n, s.overlap / n, s.oov / s.processed, s.oov / ((s.frameCount - 1 : ℤ) : ℝ), s.processed / ((s.frameCount - 1 : ℤ) : ℝ)⟩

/-- `EndTesting`, lines 546-580. -/
def endTesting (s : Ev) : Bool × Ev :=
  if ¬s.running then (false, s)
  else
    let f := (s.file.close false).key
    (true, { s with file := (if s.multi then f.close true else f), running := false, ready := false, queried := false, idx := -1 })

/-- The destructor, lines 458-474: what is left of the file. -/
def destroy (s : Ev) : File :=
  if s.multi then ((if s.ready then s.file.close true else s.file).close false).key else s.file

/-- A call. -/
inductive Op where
  | setup (i : ℤ)
  | begin
  | next (moves : Bool) (p : ℤ)
  | update (seen : Option Seen) (b : Rect)
  | finish

/-- One call. -/
noncomputable def step (s : Ev) : Op → Res
  | .setup i => .done (setupTesting s i).1 (setupTesting s i).2
  | .begin => .done (beginTesting s).1 (beginTesting s).2
  | .next m p => .done (nextFrame s m p).1 (nextFrame s m p).2
  | .update g b => update s g b
  | .finish => .done (endTesting s).1 (endTesting s).2

/-- The evaluators that a history of calls can lead to. -/
inductive Reach (multi : Bool) (tests : List Test) : Ev → Prop
  | init : Reach multi tests (create multi tests)
  | step {s : Ev} (h : Reach multi tests s) (o : Op) {r : Bool} {s' : Ev} (hs : step s o = .done r s') : Reach multi tests s'

/-- Those of histories in which a test is not begun while one is running, and no exception of OpenCV is thrown while a test is set up. -/
inductive ReachOnce (multi : Bool) (tests : List Test) : Ev → Prop
  | init : ReachOnce multi tests (create multi tests)
  | step {s : Ev} (h : ReachOnce multi tests s) (o : Op) (ho : o = .begin → s.running = false) (ht : ∀ t ∈ tests, t.rest ≠ .cvError) {r : Bool} {s' : Ev}
      (hs : step s o = .done r s') : ReachOnce multi tests s'

end Litiv.VptzEval
