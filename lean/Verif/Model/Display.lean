import Verif.Model.IEEE

/-!
# Model of the display helper, `modules/utils/src/opencv.cpp:206-438`, `modules/utils/include/litiv/utils/opencv.hpp:1366-1430`

Images are a number of rows and columns and their pixels; the conversion of an image to 8 bits, its resizing and the
drawing of its name are one given function `prepare` (the value conversion by itself is `conv`). The window, its flags and the
event mutex are left out: mouse events and displays are atomic steps. Text drawn on the whole display (the hint to press
a key) is left out. OpenCV errors and failed assertions are `none`.
-/

namespace Litiv.Display

/-- `cv::Size`. -/
structure Size where
  w : Int
  h : Int
deriving DecidableEq

/-- `area()` (no overflow). -/
def Size.area (s : Size) : Int := s.w * s.h

/-- `int(f)`: towards zero. -/
def trunc (q : ℚ) : Int := if 0 ≤ q then ⌊q⌋ else ⌈q⌉

/-- An integer converted to `float`. -/
def flt (n : Int) : ℚ := IEEE.fl 24 n

/-- The size of a display limited to a maximum size, opencv.cpp:262-267, 340-345. -/
def fit (max cur : Size) : Size :=
  if 0 < max.area ∧ (max.w < cur.w ∨ max.h < cur.h) then
    if max.w < cur.w ∧ cur.h < cur.w then
      ⟨max.w, trunc (IEEE.fl 24 (IEEE.fl 24 (flt max.w * flt cur.h) / flt cur.w))⟩
    else
      ⟨trunc (IEEE.fl 24 (flt max.h * IEEE.fl 24 (flt cur.w / flt cur.h))), max.h⟩
  else cur

/-- An image: rows, columns, pixels at a row and a column. -/
structure Img (α : Type) where
  rows : Nat
  cols : Nat
  px : Nat → Nat → α

/-- `cv::hconcat` of two images. -/
def hconcat {α : Type} (a b : Img α) : Option (Img α) :=
  if a.rows = b.rows then some ⟨a.rows, a.cols + b.cols, fun y x => if x < a.cols then a.px y x else b.px y (x - a.cols)⟩ else none

/-- `cv::vconcat` of two images. -/
def vconcat {α : Type} (a b : Img α) : Option (Img α) :=
  if a.cols = b.cols then some ⟨a.rows + b.rows, a.cols, fun y x => if y < a.rows then a.px y x else b.px (y - a.rows) x⟩ else none

/-- The tiles of a row, opencv.cpp:309-312 (the first tile replaces the empty row; tiles are never empty here). -/
def joinRow {α : Type} : Img α → List (Img α) → Option (Img α)
  | acc, [] => some acc
  | acc, t :: ts => (hconcat acc t).bind (fun acc => joinRow acc ts)

/-- The rows of a display, opencv.cpp:314-317. -/
def joinCol {α : Type} : Img α → List (Img α) → Option (Img α)
  | acc, [] => some acc
  | acc, t :: ts => (vconcat acc t).bind (fun acc => joinCol acc ts)

/-- `CallbackData`, opencv.hpp:1379-1383. -/
structure Event where
  x : Int
  y : Int
  ix : Int
  iy : Int
  tile : Size
  disp : Size
  event : Int
  flags : Int
deriving DecidableEq

/-- The state of a helper. The callback data are not initialised by the constructor: their first value is an input. -/
structure St (α : Type) where
  max : Size
  continuous : Bool
  cursor : Bool
  lastDisp : Size
  lastTile : Size
  latest : Event
  shown : Option (Img α)

/-- The constructor, opencv.cpp:206-222. -/
def create {α : Type} (max : Size) (junk : Event) : St α := ⟨max, false, true, ⟨0, 0⟩, ⟨0, 0⟩, junk, none⟩

/-- The cursor drawn on a tile, opencv.cpp:300-308: none, or at the position inside the tile, highlighted or not. The integer
divisions are those of `int`, towards zero. -/
def cursorOn (cursor : Bool) (e : Event) (tile : Size) (row col : Nat) : Option (Int × Int × Bool) :=
  if cursor = true ∧ 0 ≤ e.ix ∧ 0 ≤ e.iy ∧ e.ix < tile.w ∧ e.iy < tile.h ∧ e.tile = tile then
    some (e.ix, e.iy, decide (e.x.tdiv e.tile.w = col ∧ e.y.tdiv e.tile.h = row))
  else none

/-- The prepared tiles of a row, from a column on, opencv.cpp:272-308. -/
def rowTiles {ι α : Type} (prepare : ι → Size → Option (Int × Int × Bool) → Img α) (s : St α) (tile : Size) (row : Nat) : Nat → List ι → List (Img α)
  | _, [] => []
  | c, i :: is => prepare i tile (cursorOn s.cursor s.latest tile row c) :: rowTiles prepare s tile row (c + 1) is

/-- One row of the display. -/
def rowImg {ι α : Type} (prepare : ι → Size → Option (Int × Int × Bool) → Img α) (s : St α) (tile : Size) (row : Nat) (is : List ι) : Option (Img α) :=
  match rowTiles prepare s tile row 0 is with
  | [] => none
  | t :: ts => joinRow t ts

/-- The rows of the display, from a row on. -/
def rowImgs {ι α : Type} (prepare : ι → Size → Option (Int × Int × Bool) → Img α) (s : St α) (tile : Size) : Nat → List (List ι) → Option (List (Img α))
  | _, [] => some []
  | r, is :: rest => (rowImg prepare s tile r is).bind (fun i => (rowImgs prepare s tile (r + 1) rest).map (fun l => i :: l))

/-- The tile size of a display, opencv.cpp:261-268; `none`: an assertion fails. Unsigned divisions of positive numbers. -/
def tileSize {ι : Type} (max : Size) (rows : List (List ι)) (sug : Size) : Option Size :=
  match rows with
  | [] => none
  | r0 :: rs =>
    if 0 < sug.area ∧ 0 < r0.length ∧ rs.all (fun r => r.length == r0.length) then
      let cur := fit max ⟨sug.w * (r0.length : Int), sug.h * ((rs.length + 1 : Nat) : Int)⟩
      some ⟨cur.w / (r0.length : Int), cur.h / ((rs.length + 1 : Nat) : Int)⟩
    else none

/-- `display(vvImageNamePairs,oSuggestedTileSize)`, opencv.cpp:239-331. `prepare image tile cursor` is the image converted,
resized to the tile size and drawn on; resizing to an empty size fails. The checks of channels and depths are left out. -/
def display {ι α : Type} (prepare : ι → Size → Option (Int × Int × Bool) → Img α) (s : St α) (rows : List (List ι)) (sug : Size) : Option (St α) := do
  let tile ← tileSize s.max rows sug
  if 0 < tile.w ∧ 0 < tile.h then
    match rowImgs prepare s tile 0 rows with
    | some (i :: is) => do
      let shown ← joinCol i is
      pure { s with lastDisp := ⟨shown.cols, shown.rows⟩, lastTile := tile, shown := some shown }
    | _ => none
  else none

/-- `onMouseEventCallback`, opencv.cpp:424-434; remainders towards zero. -/
def mouse {α : Type} (s : St α) (event x y flags : Int) : St α :=
  let e : Event := ⟨x, y, x, y, s.lastTile, s.lastDisp, event, flags⟩
  let e := if 0 ≤ x ∧ 0 ≤ y ∧ x < s.lastDisp.w ∧ y < s.lastDisp.h ∧ 0 < s.lastTile.area then
      { e with ix := x.tmod s.lastTile.w, iy := y.tmod s.lastTile.h }
    else e
  { s with latest := e }

/-- `waitKey`, opencv.cpp:411-422: the delay given to `cv::waitKey` (0: until a key is pressed), and the returned key and new state
for the key code it gives. -/
def waitDelay {α : Type} (s : St α) (delay : Int) : Int := if s.continuous then delay else 0

/-- See `waitDelay`. -/
def waitKey {α : Type} (s : St α) (raw : Int) : Int × St α :=
  let k := if raw ≠ -1 then raw.tmod 256 else raw
  (k, if k = 32 then { s with continuous := !s.continuous } else s)

/-- `setContinuousUpdates`, opencv.cpp:403-405. -/
def setContinuous {α : Type} (s : St α) (b : Bool) : St α := { s with continuous := b }

/-- `setDisplayCursor`, opencv.cpp:407-409. -/
def setCursor {α : Type} (s : St α) (b : Bool) : St α := { s with cursor := b }

/-! ### Albums -/

/-- The image number after a key, opencv.cpp:385-388; `nKeyPressed&255` is the remainder by 256. -/
def albumNext (n idx : Nat) (key : Int) : Nat :=
  if key % 256 = 100 ∨ key = 2490368 ∨ key = 1113939 ∨ key % 256 = 28 then (idx + 1) % n
  else if key % 256 = 97 ∨ key = 2424832 ∨ key = 1113937 ∨ key % 256 = 31 then (if 0 < idx then idx - 1 else n - 1)
  else idx

/-- The loop of `displayAlbumAndWaitKey`, opencv.cpp:376-395, for the keys pressed (-1: none within the delay): the image numbers
shown, the first included. `none`: the assertion on the image number fails. -/
def albumLoop (n : Nat) : Nat → List Int → Option (List Nat)
  | _, [] => some []
  | idx, key :: keys =>
    let new := albumNext n idx key
    if new ≠ idx then
      if new < n then (if key % 256 = 27 then some [new] else (albumLoop n new keys).map (fun l => new :: l)) else none
    else if key % 256 = 27 then some [] else albumLoop n idx keys

/-- `displayAlbumAndWaitKey`: the numbers of the images shown. -/
def album (n : Nat) (keys : List Int) : Option (List Nat) :=
  if 0 < n then (albumLoop n 0 keys).map (fun l => 0 :: l) else none

/-! ### Conversion of values, opencv.cpp:277-284 -/

/-- `saturate_cast<uchar>` of a number. -/
def sat8 (q : ℚ) : Int := max 0 (min 255 (Lut.roundEven q))

/-- `CV_16U` to 8 bits (exact products). -/
def conv16u (v : Nat) : Int := sat8 (v * (255 / 65535))

/-- `CV_32S` to 8 bits: `double(UCHAR_MAX)/(INT_MAX)`, `double(UCHAR_MAX/2)` (exact products and sums). -/
def conv32s (v : Int) : Int := sat8 (v * (255 / 2147483647) + 127)

/-- `CV_32F` to 8 bits (exact products). -/
def conv32f (v : ℚ) : Int := sat8 (v * 255)

/-! ### Uses of the mouse position -/

/-- The image point of an annotation tool, apps/handannot/src/main.cpp:193-195, 293: the position relative to the tile, times
the size of the image (one coordinate). -/
def annotPt (i tile size : Int) : Int := trunc (IEEE.fl 24 (IEEE.fl 24 (flt i / flt tile) * flt size))

/-- The pixel chosen for debugging output, modules/video/src/BackgroundSubtractorSuBSENSE.cpp:487-488, BackgroundSubtractorPAWCS.cpp:590-591:
the position relative to the display, times the size of the image (one coordinate). -/
def debugPt (x disp size : Int) : Int := trunc (IEEE.fl 24 (IEEE.fl 24 (flt x / flt disp) * flt size))

end Litiv.Display
