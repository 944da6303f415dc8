/-!
# The rectangle editor of the cosegmentation application

`apps/cosegm/src/main.cpp` with `PROCESS_PREPROC_GRABCUT` above one: the user marks the objects of each frame, in two
images shown side by side, with rectangles that are kept in a file.

Simplified: points `P` and rectangles `R` are any types, with the distances of a point to the two corners of a rectangle
as naturals; drawings and segmentations are left out. `none` is a failed `lvAssert` or an access out of bounds.
-/

namespace Litiv.RectEdit

/-- `cv::Rect(p,q)`, and the distances to the corners of a rectangle, `apps/cosegm/src/main.cpp:318,345,350`; `lim` is the
largest distance of a click to a corner. -/
structure Geo (P R : Type) where
  rect : P → P → R
  tl : P → R → Nat
  br : P → R → Nat
  lim : Nat

/-- `vavBBoxes` (frame, then image), `nCurrIdx`, `bIsDrawingRect`, `bIsSelectingRect`, and `nSelectedRectTile` with
`nSelectedRect`, which are set together, and `vRectStartPt`, `apps/cosegm/src/main.cpp:245,304-306`. -/
structure St (P R : Type) where
  boxes : Nat → Nat → List R
  cur : Nat
  drawing : Bool
  selecting : Bool
  sel : Option (Nat × Nat)
  start : P

variable {P R : Type}

/-- One corner in the search of the closest one, `apps/cosegm/src/main.cpp:345-354`; the best so far has its number and
its distance. -/
def better (lim dist num : Nat) (best : Option (Nat × Nat)) : Option (Nat × Nat) :=
  if dist < lim ∧ (best.all fun b => decide (dist < b.2)) = true then some (num, dist) else best

/-- The search of the closest corner, `apps/cosegm/src/main.cpp:342-355`: rectangles from number `i` on. -/
def closest (g : Geo P R) (p : P) : List R → Nat → Option (Nat × Nat) → Option (Nat × Nat)
  | [], _, best => best
  | r :: t, i, best =>
    closest g p t (i + 1) (better g.lim (g.br p r) (2 * i + 1) (better g.lim (g.tl p r) (2 * i) best))

/-- The rectangles of an image of the current frame replaced. -/
def St.put (s : St P R) (tile : Nat) (l : List R) : Nat → Nat → List R :=
  fun f a => if f = s.cur ∧ a = tile then l else s.boxes f a

/-- The end of a drawing, `apps/cosegm/src/main.cpp:314-336`. -/
def finish (g : Geo P R) (s : St P R) (tile k : Nat) (p : P) : Option (St P R) :=
  if s.selecting then none
  else if k < (s.boxes s.cur tile).length then
    some { s with
      boxes := s.put tile ((s.boxes s.cur tile).set k (g.rect s.start p))
      drawing := false
      sel := none }
  else none

/-- A left click elsewhere, `apps/cosegm/src/main.cpp:339-371`. -/
def left (g : Geo P R) (s : St P R) (tile : Nat) (p : P) : St P R :=
  if s.selecting = false then
    match closest g p (s.boxes s.cur tile) 0 none with
    | none => s
    | some (n, _) =>
      if n < (s.boxes s.cur tile).length * 2 then
        { s with
          selecting := true
          sel := some (tile, n / 2) }
      else s
  else if s.sel.map Prod.fst = some tile then
    { s with
      selecting := false
      drawing := true }
  else s

/-- A right click elsewhere, `apps/cosegm/src/main.cpp:372-403`. -/
def right (g : Geo P R) (s : St P R) (tile : Nat) (p : P) : Option (St P R) :=
  if s.selecting = false then
    some { s with
      boxes := s.put tile (s.boxes s.cur tile ++ [g.rect p p])
      drawing := true
      sel := some (tile, (s.boxes s.cur tile).length) }
  else
    match s.sel with
    | none => some s
    | some (a, k) =>
      if a = tile ∧ (s.boxes s.cur tile).length > 1 then
        if k < (s.boxes s.cur tile).length then
          some { s with
            boxes := s.put tile ((s.boxes s.cur tile).eraseIdx k)
            selecting := false
            sel := none }
        else none
      else some s

/-- The mouse callback, `apps/cosegm/src/main.cpp:307-408`. -/
def click (g : Geo P R) (s : St P R) (tile : Nat) (isLeft : Bool) (p : P) : Option (St P R) :=
  match s.drawing, s.sel with
  | true, some (a, k) =>
    if a = tile then finish g s tile k p
    else if isLeft then some (left g { s with start := p } tile p) else right g { s with start := p } tile p
  | _, _ => if isLeft then some (left g { s with start := p } tile p) else right g { s with start := p } tile p

/-- The end of the work on a frame, `apps/cosegm/src/main.cpp:568-577`: to the frame before, or to the next one. -/
def leave (total : Nat) (s : St P R) (back : Bool) : St P R :=
  { s with
    drawing := false
    selecting := false
    sel := none
    cur := if back then (if s.cur > 0 then s.cur - 1 else s.cur) else if s.cur < total - 1 then s.cur + 1 else s.cur }

/-- What the user does: a click in an image, or a key that leaves the frame. -/
inductive Ev (P : Type) where
  | click (tile : Nat) (isLeft : Bool) (p : P)
  | leave (back : Bool)

/-- One event, `apps/cosegm/src/main.cpp:307-408,564-577`. -/
def step (g : Geo P R) (total : Nat) (s : St P R) : Ev P → Option (St P R)
  | .click tile isLeft p => click g s tile isLeft p
  | .leave back => some (leave total s back)

/-- A history of events. -/
def run (g : Geo P R) (total : Nat) : St P R → List (Ev P) → Option (St P R)
  | s, [] => some s
  | s, e :: t => (step g total s e).bind fun s' => run g total s' t

/-- The rectangles of a frame, as `lRectArchiver` names them, `apps/cosegm/src/main.cpp:292-294`. -/
def save (l : List R) (i : Nat) : Option R := l[i]?

/-- The loop that reads rectangles while there are any, `apps/cosegm/src/main.cpp:262-266`; `none` when it does not end
within `fuel` passes. -/
def loadFrom (node : Nat → Option R) : Nat → Nat → Option (List R)
  | 0, _ => none
  | fuel + 1, i =>
    match node i with
    | none => some []
    | some r => (loadFrom node fuel (i + 1)).map (r :: ·)

/-- The rectangles of a frame read again, with the assertion that there is one, `apps/cosegm/src/main.cpp:256-267`. -/
def load (node : Nat → Option R) (fuel : Nat) : Option (List R) :=
  if (node 0).isSome then loadFrom node fuel 0 else none

end Litiv.RectEdit
