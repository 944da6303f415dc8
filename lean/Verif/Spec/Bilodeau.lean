import Verif.Model.Bilodeau
import Verif.Spec.DirList

/-! # Files and records of the LITIV 2014 sequences, described without the parser -/

namespace Litiv.Bilodeau

/-- The number written by a list of decimal digits. -/
def number (s : List Char) : Nat := s.foldl (fun n c => n * 10 + (c.toNat - 48)) 0

/-- A frame name: decimal digits of a number below 10000. -/
def IsName (s : List Char) : Prop := s ≠ [] ∧ (∀ c ∈ s, c.isDigit = true) ∧ number s < 10000

/-- A file of a directory. -/
def file (d : List Char) (pre : String) (name : List Char) : List Char :=
  d ++ '/' :: (pre.toList ++ name ++ ".jpg".toList)

/-- A listing of infrared (`true`) and visible (`false`) files. -/
def listing (d : List Char) (ir vis : String) (l : List (Bool × List Char)) : List (List Char) :=
  l.map fun e => file d (if e.1 then ir else vis) e.2

/-- The names of the files of one kind. -/
def ofKind (k : Bool) (l : List (Bool × List Char)) : List (List Char) :=
  l.filterMap fun e => if e.1 = k then some e.2 else none

/-- The names common to the four kinds of files, in the order of the infrared frames. -/
def common (f m : List (Bool × List Char)) : List (List Char) :=
  (ofKind true f).filter fun n => n ∈ ofKind false f ∧ n ∈ ofKind true m ∧ n ∈ ofKind false m

/-- A record of the ground truth file: infrared image, its extension, visible image, point. -/
structure Rec where
  name : List Char
  ext : List Char
  vis : List Char
  pt : Pt
deriving DecidableEq

/-- The five lines of a record. -/
def Rec.text (r : Rec) : List Char :=
  "IRForeground".toList ++ r.name ++ '.' :: r.ext ++ '\n' :: r.vis ++ '\n' :: Nat.toDigits 10 r.pt.x ++
    '\n' :: Nat.toDigits 10 r.pt.y ++ '\n' :: Nat.toDigits 10 r.pt.d ++ ['\n']

/-- A well-formed record. -/
structure Rec.Ok (r : Rec) : Prop where
  name : IsName r.name
  ext : ∀ c ∈ r.ext, c ≠ '\n' ∧ c ≠ '/' ∧ c ≠ '\\' ∧ c ≠ '.'
  vis : '\n' ∉ r.vis
  x : r.pt.x < 480
  y : r.pt.y < 360
  d : r.pt.d < 100

/-- The file made of some records. -/
def fileText (l : List Rec) : List Char := l.flatMap Rec.text

/-- The points of an image, in the order of the file. -/
def pointsOf (l : List Rec) (name : List Char) : List Pt := (l.filter fun r => r.name = name).map (·.pt)

/-- The disparity at a pixel: that of the last point given for it, and 255 ("don't care") without any. -/
def dispAt (pts : List Pt) (x y : Nat) : Nat :=
  ((pts.filter fun p => p.x = x ∧ p.y = y).getLast?.map (·.d)).getD 255

/-- The directory is not mistaken for a file. -/
def Plain (d : List Char) : Prop := DirList.Absent "IR".toList d ∧ DirList.Absent "Vis".toList d

/-- The greatest disparity of a list of records. -/
def maxDisp (l : List Rec) : Nat := l.foldl (fun c r => max c r.pt.d) 0

/-- The bounds before scaling: those of the range file, with 50 for a missing upper bound, or zero and the greatest
disparity of the records. -/
def bounds (drange : Option (Nat × Option Nat)) (l : List Rec) : Nat × Nat :=
  match drange with
  | none => (0, maxDisp l)
  | some (a, none) => (a, 50)
  | some (a, some b) => (a, b)

/-- A well-formed sequence: frames `f`, masks `m`, ground truth records `l`. -/
structure Good (din dm : List Char) (f m : List (Bool × List Char)) (l : List Rec) : Prop where
  din : Plain din
  dm : Plain dm
  frames : ∀ e ∈ f, IsName e.2
  masks : ∀ e ∈ m, IsName e.2
  some : common f m ≠ []
  once : (common f m).Nodup
  recs : ∀ r ∈ l, r.Ok

end Litiv.Bilodeau
