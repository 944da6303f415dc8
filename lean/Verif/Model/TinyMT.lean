/-!
# Random numbers of shaders

Model of the initialization of the TinyMT32 generators (modules/utils/src/opengl.cpp 200-239) and of the two random functions in
GLSL (modules/utils/src/opengl-shaders.cpp 801-814, 849-872). Words have 32 bits. The values of `rand()` are given.
-/

namespace Litiv.TinyMT

/-- A word. -/
abbrev Word := BitVec 32

/-- `TMT32GenParams` and `TMT32Model` (modules/utils/include/litiv/utils/opengl.hpp 430-437, opengl-shaders.cpp 849-855), without
the unused word. -/
structure Gen where
  s0 : Word
  s1 : Word
  s2 : Word
  s3 : Word
  mat1 : Word
  mat2 : Word
  tmat : Word
deriving DecidableEq

/-- The word with index `i&3` of the status. -/
def Gen.get (p : Gen) (i : Nat) : Word :=
  if i % 4 = 0 then p.s0 else if i % 4 = 1 then p.s1 else if i % 4 = 2 then p.s2 else p.s3

/-- Sets the word with index `i&3` of the status. -/
def Gen.set (p : Gen) (i : Nat) (w : Word) : Gen :=
  if i % 4 = 0 then { p with s0 := w } else if i % 4 = 1 then { p with s1 := w } else if i % 4 = 2 then { p with s2 := w }
  else { p with s3 := w }

/-- Words before the first loop (opengl.cpp 213-217). -/
def start (seed : Word) : Gen :=
  ⟨seed, 0xF20D1B78#32, 0xFF90FFE5#32, 0x30FBDFFF#32, 0xF20D1B78#32, 0xFF90FFE5#32, 0x30FBDFFF#32⟩

/-- One round of the first loop (opengl.cpp 219). -/
def spread (p : Gen) (i : Nat) : Gen :=
  p.set i (p.get i ^^^ (BitVec.ofNat 32 i + 1812433253#32 * (p.get (i - 1) ^^^ (p.get (i - 1) >>> 30))))

/-- One step of the state (opengl.cpp 221-230, opengl-shaders.cpp 857-866). -/
def next (p : Gen) : Gen :=
  let s0 := p.s3
  let s1 := (p.s0 &&& 0x7fffffff#32) ^^^ p.s1 ^^^ p.s2
  let s1 := s1 ^^^ (s1 <<< 1)
  let s0 := s0 ^^^ ((s0 >>> 1) ^^^ s1)
  { p with
    s0 := p.s1
    s1 := p.s2 ^^^ (-(s0 &&& 1#32) &&& p.mat1)
    s2 := (s1 ^^^ (s0 <<< 10)) ^^^ (-(s0 &&& 1#32) &&& p.mat2)
    s3 := s0 }

/-- Repeated steps. -/
def steps : Nat → Gen → Gen
  | 0, p => p
  | n + 1, p => steps n (next p)

/-- The initialization of a generator (opengl.cpp 213-231). -/
def init (seed : Word) : Gen := steps 8 ([1, 2, 3, 4, 5, 6, 7].foldl spread (start seed))

/-- The number made of a state (opengl-shaders.cpp 867-871). -/
def temper (p : Gen) : Word :=
  let t0 := p.s3
  let t1 := p.s0 + (p.s2 >>> 8)
  let t0 := t0 ^^^ t1
  t0 ^^^ (-(t1 &&& 1#32) &&& p.tmat)

/-- `urand(inout TMT32Model)` (opengl-shaders.cpp 856-872). -/
def urand (p : Gen) : Word × Gen := (temper (next p), next p)

/-- The numbers drawn from a generator. -/
def draws : Nat → Gen → List Word
  | 0, _ => []
  | n + 1, p => (urand p).1 :: draws n (urand p).2

/-- The order in which generators are initialized, as places in the array (opengl.cpp 206-212). -/
def places (nx ny nz : Nat) : List Nat :=
  (List.range nz).flatMap fun z => (List.range ny).flatMap fun y => (List.range nx).map fun x => x + (y * nx + z * ny * nx)

/-- `urand(inout uint)` (opengl-shaders.cpp 804-811): the number drawn, which is the next seed. -/
def hash (seed : Word) : Word :=
  let seed := seed + (seed <<< 10)
  let seed := seed ^^^ (seed >>> 6)
  let seed := seed + (seed <<< 3)
  let seed := seed ^^^ (seed >>> 11)
  seed + (seed <<< 15)

end Litiv.TinyMT
