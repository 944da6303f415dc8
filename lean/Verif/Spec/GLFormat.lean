import Verif.Model.GLFormat

/-!
# What formats contain

The contents of formats after the specification of OpenGL (tables of sized internal formats and of pixel formats), and of matrix
types after the documentation of OpenCV.
-/

namespace Litiv.GLFormat

/-- How values of a channel are stored. -/
inductive Kind
  | normalized
  | integer
  | float
deriving DecidableEq

/-- Channels, bytes of a channel, and kind. -/
structure Desc where
  channels : Nat
  bytes : Nat
  kind : Kind
deriving DecidableEq

/-- Sized internal formats. -/
def internalTable : List (Nat × Desc) :=
  [(GL_R8, ⟨1, 1, .normalized⟩), (GL_RGBA8, ⟨4, 1, .normalized⟩), (GL_R8UI, ⟨1, 1, .integer⟩), (GL_RGBA8UI, ⟨4, 1, .integer⟩),
   (GL_R32UI, ⟨1, 4, .integer⟩), (GL_RGB32UI, ⟨3, 4, .integer⟩), (GL_RGBA32UI, ⟨4, 4, .integer⟩), (GL_R32F, ⟨1, 4, .float⟩),
   (GL_RGB32F, ⟨3, 4, .float⟩), (GL_RGBA32F, ⟨4, 4, .float⟩)]

/-- `f` is an internal format with contents `d`. -/
def Internal (f : Nat) (d : Desc) : Prop := (f, d) ∈ internalTable

/-- Depth of a matrix type: bytes, and whether its values are floats. -/
def depthTable : List (Nat × Nat × Bool) := [(CV_8U, 1, false), (CV_32S, 4, false), (CV_32F, 4, true)]

/-- `t` is a matrix type of `n` channels of `bytes` bytes. -/
def MatType (t n bytes : Nat) (float : Bool) : Prop := ∃ depth, (depth, bytes, float) ∈ depthTable ∧ 1 ≤ n ∧ t = depth + (n - 1) * 8

/-- Pixel formats: channels, and whether they are for textures of integers. -/
def pixelTable : List (Nat × Nat × Bool) :=
  [(GL_RED, 1, false), (GL_BGR, 3, false), (GL_BGRA, 4, false), (GL_RED_INTEGER, 1, true), (GL_BGR_INTEGER, 3, true),
   (GL_BGRA_INTEGER, 4, true)]

/-- `glTexSubImage2D` accepts a pixel format: integer formats for textures of integers, others for the others. -/
def Uploads (tex : Tex) : Prop :=
  ∃ d n, Internal tex.internal d ∧ (tex.format, n, decide (d.kind = .integer)) ∈ pixelTable

/-- Format qualifiers of images in GLSL with channels of 8 bits or 32 bits. -/
def qualifiers : List String :=
  ["rgba32f", "rg32f", "r32f", "rgba8", "rg8", "r8", "rgba8_snorm", "rg8_snorm", "r8_snorm", "rgba32i", "rgba8i", "rg32i", "rg8i",
   "r32i", "r8i", "rgba32ui", "rgba8ui", "rg32ui", "rg8ui", "r32ui", "r8ui"]

end Litiv.GLFormat
