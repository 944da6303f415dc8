import Verif.Model.MatIO

/-!
# Vocabulary for matrix archives and packing
-/

namespace Litiv.MatIO.Spec

/-- A non-empty matrix that can exist: an OpenCV type id (12 bits), between 2 and 32
dimensions, positive `int` sizes, and exactly as many bytes as its shape asks for, fewer than
2^63. -/
structure Valid (m : Mat) : Prop where
  type_lt : m.type < 4096
  dims_ge : 2 ≤ m.sizes.length
  dims_le : m.sizes.length ≤ 32
  size_pos : ∀ s ∈ m.sizes, 0 < s
  size_lt : ∀ s ∈ m.sizes, s < 2 ^ 31
  len : m.data.length = m.sizes.prod * (depthBytes (m.type % 8) * (m.type / 8 + 1))
  fits : m.data.length < 2 ^ 63

/-- The promises of the LZ4 library: it never produces more bytes than the destination holds,
and what it produces decompresses to the input. -/
structure Lossless (c : Codec) : Prop where
  fits : ∀ src cap, (c.compress src cap).length ≤ cap
  inv : ∀ src cap, c.compress src cap ≠ [] →
    c.decompress (c.compress src cap) src.length = some src

/-- an element type lv::MatType accepts: one of the seven depths, one to four channels -/
def Simple (m : Mat) : Prop := m.type % 8 ≤ 6 ∧ m.type / 8 % 512 < 4

/-- a matrix without elements -/
def Hollow (m : Mat) : Prop := total m.sizes = 0 ∧ m.data = []

end Litiv.MatIO.Spec
