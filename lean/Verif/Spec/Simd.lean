import Verif.Model.Simd
import Mathlib.Data.List.Forall2

/-!
# Vocabulary for SIMD helpers
-/

namespace Litiv.Simd.Spec

/-- the value of a 32-bit lane as the C type `int32_t` -/
def int32 (r : Reg) (i : Nat) : Int := (BitVec.ofNat 32 (u32 r i)).toInt

/-- sum of the sixteen bytes -/
def byteSum (r : Reg) : Nat := ((List.range 16).map (fun k => (r k).toNat)).sum

/-- the packed colour: luma in the low byte, then the high halves of Cr and Cb -/
def packed (y cr cb : Byte) : BitVec 16 :=
  (cb.extractLsb' 4 4 ++ cr.extractLsb' 4 4 ++ y : BitVec 16)

/-- a chroma byte without its low four bits -/
def coarse (c : Byte) : Byte := c.extractLsb' 4 4 ++ 0#4

/-- the smallest multiple of `n` that is at least `x` -/
def pad (x n : Nat) : Nat := (x + n - 1) / n * n

/-- the bytes an array of the given shape takes, in unbounded arithmetic, when every sub-array
is padded to a multiple of `n` and one element takes `e` bytes -/
def slab (n e : Nat) : List Nat → Nat
  | [] => e
  | s :: ss => pad (s * slab n e ss) n

/-- a multi-index inside a shape -/
def Inside (sizes idx : List Nat) : Prop := List.Forall₂ (fun s i => i < s) sizes idx

end Litiv.Simd.Spec
