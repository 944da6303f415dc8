import Verif.Model.GLTex

/-!
# Textures and pixel buffers as containers
-/

namespace Litiv.GLTex

/-- Contents of containers: layers of textures, and buffers. -/
structure Store where
  tex : Nat → Nat → Img
  buf : Nat → Option Img

/-- The containers of a state. -/
def store (s : GLS) : Store := ⟨s.texs, s.bufs⟩

/-- What calls should do to containers, whatever was called before: a layer or a buffer gets what it is given, all others stay. -/
def Store.step (a : Store) : Op → Store × Out
  | .texFromMat t layer img _ _ => (⟨fun u k => if u = t ∧ k = layer then img else a.tex u k, a.buf⟩, .done true)
  | .texFromBuf t layer p _ =>
    (⟨fun u k => if u = t ∧ k = layer then (a.buf p).getD (a.tex u k) else a.tex u k, a.buf⟩, .done true)
  | .matFromTex t layer => (a, .image (some (a.tex t layer)))
  | .bufFromTex t layer p _ => (⟨a.tex, fun q => if q = p then some (a.tex t layer) else a.buf q⟩, .done true)
  | .bufFromMat p img realloc _ mapped =>
    (⟨a.tex, fun q => if q = p then (if mapped then some img else if realloc then none else a.buf q) else a.buf q⟩, .done mapped)
  | .matFromBuf p _ mapped => (a, if mapped then .image (a.buf p) else .done false)

def Store.run (a : Store) : List Op → Store × List Out
  | [] => (a, [])
  | op :: ops => (((a.step op).1.run ops).1, (a.step op).2 :: ((a.step op).1.run ops).2)

/-- The call respects what the classes ask for: objects exist, layers exist, sizes and directions match, and buffers which are copied
into a texture have defined contents. -/
def Proper (c : Cfg) (a : Store) : Op → Prop
  | .texFromMat t layer img _ _ => t ≠ 0 ∧ layer < c.count t ∧ img.length = c.height t
  | .texFromBuf t layer p _ => t ≠ 0 ∧ p ≠ 0 ∧ layer < c.count t ∧ c.unpack p = true ∧ c.rows p = c.height t ∧ (a.buf p).isSome
  | .matFromTex t layer => t ≠ 0 ∧ layer < c.count t
  | .bufFromTex t layer p _ => t ≠ 0 ∧ p ≠ 0 ∧ layer < c.count t ∧ c.unpack p = false ∧
      c.rows p = if c.sub then c.height t else c.height t * c.count t
  | .bufFromMat p img _ _ _ => p ≠ 0 ∧ c.unpack p = true ∧ img.length = c.rows p
  | .matFromBuf p _ _ => p ≠ 0 ∧ c.unpack p = false

def ProperAll (c : Cfg) (a : Store) : List Op → Prop
  | [] => True
  | op :: ops => Proper c a op ∧ ProperAll c (a.step op).1 ops

/-- The call asks for bindings to be set and reset. -/
def Rebinds : Op → Prop
  | .texFromMat _ _ _ rebind _ => rebind = true
  | .texFromBuf _ _ _ rebind => rebind = true
  | .matFromTex _ _ => True
  | .bufFromTex _ _ _ rebind => rebind = true
  | .bufFromMat _ _ _ rebind _ => rebind = true
  | .matFromBuf _ rebind _ => rebind = true

/-- The call does not copy one of several layers into a buffer. -/
def NoPart (c : Cfg) : Op → Prop
  | .bufFromTex t _ _ _ => c.sub = true ∨ c.count t = 1
  | _ => True

/-- The call writes no texture, or one from a matrix together with its lower levels. -/
def Regens : Op → Prop
  | .texFromMat _ _ _ rebind regen => rebind = true ∧ regen = true
  | .texFromBuf _ _ _ _ => False
  | _ => True

/-- Contents have the sizes of their containers, and no pixel buffer is bound. -/
structure Start (c : Cfg) (s : GLS) : Prop where
  tex : ∀ t k, (s.texs t k).length = c.height t
  buf : ∀ p img, s.bufs p = some img → img.length = c.rows p
  unpack : s.boundUnpack = 0
  pack : s.boundPack = 0

/-- Lower levels of a texture were made from its layers as they are. -/
def Fresh (c : Cfg) (s : GLS) (t : Nat) : Prop := c.levels t > 1 → ∀ k, s.mips t k = s.texs t k

end Litiv.GLTex
