/-!
# Textures and pixel buffers as state

Model of `GLDynamicTexture2DArray` (modules/utils/src/opengl-draw.cpp 271-335) and `GLPixelBufferObject` (opengl-draw.cpp 28-74) over the
part of the state of OpenGL they use: the bound texture array, the two bound pixel buffers, the contents. Images are lists of rows;
columns and types of values are not modelled. `none` stands for a failed assertion (of debug builds) or an error of OpenGL: pixels given
by address while a pixel buffer is bound are looked for in that buffer, where there are none.
-/

namespace Litiv.GLTex

/-- An image: its rows. -/
abbrev Img := List (List Nat)

/-- Fixed properties of objects, by their numbers: rows, layers and mipmap levels of texture arrays; direction and rows of pixel buffers
(`true` for `GL_PIXEL_UNPACK_BUFFER`); whether `glGetTextureSubImage` exists. -/
structure Cfg where
  height : Nat → Nat
  count : Nat → Nat
  levels : Nat → Nat
  unpack : Nat → Bool
  rows : Nat → Nat
  sub : Bool

/-- State of OpenGL. `mips t k` is the image which the lower levels of layer `k` of texture `t` were made from; `bufs p` is `none` when
the contents of a buffer are undefined. No object has number zero. -/
structure GLS where
  texs : Nat → Nat → Img
  mips : Nat → Nat → Img
  bufs : Nat → Option Img
  boundTex : Nat
  boundUnpack : Nat
  boundPack : Nat

/-- A function changed at one place. -/
def upd {α : Type} (f : Nat → α) (i : Nat) (a : α) : Nat → α := fun j => if j = i then a else f j

/-- Calls of the two classes. The last arguments: `bRebindAll`; `bRegenMipmaps`; whether the buffer could be mapped. -/
inductive Op
  | texFromMat (t layer : Nat) (img : Img) (rebind regen : Bool)
  | texFromBuf (t layer p : Nat) (rebind : Bool)
  | matFromTex (t layer : Nat)
  | bufFromTex (t layer p : Nat) (rebind : Bool)
  | bufFromMat (p : Nat) (img : Img) (realloc rebind mapped : Bool)
  | matFromBuf (p : Nat) (rebind mapped : Bool)

/-- What a call gives back: a truth value, or the contents of the matrix given. -/
inductive Out
  | done (ok : Bool)
  | image (img : Option Img)
deriving DecidableEq

/-- `glTexSubImage3D` for one layer of the bound texture; `data` is `none` for a null pointer. -/
def texSub (s : GLS) (layer : Nat) (data : Option Img) : Option GLS :=
  if s.boundTex = 0 then none
  else if s.boundUnpack = 0 then
    data.map fun img => { s with texs := upd s.texs s.boundTex (upd (s.texs s.boundTex) layer img) }
  else if data.isSome then none
  else (s.bufs s.boundUnpack).map fun img => { s with texs := upd s.texs s.boundTex (upd (s.texs s.boundTex) layer img) }

/-- `glGenerateMipmap` of the bound texture. -/
def genMips (s : GLS) : GLS := { s with mips := upd s.mips s.boundTex (s.texs s.boundTex) }

/-- All layers, one below the other. -/
def stack (s : GLS) (t n : Nat) : Img := (List.range n).flatMap (s.texs t)

/-- `updateTexture` with a matrix (opengl-draw.cpp 281-291). -/
def texFromMat (c : Cfg) (s : GLS) (t layer : Nat) (img : Img) (rebind regen : Bool) : Option (GLS × Out) :=
  if img.length = c.height t ∧ layer < c.count t then do
    let s := if rebind then { s with boundTex := t } else s
    let s ← texSub s layer (some img)
    let s := if c.levels t > 1 ∧ regen then genMips s else s
    return (s, .done true)
  else none

/-- `updateTexture` with a pixel buffer (opengl-draw.cpp 293-303). -/
def texFromBuf (c : Cfg) (s : GLS) (t layer p : Nat) (rebind : Bool) : Option (GLS × Out) :=
  if c.unpack p ∧ c.rows p = c.height t ∧ layer < c.count t then do
    let s := if rebind then { s with boundTex := t } else s
    let s := { s with boundUnpack := p }
    let s ← texSub s layer none
    let s := if rebind then { s with boundUnpack := 0 } else s
    return (s, .done true)
  else none

/-- `fetchTexture` into a matrix (opengl-draw.cpp 305-317). -/
def matFromTex (c : Cfg) (s : GLS) (t layer : Nat) : Option (GLS × Out) :=
  if layer < c.count t then
    if c.sub then
      if s.boundPack = 0 then some (s, .image (some (s.texs t layer))) else none
    else
      let s := { s with boundTex := t }
      if s.boundPack = 0 then
        some (s, .image (some (((stack s t (c.count t)).drop (c.height t * layer)).take (c.height t))))
      else none
  else none

/-- `fetchTexture` into a pixel buffer (opengl-draw.cpp 319-335). -/
def bufFromTex (c : Cfg) (s : GLS) (t layer p : Nat) (rebind : Bool) : Option (GLS × Out) :=
  if ¬ c.unpack p ∧ layer < c.count t then
    if c.sub then
      if c.rows p = c.height t then
        let s := { s with boundPack := p }
        let s := { s with bufs := upd s.bufs p (some (s.texs t layer)) }
        some (if rebind then { s with boundPack := 0 } else s, .done true)
      else none
    else
      if c.rows p = c.height t * c.count t then
        let s := { s with boundTex := t, boundPack := p }
        let s := { s with bufs := upd s.bufs p (some (stack s t (c.count t))) }
        some (if rebind then { s with boundPack := 0 } else s, .done true)
      else none
  else none

/-- `updateBuffer` (opengl-draw.cpp 46-60). -/
def bufFromMat (c : Cfg) (s : GLS) (p : Nat) (img : Img) (realloc rebind mapped : Bool) : Option (GLS × Out) :=
  if c.unpack p ∧ img.length = c.rows p then
    let s := { s with boundUnpack := p }
    let s := if realloc then { s with bufs := upd s.bufs p none } else s
    let s := if mapped then { s with bufs := upd s.bufs p (some img) } else s
    some (if rebind then { s with boundUnpack := 0 } else s, .done mapped)
  else none

/-- `fetchBuffer` (opengl-draw.cpp 62-74). The matrix is left as it was when the buffer is not mapped. -/
def matFromBuf (c : Cfg) (s : GLS) (p : Nat) (rebind mapped : Bool) : Option (GLS × Out) :=
  if ¬ c.unpack p then
    let s := { s with boundPack := p }
    some (if rebind then { s with boundPack := 0 } else s, if mapped then .image (s.bufs p) else .done false)
  else none

/-- One call. -/
def step (c : Cfg) (s : GLS) : Op → Option (GLS × Out)
  | .texFromMat t layer img rebind regen => texFromMat c s t layer img rebind regen
  | .texFromBuf t layer p rebind => texFromBuf c s t layer p rebind
  | .matFromTex t layer => matFromTex c s t layer
  | .bufFromTex t layer p rebind => bufFromTex c s t layer p rebind
  | .bufFromMat p img realloc rebind mapped => bufFromMat c s p img realloc rebind mapped
  | .matFromBuf p rebind mapped => matFromBuf c s p rebind mapped

/-- Calls in order: last state and what they gave back. -/
def run (c : Cfg) (s : GLS) : List Op → Option (GLS × List Out)
  | [] => some (s, [])
  | op :: ops => do
    let (s, o) ← step c s op
    let (s, os) ← run c s ops
    return (s, o :: os)

end Litiv.GLTex
