/-!
# Formats of textures

Model of the conversions between matrix types and formats of OpenGL (modules/utils/include/litiv/utils/opengl.hpp 127-405), of the
formats of `GLTexture2D` made from a matrix (modules/utils/src/opengl-draw.cpp 113-122), of the size of pixel buffers
(opengl-draw.cpp 28-34) and of the copies of images from memory (modules/utils/src/opengl.cpp 157-181). Formats and types are numbers,
as in the code; the values are those of the headers of OpenGL and OpenCV. `lvError` is `none`.
-/

namespace Litiv.GLFormat

abbrev GL_R8 : Nat := 0x8229
abbrev GL_R8UI : Nat := 0x8232
abbrev GL_R32UI : Nat := 0x8236
abbrev GL_R32F : Nat := 0x822E
abbrev GL_RGB32UI : Nat := 0x8D71
abbrev GL_RGB32F : Nat := 0x8815
abbrev GL_RGBA8 : Nat := 0x8058
abbrev GL_RGBA8UI : Nat := 0x8D7C
abbrev GL_RGBA32UI : Nat := 0x8D70
abbrev GL_RGBA32F : Nat := 0x8814
abbrev GL_RED : Nat := 0x1903
abbrev GL_RED_INTEGER : Nat := 0x8D94
abbrev GL_BGR : Nat := 0x80E0
abbrev GL_BGR_INTEGER : Nat := 0x8D9A
abbrev GL_BGRA : Nat := 0x80E1
abbrev GL_BGRA_INTEGER : Nat := 0x8D9B
abbrev GL_UNSIGNED_BYTE : Nat := 0x1401
abbrev GL_UNSIGNED_INT : Nat := 0x1405
abbrev GL_FLOAT : Nat := 0x1406
abbrev GL_UNSIGNED_INT_8_8_8_8_REV : Nat := 0x8367

/-- `CV_MAKETYPE(depth,channels)`. -/
abbrev makeType (depth channels : Nat) : Nat := depth + (channels - 1) * 8

abbrev CV_8U : Nat := 0
abbrev CV_32S : Nat := 4
abbrev CV_32F : Nat := 5
abbrev CV_8UC1 : Nat := 0
abbrev CV_8UC3 : Nat := 16
abbrev CV_8UC4 : Nat := 24
abbrev CV_32SC1 : Nat := 4
abbrev CV_32SC3 : Nat := 20
abbrev CV_32SC4 : Nat := 28
abbrev CV_32FC1 : Nat := 5
abbrev CV_32FC3 : Nat := 21
abbrev CV_32FC4 : Nat := 29

/-- `isInternalFormatSupported` (opengl.hpp 127-143). -/
def isInternalFormatSupported (f : Nat) : Bool :=
  if f = GL_R8 ∨ f = GL_R8UI ∨ f = GL_R32UI ∨ f = GL_R32F ∨ f = GL_RGB32UI ∨ f = GL_RGB32F ∨ f = GL_RGBA8 ∨ f = GL_RGBA8UI ∨ f = GL_RGBA32UI ∨ f = GL_RGBA32F then true
  else false

/-- `isMatTypeSupported` (opengl.hpp 145-160). -/
def isMatTypeSupported (t : Nat) : Bool :=
  if t = CV_8UC1 ∨ t = CV_8UC3 ∨ t = CV_8UC4 ∨ t = CV_32FC1 ∨ t = CV_32FC3 ∨ t = CV_32FC4 ∨ t = CV_32SC1 ∨ t = CV_32SC3 ∨ t = CV_32SC4 then true
  else false

/-- `getInternalFormatFromMatType` (opengl.hpp 162-184). -/
def internalOfMat (t : Nat) (integral : Bool) : Option Nat :=
  if t = CV_8UC1 then some (if integral then GL_R8UI else GL_R8)
  else if t = CV_8UC3 ∨ t = CV_8UC4 then some (if integral then GL_RGBA8UI else GL_RGBA8)
  else if t = CV_32FC1 then some GL_R32F
  else if t = CV_32FC3 then some GL_RGB32F
  else if t = CV_32FC4 then some GL_RGBA32F
  else if t = CV_32SC1 then if integral then some GL_R32UI else none
  else if t = CV_32SC3 then if integral then some GL_RGB32UI else none
  else if t = CV_32SC4 then if integral then some GL_RGBA32UI else none
  else none

/-- `getNormalizedIntegralFormatFromInternalFormat` (opengl.hpp 186-204). -/
def normalizedOf (f : Nat) : Option Nat :=
  if f = GL_R8UI then some GL_R8
  else if f = GL_RGBA8UI then some GL_RGBA8
  else if f = GL_R8 ∨ f = GL_R32F ∨ f = GL_RGBA8 ∨ f = GL_RGB32F ∨ f = GL_RGBA32F then some f
  else none

/-- `getIntegralFormatFromInternalFormat` (opengl.hpp 206-225). -/
def integralOf (f : Nat) : Option Nat :=
  if f = GL_R8 then some GL_R8UI
  else if f = GL_RGBA8 then some GL_RGBA8UI
  else if f = GL_R8UI ∨ f = GL_R32UI ∨ f = GL_RGBA8UI ∨ f = GL_RGB32UI ∨ f = GL_RGBA32UI then some f
  else none

/-- `getGLSLFormatNameFromInternalFormat` (opengl.hpp 227-252). -/
def glslName (f : Nat) : Option String :=
  if f = GL_R8UI then some "r8ui"
  else if f = GL_R8 then some "r8"
  else if f = GL_RGBA8UI then some "rgba8ui"
  else if f = GL_RGBA8 then some "rgba8"
  else if f = GL_R32F then some "r32f"
  else if f = GL_RGB32F then some "rgb32f"
  else if f = GL_RGBA32F then some "rgba32f"
  else if f = GL_R32UI then some "r32ui"
  else if f = GL_RGB32UI then some "rgb32ui"
  else if f = GL_RGBA32UI then some "rgba32ui"
  else none

/-- `isInternalFormatIntegral` (opengl.hpp 254-271). -/
def isIntegral (f : Nat) : Option Bool :=
  if f = GL_R8UI ∨ f = GL_R32UI ∨ f = GL_RGBA8UI ∨ f = GL_RGB32UI ∨ f = GL_RGBA32UI then some true
  else if f = GL_R8 ∨ f = GL_RGBA8 ∨ f = GL_R32F ∨ f = GL_RGB32F ∨ f = GL_RGBA32F then some false
  else none

/-- `getMatTypeFromInternalFormat` (opengl.hpp 273-297). -/
def matOfInternal (f : Nat) : Option Nat :=
  if f = GL_R8UI ∨ f = GL_R8 then some CV_8UC1
  else if f = GL_RGBA8UI ∨ f = GL_RGBA8 then some CV_8UC4
  else if f = GL_R32F then some CV_32FC1
  else if f = GL_RGB32F then some CV_32FC3
  else if f = GL_RGBA32F then some CV_32FC4
  else if f = GL_R32UI then some CV_32SC1
  else if f = GL_RGB32UI then some CV_32SC3
  else if f = GL_RGBA32UI then some CV_32SC4
  else none

/-- `getDataFormatFromChannels` (opengl.hpp 299-310). -/
def dataFormatOf (n : Nat) (integral : Bool) : Option Nat :=
  if n = 1 then some (if integral then GL_RED_INTEGER else GL_RED)
  else if n = 3 then some (if integral then GL_BGR_INTEGER else GL_BGR)
  else if n = 4 then some (if integral then GL_BGRA_INTEGER else GL_BGRA)
  else none

/-- `getChannelsFromDataFormat` (opengl.hpp 312-326). -/
def channelsOfData (d : Nat) : Option Nat :=
  if d = GL_RED ∨ d = GL_RED_INTEGER then some 1
  else if d = GL_BGR ∨ d = GL_BGR_INTEGER then some 3
  else if d = GL_BGRA ∨ d = GL_BGRA_INTEGER then some 4
  else none

/-- `getDataTypeFromMatDepth` (opengl.hpp 328-339). -/
def dataTypeOf (depth channels : Nat) : Option Nat :=
  if depth = CV_8U then some (if channels = 4 then GL_UNSIGNED_INT_8_8_8_8_REV else GL_UNSIGNED_BYTE)
  else if depth = CV_32F then some GL_FLOAT
  else if depth = CV_32S then some GL_UNSIGNED_INT
  else none

/-- `getMatDepthFromDataType` (opengl.hpp 341-353). -/
def depthOfData (ty : Nat) : Option Nat :=
  if ty = GL_UNSIGNED_BYTE ∨ ty = GL_UNSIGNED_INT_8_8_8_8_REV then some CV_8U
  else if ty = GL_FLOAT then some CV_32F
  else if ty = GL_UNSIGNED_INT then some CV_32S
  else none

/-- `getByteSizeFromMatDepth` (opengl.hpp 355-365). -/
def byteSize (depth : Nat) : Option Nat :=
  if depth = CV_8U then some 1
  else if depth = CV_32F ∨ depth = CV_32S then some 4
  else none

/-- `getChannelsFromMatType` (opengl.hpp 367-384). -/
def channelsOfMat (t : Nat) : Option Nat :=
  if t = CV_8UC1 ∨ t = CV_32FC1 ∨ t = CV_32SC1 then some 1
  else if t = CV_8UC3 ∨ t = CV_32FC3 ∨ t = CV_32SC3 then some 3
  else if t = CV_8UC4 ∨ t = CV_32FC4 ∨ t = CV_32SC4 then some 4
  else none

/-- `getChannelsFromInternalFormat` (opengl.hpp 386-405). -/
def channelsOfInternal (f : Nat) : Option Nat :=
  if f = GL_R8 ∨ f = GL_R8UI ∨ f = GL_R32F ∨ f = GL_R32UI then some 1
  else if f = GL_RGB32F ∨ f = GL_RGB32UI then some 3
  else if f = GL_RGBA8 ∨ f = GL_RGBA8UI ∨ f = GL_RGBA32F ∨ f = GL_RGBA32UI then some 4
  else none

/-- Formats of a texture: internal, data, type of data. -/
structure Tex where
  internal : Nat
  format : Nat
  type : Nat
deriving DecidableEq

/-- Formats chosen by `GLTexture2D(nLevels,oTexture,bUseIntegralFormat)` (opengl-draw.cpp 113-122); `depth()` and `channels()` of the
matrix are those of its type. -/
def texture (t : Nat) (integral : Bool) : Option Tex := do
  let i ← internalOfMat t integral
  let d ← dataFormatOf (t / 8 + 1) integral
  let ty ← dataTypeOf (t % 8) (t / 8 + 1)
  return ⟨i, d, ty⟩

/-- `m_nBufferSize` (opengl-draw.cpp 31), without overflow. -/
def bufferSize (rows cols t : Nat) : Option Nat := do
  let b ← byteSize (t % 8)
  return rows * cols * (t / 8 + 1) * b

/-- A matrix over memory: type, rows, columns, first byte and bytes between rows. -/
structure Over where
  type : Nat
  rows : Nat
  cols : Nat
  first : Nat
  rowStep : Nat
deriving DecidableEq

/-- `deepCopyImage` (opengl.cpp 157-162): the matrix over memory which is cloned. -/
def copyImage (width height first d ty : Nat) : Option Over :=
  if width > 0 ∧ height > 0 then do
    let depth ← depthOfData ty
    let channels ← channelsOfData d
    let b ← byteSize depth
    return ⟨makeType depth channels, height, width, first, width * channels * b⟩
  else none

/-- `deepCopyImages` (opengl.cpp 172-181). -/
def copyImages (count width height first d ty : Nat) : Option (List Over) :=
  if count > 0 ∧ width > 0 ∧ height > 0 then do
    let depth ← depthOfData ty
    let channels ← channelsOfData d
    let b ← byteSize depth
    let size := height * width * channels * b
    (List.range count).mapM fun k => copyImage width height (first + k * size) d ty
  else none

/-- The bytes of row `r` of a matrix over memory: first and number. -/
def Over.row (m : Over) (bytes r : Nat) : Nat × Nat := (m.first + r * m.rowStep, m.cols * bytes)

end Litiv.GLFormat
