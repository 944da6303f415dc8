/-!
# Threshold table of the shaders

Model of `IBackgroundSubtractorLBSP_GLSL::getLBSPThresholdLUTShaderSource` (modules/video/src/BackgroundSubtractorLBSP.cpp
69-88), which writes the threshold table of the descriptors as GLSL source. Text is a list of characters.
-/

namespace Litiv.LutText

/-- The test for the end of a line of the text (BackgroundSubtractorLBSP.cpp 77), `UCHAR_MAX` being 255. -/
def lineEnd (t : Nat) : Bool := decide (t > 0) && t % ((255 + 1) / 8) == (255 + 1) / 8 - 1 && decide (t < 255)

/-- The text of one entry (BackgroundSubtractorLBSP.cpp 77-82). -/
def entry (lut : Nat → Nat) (t : Nat) : List Char :=
  if lineEnd t then Nat.toDigits 10 (lut t) ++ [',', '\n', ' ', ' ', ' ', ' ']
  else if t < 255 then Nat.toDigits 10 (lut t) ++ [',']
  else Nat.toDigits 10 (lut t) ++ ['\n']

/-- The text of all entries (BackgroundSubtractorLBSP.cpp 76-83). -/
def entries (lut : Nat → Nat) : List Char := (List.range (255 + 1)).flatMap (entry lut)

/-- `getLBSPThresholdLUTShaderSource` (BackgroundSubtractorLBSP.cpp 71-86); `none` if the assertion fails. -/
def source (initialized : Bool) (lut : Nat → Nat) : Option (List Char) :=
  if initialized then
    some ("const uint anLBSPThresLUT[256] = uint[256](\n    ".toList ++ entries lut ++ ");\n".toList)
  else none

end Litiv.LutText
