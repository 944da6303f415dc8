import Verif.Lemmas.GLFormat

/-!
# C238, C239, C240: formats of textures
-/

namespace Litiv.GLFormat

/-! ### C238: conversions -/

/-- C238: the supported matrix types are those of one, three or four channels of bytes, 32-bit integers or floats. -/
theorem mat_supported (t : Nat) : isMatTypeSupported t = true ↔
    ∃ n bytes fl, MatType t n bytes fl ∧ (n = 1 ∨ n = 3 ∨ n = 4) := supported_iff t

/-- C238: the supported internal formats are those of the table. -/
theorem internal_supported (f : Nat) : isInternalFormatSupported f = true ↔ ∃ d, Internal f d := by
  rw [internal_exists]
  unfold isInternalFormatSupported
  split
  · rename_i h
    simp only [true_iff]
    tauto
  · rename_i h
    simp only [Bool.false_eq_true, false_iff]
    tauto

/-- C238: a matrix type has an internal format when it is supported, except that integers of 32 bits have none which is normalized. -/
theorem internal_defined (t : Nat) (b : Bool) : (∃ f, internalOfMat t b = some f) ↔
    isMatTypeSupported t = true ∧ ¬ (b = false ∧ (t = CV_32SC1 ∨ t = CV_32SC3 ∨ t = CV_32SC4)) := by
  by_cases h : isMatTypeSupported t = true
  · simp only [h, true_and]
    rcases supported_cases h with rfl | rfl | rfl | rfl | rfl | rfl | rfl | rfl | rfl <;> cases b <;> simp [internalOfMat]
  · simp [unsupported_none b h, h]

/-- C238: the internal format of a matrix type has the bytes of its channels, floats for floats, integers or normalized values as asked
for, and its channels, with a fourth one added to three channels of bytes. -/
theorem internal_contents (t n bytes : Nat) (fl b : Bool) (f : Nat) (hm : MatType t n bytes fl) (h : internalOfMat t b = some f) :
    ∃ d, Internal f d ∧ d.bytes = bytes ∧
      d.kind = (if fl then Kind.float else if b then Kind.integer else Kind.normalized) ∧
      d.channels = if n = 3 ∧ bytes = 1 then 4 else n := by
  have hs : isMatTypeSupported t = true := by
    by_contra hc
    rw [unsupported_none b hc] at h
    simp at h
  unfold Internal
  rcases mat_nine hm hs with ⟨rfl, rfl, rfl, rfl⟩ | ⟨rfl, rfl, rfl, rfl⟩ | ⟨rfl, rfl, rfl, rfl⟩ | ⟨rfl, rfl, rfl, rfl⟩ |
    ⟨rfl, rfl, rfl, rfl⟩ | ⟨rfl, rfl, rfl, rfl⟩ | ⟨rfl, rfl, rfl, rfl⟩ | ⟨rfl, rfl, rfl, rfl⟩ | ⟨rfl, rfl, rfl, rfl⟩ <;>
    cases b <;> simp [internalOfMat] at h <;> subst h
  · exact ⟨⟨1, 1, .normalized⟩, by decide⟩
  · exact ⟨⟨1, 1, .integer⟩, by decide⟩
  · exact ⟨⟨4, 1, .normalized⟩, by decide⟩
  · exact ⟨⟨4, 1, .integer⟩, by decide⟩
  · exact ⟨⟨4, 1, .normalized⟩, by decide⟩
  · exact ⟨⟨4, 1, .integer⟩, by decide⟩
  · exact ⟨⟨1, 4, .float⟩, by decide⟩
  · exact ⟨⟨1, 4, .float⟩, by decide⟩
  · exact ⟨⟨3, 4, .float⟩, by decide⟩
  · exact ⟨⟨3, 4, .float⟩, by decide⟩
  · exact ⟨⟨4, 4, .float⟩, by decide⟩
  · exact ⟨⟨4, 4, .float⟩, by decide⟩
  · exact ⟨⟨1, 4, .integer⟩, by decide⟩
  · exact ⟨⟨3, 4, .integer⟩, by decide⟩
  · exact ⟨⟨4, 4, .integer⟩, by decide⟩

example : MatType CV_32FC3 3 4 true ∧ internalOfMat CV_32FC3 true = some GL_RGB32F :=
  ⟨⟨5, by decide, by decide, rfl⟩, by decide⟩

/-- C238: what is told about an internal format: its matrix type, channels and whether it holds integers; nothing about numbers which
are none. -/
theorem internal_told (f : Nat) :
    (∀ d, Internal f d → channelsOfInternal f = some d.channels ∧ isIntegral f = some (decide (d.kind = .integer)) ∧
      ∃ t, matOfInternal f = some t ∧ channelsOfMat t = some d.channels ∧ MatType t d.channels d.bytes (decide (d.kind = .float))) ∧
    ((¬ ∃ d, Internal f d) → channelsOfInternal f = none ∧ isIntegral f = none ∧ matOfInternal f = none) := by
  constructor
  · intro d h
    rcases internal_cases h with ⟨rfl, rfl⟩ | ⟨rfl, rfl⟩ | ⟨rfl, rfl⟩ | ⟨rfl, rfl⟩ | ⟨rfl, rfl⟩ | ⟨rfl, rfl⟩ | ⟨rfl, rfl⟩ |
      ⟨rfl, rfl⟩ | ⟨rfl, rfl⟩ | ⟨rfl, rfl⟩
    · exact ⟨by decide, by decide, CV_8UC1, by decide, by decide, 0, by decide, by decide, rfl⟩
    · exact ⟨by decide, by decide, CV_8UC4, by decide, by decide, 0, by decide, by decide, rfl⟩
    · exact ⟨by decide, by decide, CV_8UC1, by decide, by decide, 0, by decide, by decide, rfl⟩
    · exact ⟨by decide, by decide, CV_8UC4, by decide, by decide, 0, by decide, by decide, rfl⟩
    · exact ⟨by decide, by decide, CV_32SC1, by decide, by decide, 4, by decide, by decide, rfl⟩
    · exact ⟨by decide, by decide, CV_32SC3, by decide, by decide, 4, by decide, by decide, rfl⟩
    · exact ⟨by decide, by decide, CV_32SC4, by decide, by decide, 4, by decide, by decide, rfl⟩
    · exact ⟨by decide, by decide, CV_32FC1, by decide, by decide, 5, by decide, by decide, rfl⟩
    · exact ⟨by decide, by decide, CV_32FC3, by decide, by decide, 5, by decide, by decide, rfl⟩
    · exact ⟨by decide, by decide, CV_32FC4, by decide, by decide, 5, by decide, by decide, rfl⟩
  · intro h
    rw [internal_exists] at h
    simp only [not_or] at h
    obtain ⟨h1, h2, h3, h4, h5, h6, h7, h8, h9, h10⟩ := h
    simp [channelsOfInternal, isIntegral, matOfInternal, h1, h2, h3, h4, h5, h6, h7, h8, h9, h10]

example : Internal GL_RGBA8UI ⟨4, 1, .integer⟩ ∧ ¬ ∃ d, Internal 0 d := by
  refine ⟨by unfold Internal; decide, ?_⟩
  rw [internal_exists]
  decide

/-- C238: the matrix type of the internal format of a matrix type is that type, except for three channels of bytes. -/
theorem round_trip_partial (t : Nat) (b : Bool) (f : Nat) (ht : t ≠ CV_8UC3) (h : internalOfMat t b = some f) :
    matOfInternal f = some t := by
  have hs : isMatTypeSupported t = true := by
    by_contra hc
    rw [unsupported_none b hc] at h
    simp at h
  rcases supported_cases hs with rfl | rfl | rfl | rfl | rfl | rfl | rfl | rfl | rfl
  · cases b <;> simp [internalOfMat] at h <;> subst h <;> decide
  · exact absurd rfl ht
  all_goals cases b <;> simp [internalOfMat] at h <;> subst h <;> decide

example : internalOfMat CV_32SC3 true = some GL_RGB32UI ∧ CV_32SC3 ≠ CV_8UC3 := by decide

/-- C238 does not hold for three channels of bytes: the texture has four. -/
theorem round_trip_refuted : ¬ ∀ (t : Nat) (b : Bool) (f : Nat), internalOfMat t b = some f → matOfInternal f = some t := by
  intro h
  exact absurd (h CV_8UC3 true GL_RGBA8UI (by decide)) (by decide)

/-- C238: the normalized format of an internal format has its channels and bytes; integers of 32 bits have none. -/
theorem normalized_contents (f : Nat) (d : Desc) (h : Internal f d) :
    (d.kind = .integer ∧ d.bytes = 4 → normalizedOf f = none) ∧
    (¬ (d.kind = .integer ∧ d.bytes = 4) →
      ∃ g, normalizedOf f = some g ∧ Internal g { d with kind := if d.kind = .integer then .normalized else d.kind }) := by
  unfold Internal
  rcases internal_cases h with ⟨rfl, rfl⟩ | ⟨rfl, rfl⟩ | ⟨rfl, rfl⟩ | ⟨rfl, rfl⟩ | ⟨rfl, rfl⟩ | ⟨rfl, rfl⟩ | ⟨rfl, rfl⟩ |
    ⟨rfl, rfl⟩ | ⟨rfl, rfl⟩ | ⟨rfl, rfl⟩
  · exact ⟨by decide, fun _ => ⟨GL_R8, by decide⟩⟩
  · exact ⟨by decide, fun _ => ⟨GL_RGBA8, by decide⟩⟩
  · exact ⟨by decide, fun _ => ⟨GL_R8, by decide⟩⟩
  · exact ⟨by decide, fun _ => ⟨GL_RGBA8, by decide⟩⟩
  · exact ⟨by decide, fun h => absurd (by decide) h⟩
  · exact ⟨by decide, fun h => absurd (by decide) h⟩
  · exact ⟨by decide, fun h => absurd (by decide) h⟩
  · exact ⟨by decide, fun _ => ⟨GL_R32F, by decide⟩⟩
  · exact ⟨by decide, fun _ => ⟨GL_RGB32F, by decide⟩⟩
  · exact ⟨by decide, fun _ => ⟨GL_RGBA32F, by decide⟩⟩

/-- C238: the integral format of an internal format has its channels and bytes; floats have none. -/
theorem integral_contents (f : Nat) (d : Desc) (h : Internal f d) :
    (d.kind = .float → integralOf f = none) ∧
    (d.kind ≠ .float → ∃ g, integralOf f = some g ∧ Internal g { d with kind := .integer }) := by
  unfold Internal
  rcases internal_cases h with ⟨rfl, rfl⟩ | ⟨rfl, rfl⟩ | ⟨rfl, rfl⟩ | ⟨rfl, rfl⟩ | ⟨rfl, rfl⟩ | ⟨rfl, rfl⟩ | ⟨rfl, rfl⟩ |
    ⟨rfl, rfl⟩ | ⟨rfl, rfl⟩ | ⟨rfl, rfl⟩
  · exact ⟨by decide, fun _ => ⟨GL_R8UI, by decide⟩⟩
  · exact ⟨by decide, fun _ => ⟨GL_RGBA8UI, by decide⟩⟩
  · exact ⟨by decide, fun _ => ⟨GL_R8UI, by decide⟩⟩
  · exact ⟨by decide, fun _ => ⟨GL_RGBA8UI, by decide⟩⟩
  · exact ⟨by decide, fun _ => ⟨GL_R32UI, by decide⟩⟩
  · exact ⟨by decide, fun _ => ⟨GL_RGB32UI, by decide⟩⟩
  · exact ⟨by decide, fun _ => ⟨GL_RGBA32UI, by decide⟩⟩
  · exact ⟨by decide, fun h => absurd rfl h⟩
  · exact ⟨by decide, fun h => absurd rfl h⟩
  · exact ⟨by decide, fun h => absurd rfl h⟩

/-- C238: pixel formats are those of the table, in both directions. -/
theorem pixel_formats (d n : Nat) (b : Bool) :
    (dataFormatOf n b = some d ↔ (d, n, b) ∈ pixelTable) ∧ (channelsOfData d = some n ↔ ∃ c, (d, n, c) ∈ pixelTable) :=
  ⟨(pixel_iff d n b).symm, channels_iff d n⟩

/-- C238: a type of data gives back the depth it was made from, and depths have the bytes of the table. -/
theorem data_types (depth n : Nat) :
    (∀ ty, dataTypeOf depth n = some ty → depthOfData ty = some depth) ∧
    ∀ bytes, byteSize depth = some bytes ↔ ∃ fl, (depth, bytes, fl) ∈ depthTable :=
  ⟨fun _ h => depth_round h, fun bytes => byteSize_iff depth bytes⟩

example : dataTypeOf CV_8U 4 = some GL_UNSIGNED_INT_8_8_8_8_REV := by decide

/-! ### C239: textures from matrices, and images in shaders -/

/-- C239: a texture is made for each matrix type which has an internal format; its pixel format has the channels of the matrix. Its
pixels can be uploaded unless floats are asked for as integers. -/
theorem upload_partial (t n bytes : Nat) (fl b : Bool) (f : Nat) (hm : MatType t n bytes fl) (h : internalOfMat t b = some f) :
    ∃ x, texture t b = some x ∧ x.internal = f ∧ channelsOfData x.format = some n ∧ depthOfData x.type = some (t % 8) ∧
      (Uploads x ↔ ¬ (fl = true ∧ b = true)) := by
  have hs : isMatTypeSupported t = true := by
    by_contra hc
    rw [unsupported_none b hc] at h
    simp at h
  rcases mat_nine hm hs with ⟨rfl, rfl, rfl, rfl⟩ | ⟨rfl, rfl, rfl, rfl⟩ | ⟨rfl, rfl, rfl, rfl⟩ | ⟨rfl, rfl, rfl, rfl⟩ |
    ⟨rfl, rfl, rfl, rfl⟩ | ⟨rfl, rfl, rfl, rfl⟩ | ⟨rfl, rfl, rfl, rfl⟩ | ⟨rfl, rfl, rfl, rfl⟩ | ⟨rfl, rfl, rfl, rfl⟩ <;>
    cases b <;> simp [internalOfMat] at h <;> subst h <;>
    refine ⟨_, rfl, rfl, by decide, by decide, ?_⟩ <;> rw [uploads_iff] <;> decide

/-- C239 does not hold for matrices of floats in textures of integers: the formats chosen do not match. -/
theorem upload_refuted : ¬ ∀ (t : Nat) (b : Bool) (x : Tex), texture t b = some x → Uploads x := by
  intro h
  have := h CV_32FC1 true ⟨GL_R32F, GL_RED_INTEGER, GL_FLOAT⟩ (by decide)
  rw [uploads_iff] at this
  exact absurd this (by decide)

/-- C239: different internal formats have different names in GLSL. -/
theorem names_distinct (f g : Nat) (s : String) (hf : glslName f = some s) (hg : glslName g = some s) : f = g := by
  have h1 := ofName_glsl hf
  rw [ofName_glsl hg] at h1
  exact (Option.some.inj h1).symm

example : glslName GL_RGBA8UI = some "rgba8ui" := by decide

/-- C239: each internal format has a name, which is a qualifier of images when it has one or four channels. -/
theorem names_valid_partial (f : Nat) (d : Desc) (h : Internal f d) :
    ∃ s, glslName f = some s ∧ (s ∈ qualifiers ↔ d.channels ≠ 3) := by
  rcases internal_cases h with ⟨rfl, rfl⟩ | ⟨rfl, rfl⟩ | ⟨rfl, rfl⟩ | ⟨rfl, rfl⟩ | ⟨rfl, rfl⟩ | ⟨rfl, rfl⟩ | ⟨rfl, rfl⟩ |
    ⟨rfl, rfl⟩ | ⟨rfl, rfl⟩ | ⟨rfl, rfl⟩ <;> exact ⟨_, rfl, by decide⟩

/-- C239 does not hold for three channels: GLSL has no such image. -/
theorem names_valid_refuted : ¬ ∀ (t : Nat) (b : Bool) (f : Nat) (s : String), internalOfMat t b = some f → glslName f = some s →
    s ∈ qualifiers := by
  intro h
  exact absurd (h CV_32FC3 false GL_RGB32F "rgb32f" (by decide) (by decide)) (by decide)

/-! ### C240: images copied from memory -/

/-- C240: images of a type stored one after the other are copied each from its own place: row `r` of image `k` is read from where it was
written, with its width. -/
theorem copies (t n bytes : Nat) (fl b : Bool) (count width height first d ty : Nat) (hm : MatType t n bytes fl)
    (hd : dataFormatOf n b = some d) (ht : dataTypeOf (t % 8) n = some ty) (hc : 0 < count) (hw : 0 < width) (hh : 0 < height) :
    ∃ ms, copyImages count width height first d ty = some ms ∧ ms.length = count ∧
      ∀ (k : Nat) (m : Over), ms[k]? = some m → m.type = t ∧ m.rows = height ∧ m.cols = width ∧
        ∀ r < height, m.row (n * bytes) r = (first + (k * height + r) * (width * (n * bytes)), width * (n * bytes)) := by
  obtain ⟨hd8, hn⟩ := matType_parts hm
  have e1 := depth_round ht
  have e2 := (channels_iff d n).2 ⟨b, (pixel_iff d n b).2 hd⟩
  have e3 := (byteSize_iff (t % 8) bytes).2 ⟨fl, hd8⟩
  have et : makeType (t % 8) n = t := by
    unfold makeType
    omega
  have hci : ∀ p, copyImage width height p d ty = some ⟨t, height, width, p, width * n * bytes⟩ := by
    intro p
    unfold copyImage
    rw [if_pos ⟨hw, hh⟩, e1, e2]
    simp only [Option.bind_eq_bind, Option.bind_some]
    rw [e3]
    simp only [Option.bind_some, et]
    rfl
  refine ⟨(List.range count).map fun k => ⟨t, height, width, first + k * (height * width * n * bytes), width * n * bytes⟩, ?_, ?_, ?_⟩
  · unfold copyImages
    rw [if_pos ⟨hc, hw, hh⟩, e1, e2]
    simp only [Option.bind_eq_bind, Option.bind_some]
    rw [e3]
    simp only [Option.bind_some]
    exact mapM_some _ _ _ fun k _ => hci _
  · simp
  · intro k m hk
    rw [List.getElem?_map] at hk
    by_cases hkc : k < count
    · rw [List.getElem?_range hkc] at hk
      simp only [Option.map_some, Option.some.injEq] at hk
      subst hk
      refine ⟨rfl, rfl, rfl, fun r _ => ?_⟩
      unfold Over.row
      simp only [Prod.mk.injEq, and_true]
      ring
    · rw [List.getElem?_eq_none (by simpa using hkc)] at hk
      simp at hk

example : MatType CV_8UC3 3 1 false ∧ dataFormatOf 3 true = some GL_BGR_INTEGER ∧ dataTypeOf (CV_8UC3 % 8) 3 = some GL_UNSIGNED_BYTE :=
  ⟨⟨0, by decide, by decide, rfl⟩, by decide, by decide⟩

/-- C240: a pixel buffer has the bytes of its matrix. -/
theorem buffer (rows cols t n bytes : Nat) (fl : Bool) (hm : MatType t n bytes fl) :
    bufferSize rows cols t = some (rows * (cols * (n * bytes))) := by
  obtain ⟨hd8, hn⟩ := matType_parts hm
  unfold bufferSize
  rw [(byteSize_iff (t % 8) bytes).2 ⟨fl, hd8⟩, hn]
  simp only [Option.bind_eq_bind, Option.bind_some]
  show some _ = some _
  congr 1
  ring

end Litiv.GLFormat
