import Verif.Spec.GLFormat
import Mathlib.Tactic.Ring
import Mathlib.Tactic.SplitIfs

/-!
# Lemmas on formats
-/

namespace Litiv.GLFormat

theorem uploads_iff (x : Tex) : Uploads x ↔
    (internalTable.any fun e => e.1 == x.internal &&
      pixelTable.any fun p => p.1 == x.format && p.2.2 == decide (e.2.kind = .integer)) = true := by
  unfold Uploads Internal
  simp only [List.any_eq_true, Bool.and_eq_true, beq_iff_eq]
  constructor
  · rintro ⟨d, n, h1, h2⟩
    exact ⟨_, h1, rfl, _, h2, rfl, rfl⟩
  · rintro ⟨⟨f, d⟩, h1, e1, ⟨g, n, b⟩, h2, e2, e3⟩
    dsimp only at e1 e2 e3
    subst e1 e2 e3
    exact ⟨d, n, h1, h2⟩

theorem matType_cases {t n bytes : Nat} {fl : Bool} (h : MatType t n bytes fl) :
    1 ≤ n ∧ ((t = 0 + (n - 1) * 8 ∧ bytes = 1 ∧ fl = false) ∨ (t = 4 + (n - 1) * 8 ∧ bytes = 4 ∧ fl = false) ∨
      (t = 5 + (n - 1) * 8 ∧ bytes = 4 ∧ fl = true)) := by
  obtain ⟨d, hd, hn, rfl⟩ := h
  simp only [depthTable, List.mem_cons, Prod.mk.injEq, List.not_mem_nil, or_false] at hd
  rcases hd with ⟨rfl, rfl, rfl⟩ | ⟨rfl, rfl, rfl⟩ | ⟨rfl, rfl, rfl⟩
  · exact ⟨hn, Or.inl ⟨rfl, rfl, rfl⟩⟩
  · exact ⟨hn, Or.inr (Or.inl ⟨rfl, rfl, rfl⟩)⟩
  · exact ⟨hn, Or.inr (Or.inr ⟨rfl, rfl, rfl⟩)⟩

theorem matType_make {depth n : Nat} (bytes : Nat) (fl : Bool) (hd : (depth, bytes, fl) ∈ depthTable) (hn : 1 ≤ n) :
    MatType (depth + (n - 1) * 8) n bytes fl := ⟨depth, hd, hn, rfl⟩

theorem matType_parts {t n bytes : Nat} {fl : Bool} (h : MatType t n bytes fl) :
    (t % 8, bytes, fl) ∈ depthTable ∧ t / 8 + 1 = n := by
  obtain ⟨d, hd, hn, rfl⟩ := h
  have hlt : d < 8 := by
    simp only [depthTable, List.mem_cons, Prod.mk.injEq, List.not_mem_nil, or_false] at hd
    rcases hd with ⟨rfl, _⟩ | ⟨rfl, _⟩ | ⟨rfl, _⟩ <;> decide
  have e1 : (d + (n - 1) * 8) % 8 = d := by omega
  have e2 : (d + (n - 1) * 8) / 8 + 1 = n := by omega
  rw [e1, e2]
  exact ⟨hd, rfl⟩

/-- The nine supported types. -/
theorem supported_cases {t : Nat} (h : isMatTypeSupported t = true) :
    t = CV_8UC1 ∨ t = CV_8UC3 ∨ t = CV_8UC4 ∨ t = CV_32FC1 ∨ t = CV_32FC3 ∨ t = CV_32FC4 ∨ t = CV_32SC1 ∨ t = CV_32SC3 ∨
      t = CV_32SC4 := by
  unfold isMatTypeSupported at h
  split at h
  · assumption
  · simp at h

theorem supported_iff (t : Nat) : isMatTypeSupported t = true ↔
    ∃ n bytes fl, MatType t n bytes fl ∧ (n = 1 ∨ n = 3 ∨ n = 4) := by
  constructor
  · intro h
    rcases supported_cases h with rfl | rfl | rfl | rfl | rfl | rfl | rfl | rfl | rfl
    · exact ⟨1, 1, false, ⟨0, by decide, by decide, rfl⟩, by decide⟩
    · exact ⟨3, 1, false, ⟨0, by decide, by decide, rfl⟩, by decide⟩
    · exact ⟨4, 1, false, ⟨0, by decide, by decide, rfl⟩, by decide⟩
    · exact ⟨1, 4, true, ⟨5, by decide, by decide, rfl⟩, by decide⟩
    · exact ⟨3, 4, true, ⟨5, by decide, by decide, rfl⟩, by decide⟩
    · exact ⟨4, 4, true, ⟨5, by decide, by decide, rfl⟩, by decide⟩
    · exact ⟨1, 4, false, ⟨4, by decide, by decide, rfl⟩, by decide⟩
    · exact ⟨3, 4, false, ⟨4, by decide, by decide, rfl⟩, by decide⟩
    · exact ⟨4, 4, false, ⟨4, by decide, by decide, rfl⟩, by decide⟩
  · rintro ⟨n, bytes, fl, h, hn⟩
    obtain ⟨_, hc⟩ := matType_cases h
    rcases hn with rfl | rfl | rfl <;> rcases hc with ⟨rfl, _, _⟩ | ⟨rfl, _, _⟩ | ⟨rfl, _, _⟩ <;> rfl

/-- The nine supported types with their contents. -/
theorem mat_nine {t n bytes : Nat} {fl : Bool} (hm : MatType t n bytes fl) (hs : isMatTypeSupported t = true) :
    (t = CV_8UC1 ∧ n = 1 ∧ bytes = 1 ∧ fl = false) ∨ (t = CV_8UC3 ∧ n = 3 ∧ bytes = 1 ∧ fl = false) ∨
    (t = CV_8UC4 ∧ n = 4 ∧ bytes = 1 ∧ fl = false) ∨ (t = CV_32FC1 ∧ n = 1 ∧ bytes = 4 ∧ fl = true) ∨
    (t = CV_32FC3 ∧ n = 3 ∧ bytes = 4 ∧ fl = true) ∨ (t = CV_32FC4 ∧ n = 4 ∧ bytes = 4 ∧ fl = true) ∨
    (t = CV_32SC1 ∧ n = 1 ∧ bytes = 4 ∧ fl = false) ∨ (t = CV_32SC3 ∧ n = 3 ∧ bytes = 4 ∧ fl = false) ∨
    (t = CV_32SC4 ∧ n = 4 ∧ bytes = 4 ∧ fl = false) := by
  obtain ⟨hd, rfl⟩ := matType_parts hm
  simp only [depthTable, List.mem_cons, Prod.mk.injEq, List.not_mem_nil, or_false] at hd
  rcases supported_cases hs with rfl | rfl | rfl | rfl | rfl | rfl | rfl | rfl | rfl <;>
    rcases hd with ⟨h, rfl, rfl⟩ | ⟨h, rfl, rfl⟩ | ⟨h, rfl, rfl⟩ <;> first | exact absurd h (by decide) | decide

theorem unsupported_none {t : Nat} (b : Bool) (h : isMatTypeSupported t ≠ true) : internalOfMat t b = none := by
  unfold isMatTypeSupported at h
  split at h
  · exact absurd rfl h
  · rename_i h'
    unfold internalOfMat
    simp only [not_or] at h'
    obtain ⟨h1, h2, h3, h4, h5, h6, h7, h8, h9⟩ := h'
    simp [h1, h2, h3, h4, h5, h6, h7, h8, h9]

/-- The ten internal formats. -/
theorem internal_cases {f : Nat} {d : Desc} (h : Internal f d) :
    (f = GL_R8 ∧ d = ⟨1, 1, .normalized⟩) ∨ (f = GL_RGBA8 ∧ d = ⟨4, 1, .normalized⟩) ∨ (f = GL_R8UI ∧ d = ⟨1, 1, .integer⟩) ∨
    (f = GL_RGBA8UI ∧ d = ⟨4, 1, .integer⟩) ∨ (f = GL_R32UI ∧ d = ⟨1, 4, .integer⟩) ∨ (f = GL_RGB32UI ∧ d = ⟨3, 4, .integer⟩) ∨
    (f = GL_RGBA32UI ∧ d = ⟨4, 4, .integer⟩) ∨ (f = GL_R32F ∧ d = ⟨1, 4, .float⟩) ∨ (f = GL_RGB32F ∧ d = ⟨3, 4, .float⟩) ∨
    (f = GL_RGBA32F ∧ d = ⟨4, 4, .float⟩) := by
  unfold Internal internalTable at h
  simpa only [List.mem_cons, Prod.mk.injEq, List.not_mem_nil, or_false] using h

theorem internal_exists (f : Nat) : (∃ d, Internal f d) ↔ f = GL_R8 ∨ f = GL_RGBA8 ∨ f = GL_R8UI ∨ f = GL_RGBA8UI ∨ f = GL_R32UI ∨
    f = GL_RGB32UI ∨ f = GL_RGBA32UI ∨ f = GL_R32F ∨ f = GL_RGB32F ∨ f = GL_RGBA32F := by
  constructor
  · rintro ⟨d, h⟩
    rcases internal_cases h with ⟨rfl, _⟩ | ⟨rfl, _⟩ | ⟨rfl, _⟩ | ⟨rfl, _⟩ | ⟨rfl, _⟩ | ⟨rfl, _⟩ | ⟨rfl, _⟩ | ⟨rfl, _⟩ | ⟨rfl, _⟩ |
      ⟨rfl, _⟩ <;> decide
  · rintro (rfl | rfl | rfl | rfl | rfl | rfl | rfl | rfl | rfl | rfl)
    · exact ⟨⟨1, 1, .normalized⟩, by unfold Internal; decide⟩
    · exact ⟨⟨4, 1, .normalized⟩, by unfold Internal; decide⟩
    · exact ⟨⟨1, 1, .integer⟩, by unfold Internal; decide⟩
    · exact ⟨⟨4, 1, .integer⟩, by unfold Internal; decide⟩
    · exact ⟨⟨1, 4, .integer⟩, by unfold Internal; decide⟩
    · exact ⟨⟨3, 4, .integer⟩, by unfold Internal; decide⟩
    · exact ⟨⟨4, 4, .integer⟩, by unfold Internal; decide⟩
    · exact ⟨⟨1, 4, .float⟩, by unfold Internal; decide⟩
    · exact ⟨⟨3, 4, .float⟩, by unfold Internal; decide⟩
    · exact ⟨⟨4, 4, .float⟩, by unfold Internal; decide⟩

theorem pixel_iff (d n : Nat) (b : Bool) : (d, n, b) ∈ pixelTable ↔ dataFormatOf n b = some d := by
  unfold dataFormatOf
  simp only [pixelTable, List.mem_cons, Prod.mk.injEq, List.not_mem_nil, or_false]
  by_cases h1 : n = 1
  · subst h1
    cases b <;> simp [eq_comm]
  · by_cases h3 : n = 3
    · subst h3
      cases b <;> simp [eq_comm]
    · by_cases h4 : n = 4
      · subst h4
        cases b <;> simp [eq_comm]
      · simp [h1, h3, h4]

theorem channels_iff (d n : Nat) : channelsOfData d = some n ↔ ∃ b, (d, n, b) ∈ pixelTable := by
  constructor
  · intro h
    unfold channelsOfData at h
    split_ifs at h with h1 h2 h3
    · obtain rfl := Option.some.inj h
      rcases h1 with rfl | rfl
      · exact ⟨false, by decide⟩
      · exact ⟨true, by decide⟩
    · obtain rfl := Option.some.inj h
      rcases h2 with rfl | rfl
      · exact ⟨false, by decide⟩
      · exact ⟨true, by decide⟩
    · obtain rfl := Option.some.inj h
      rcases h3 with rfl | rfl
      · exact ⟨false, by decide⟩
      · exact ⟨true, by decide⟩
  · rintro ⟨b, h⟩
    simp only [pixelTable, List.mem_cons, Prod.mk.injEq, List.not_mem_nil, or_false] at h
    rcases h with ⟨rfl, rfl, _⟩ | ⟨rfl, rfl, _⟩ | ⟨rfl, rfl, _⟩ | ⟨rfl, rfl, _⟩ | ⟨rfl, rfl, _⟩ | ⟨rfl, rfl, _⟩ <;> decide

theorem depth_round {depth n ty : Nat} (h : dataTypeOf depth n = some ty) : depthOfData ty = some depth := by
  unfold dataTypeOf at h
  split_ifs at h with h1 h2 h3 h4 <;> obtain rfl := Option.some.inj h <;> subst_vars <;> decide

theorem byteSize_iff (depth bytes : Nat) : byteSize depth = some bytes ↔ ∃ fl, (depth, bytes, fl) ∈ depthTable := by
  unfold byteSize
  simp only [depthTable, List.mem_cons, Prod.mk.injEq, List.not_mem_nil, or_false]
  constructor
  · intro h
    split_ifs at h with h1 h2
    · exact ⟨false, Or.inl ⟨h1, (Option.some.inj h).symm, rfl⟩⟩
    · rcases h2 with h2 | h2
      · exact ⟨true, Or.inr (Or.inr ⟨h2, (Option.some.inj h).symm, rfl⟩)⟩
      · exact ⟨false, Or.inr (Or.inl ⟨h2, (Option.some.inj h).symm, rfl⟩)⟩
  · rintro ⟨fl, ⟨rfl, rfl, _⟩ | ⟨rfl, rfl, _⟩ | ⟨rfl, rfl, _⟩⟩ <;> rfl

/-- Formats by name. -/
def ofName (s : String) : Option Nat :=
  ([("r8ui", GL_R8UI), ("r8", GL_R8), ("rgba8ui", GL_RGBA8UI), ("rgba8", GL_RGBA8), ("r32f", GL_R32F), ("rgb32f", GL_RGB32F),
    ("rgba32f", GL_RGBA32F), ("r32ui", GL_R32UI), ("rgb32ui", GL_RGB32UI), ("rgba32ui", GL_RGBA32UI)].find? fun e => e.1 == s).map (·.2)

theorem ofName_glsl {f : Nat} {s : String} (h : glslName f = some s) : ofName s = some f := by
  unfold glslName at h
  split_ifs at h with h1 h2 h3 h4 h5 h6 h7 h8 h9 h10 <;> obtain rfl := Option.some.inj h <;> subst_vars <;> decide

theorem mapM_some {α β : Type} (l : List α) (f : α → Option β) (g : α → β) (h : ∀ a ∈ l, f a = some (g a)) :
    l.mapM f = some (l.map g) := by
  induction l with
  | nil => rfl
  | cons a l ih =>
    rw [List.mapM_cons, h a (by simp), ih (fun b hb => h b (by simp [hb]))]
    rfl

end Litiv.GLFormat
