import Verif.Lemmas.LutText

/-!
# Threshold table of the shaders
-/

namespace Litiv.LutText

/-- **Table.** The source is made exactly once the algorithm is initialized, and declares the array `anLBSPThresLUT` with the
256 thresholds of the table, in order. -/
theorem table_declared (initialized : Bool) (lut : Nat → Nat) :
    ((source initialized lut).isSome ↔ initialized = true) ∧
    ∀ text, source initialized lut = some text → Declares text "anLBSPThresLUT".toList ((List.range 256).map lut) := by
  refine ⟨by cases initialized <;> simp [source], ?_⟩
  intro text h
  cases initialized with
  | false => cases h
  | true =>
    cases h
    refine ⟨'\n' :: ' ' :: ' ' :: ' ' :: ' ' :: entries lut, ?_, ?_⟩
    · rw [List.length_map, List.length_range]
      have : Nat.toDigits 10 256 = ['2', '5', '6'] := by decide
      rw [this]
      rfl
    · rw [read_space _ _ (Or.inr rfl), read_space _ _ (Or.inl rfl), read_space _ _ (Or.inl rfl), read_space _ _ (Or.inl rfl),
        read_space _ _ (Or.inl rfl), read_entries]

/-- **Tables are told apart.** Two tables have the same source exactly if all 256 thresholds are equal. -/
theorem table_injective (lut lut' : Nat → Nat) : source true lut = source true lut' ↔ ∀ t < 256, lut t = lut' t := by
  constructor
  · intro h t ht
    unfold source at h
    rw [if_pos rfl, if_pos rfl, Option.some.injEq] at h
    have h' := List.append_cancel_left (List.append_cancel_right h)
    have h1 := read_entries lut
    rw [h', read_entries lut', Option.some.injEq, List.map_inj_left] at h1
    exact (h1 t (List.mem_range.2 ht)).symm
  · intro h
    have : entries lut = entries lut' := by
      unfold entries
      rw [List.flatMap_def, List.flatMap_def]
      congr 1
      apply List.map_congr_left
      intro t ht
      unfold entry
      rw [h t (List.mem_range.1 ht)]
    unfold source
    rw [this]

/-- The reader takes numbers, and rejects a missing comma, an empty argument and an octal literal. -/
example : read .empty "\n  10,0 ,255\n".toList = some [10, 0, 255] ∧ read .empty "1 2".toList = none ∧
    read .empty "1,,2".toList = none ∧ read .empty "1,".toList = none ∧ read .empty "010".toList = none := by
  decide

/-- A table with thresholds of one, two and three digits: the first and last entries. -/
example : entry (fun t => t) 31 = "31,\n    ".toList ∧ entry (fun t => t) 32 = "32,".toList ∧
    entry (fun t => t) 255 = "255\n".toList := by decide

end Litiv.LutText
