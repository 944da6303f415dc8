import Verif.Lemmas.LineNum

/-!
# C237: line numbers of shader sources
-/

namespace Litiv.LineNum

/-- C237: a source without characters gives a text without characters. -/
theorem empty (tab : Bool) : addLineNumbers [] tab = [] := rfl

/-- C237: the text has as many lines as the source, and each line is the line of the source with its number, from one, in front. -/
theorem numbered (src : List Char) (tab : Bool) (h : src ≠ []) :
    (lines (addLineNumbers src tab)).length = (lines src).length ∧
    ∀ (i : Nat) (line out : List Char), (lines src)[i]? = some line → (lines (addLineNumbers src tab))[i]? = some out →
      Numbered tab (i + 1) line out := by
  rw [lines_out tab src h]
  refine ⟨number_length tab 1 _, ?_⟩
  intro i line out h1 h2
  rw [number_get, h1] at h2
  simp only [Option.map_some, Option.some.injEq] at h2
  rw [← h2, Nat.add_comm i 1]
  exact pre_numbered tab (1 + i) line

example : "a\n\nb".toList ≠ [] ∧ lines "a\n\nb".toList = ["a".toList, [], "b".toList] ∧
    lines (addLineNumbers "a\n\nb".toList true) = ["\t000001: a".toList, "\t000002: ".toList, "\t000003: b".toList] := by
  decide +kernel

/-- C237: the source can be told from the text. -/
theorem recover (s t : List Char) (tab : Bool) : addLineNumbers s tab = addLineNumbers t tab ↔ s = t := by
  constructor
  · intro h
    have ne : ∀ (u : List Char), u ≠ [] → addLineNumbers u tab ≠ [] := by
      intro u hu h0
      rw [out_eq tab u hu] at h0
      have := congrArg List.length h0
      simp [pre, format] at this
    by_cases hs : s = []
    · by_cases ht : t = []
      · rw [hs, ht]
      · rw [hs] at h
        exact absurd h.symm (ne t ht)
    · by_cases ht : t = []
      · rw [ht] at h
        exact absurd h (ne s hs)
      · have := congrArg lines h
        rw [lines_out tab s hs, lines_out tab t ht] at this
        exact lines_inj (number_inj tab 1 this)
  · intro h
    rw [h]

end Litiv.LineNum
