import Verif.Lemmas.Packets
import Verif.Spec.LutText

/-!
# Lemmas on the text of the threshold table
-/

namespace Litiv.LutText

theorem digit_facts (k : Nat) (hk : k < 10) :
    Nat.digitChar k ≠ ',' ∧ ¬ (Nat.digitChar k = ' ' ∨ Nat.digitChar k = '\n') ∧
    ('0'.toNat ≤ (Nat.digitChar k).toNat ∧ (Nat.digitChar k).toNat ≤ '9'.toNat) ∧
    (Nat.digitChar k).toNat - '0'.toNat = k := by
  have : k = 0 ∨ k = 1 ∨ k = 2 ∨ k = 3 ∨ k = 4 ∨ k = 5 ∨ k = 6 ∨ k = 7 ∨ k = 8 ∨ k = 9 := by omega
  rcases this with rfl | rfl | rfl | rfl | rfl | rfl | rfl | rfl | rfl | rfl <;> decide

theorem read_digits (n : Nat) : ∀ r, read .empty (Nat.toDigits 10 n ++ r) = read (.digits n) r := by
  induction n using Nat.strong_induction_on with
  | _ n ih =>
    intro r
    rw [Nat.toDigits_eq_if (by norm_num)]
    split
    · rename_i h
      obtain ⟨h1, h2, h3, h4⟩ := digit_facts n h
      rw [List.singleton_append, read, if_neg h1, if_neg h2, if_pos h3]
      rw [h4]
    · rename_i h
      obtain ⟨h1, h2, h3, h4⟩ := digit_facts (n % 10) (by omega)
      rw [List.append_assoc, ih (n / 10) (by omega), List.singleton_append, read, if_neg h1, if_neg h2, if_pos h3]
      rw [if_neg (by omega), h4, Nat.div_add_mod]

theorem read_space (c : Char) (r : List Char) (h : c = ' ' ∨ c = '\n') : read .empty (c :: r) = read .empty r := by
  have hc : c ≠ ',' := by rcases h with rfl | rfl <;> decide
  rw [read, if_neg hc, if_pos h]

theorem read_comma (v : Nat) (r : List Char) : read (.digits v) (',' :: r) = (read .empty r).map fun l => v :: l := by
  rw [read, if_pos rfl]; rfl

theorem read_entry (lut : Nat → Nat) (t : Nat) (h : t < 255) (r : List Char) :
    read .empty (entry lut t ++ r) = (read .empty r).map fun l => lut t :: l := by
  unfold entry
  split
  · rw [List.append_assoc, read_digits]
    simp only [List.cons_append, List.nil_append]
    rw [read_comma, read_space _ _ (Or.inr rfl), read_space _ _ (Or.inl rfl), read_space _ _ (Or.inl rfl),
      read_space _ _ (Or.inl rfl), read_space _ _ (Or.inl rfl)]
  · rw [List.append_assoc, read_digits, List.singleton_append, read_comma]

theorem read_last (lut : Nat → Nat) : read .empty (entry lut 255) = some [lut 255] := by
  unfold entry
  rw [if_neg (by decide), if_neg (by decide), read_digits]
  rw [read, if_neg (by decide), if_pos (Or.inr rfl)]
  rfl

theorem read_from (lut : Nat → Nat) : ∀ n s, s + n = 255 →
    read .empty ((List.range' s (n + 1)).flatMap (entry lut)) = some ((List.range' s (n + 1)).map lut) := by
  intro n
  induction n with
  | zero =>
    intro s hs
    have : s = 255 := by omega
    subst this
    simp only [Nat.zero_add, List.range'_one, List.flatMap_cons, List.flatMap_nil, List.append_nil, List.map_cons, List.map_nil]
    exact read_last lut
  | succ n ih =>
    intro s hs
    rw [List.range'_succ, List.flatMap_cons, read_entry lut s (by omega), ih (s + 1) (by omega), List.map_cons]
    rfl

theorem read_entries (lut : Nat → Nat) : read .empty (entries lut) = some ((List.range 256).map lut) := by
  unfold entries
  rw [List.range_eq_range']
  exact read_from lut 255 0 rfl

end Litiv.LutText
