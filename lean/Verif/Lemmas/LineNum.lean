import Verif.Spec.LineNum
import Verif.Lemmas.Packets

/-!
# Lemmas on line numbers
-/

namespace Litiv.LineNum

open Litiv.Packets (padded)

/-- What precedes a line. -/
def pre (tab : Bool) (n : Nat) : List Char := (if tab then ['\t'] else []) ++ format n

/-- The text after the first prefix. -/
def emit (tab : Bool) : Nat → List Char → List Char
  | _, [] => []
  | k, c :: s => if c = '\n' then '\n' :: (pre tab (k + 1) ++ emit tab (k + 1) s) else c :: emit tab k s

/-- Lines with numbers. -/
def number (tab : Bool) : Nat → List (List Char) → List (List Char)
  | _, [] => []
  | k, l :: ls => (pre tab k ++ l) :: number tab (k + 1) ls

theorem foldl_emit (tab : Bool) (s : List Char) (acc : List Char) (k : Nat) :
    (s.foldl (step tab) (acc, k)).1 = acc ++ emit tab k s := by
  induction s generalizing acc k with
  | nil => simp [emit]
  | cons c s ih =>
    rw [List.foldl_cons]
    by_cases hc : c = '\n'
    · have : step tab (acc, k) c = (acc ++ ((if tab then ['\n', '\t'] else ['\n']) ++ format (k + 1)), k + 1) := by
        unfold step; rw [if_pos hc]
      rw [this, ih, emit, if_pos hc]
      cases tab <;> simp [pre]
    · have : step tab (acc, k) c = (acc ++ [c], k) := by unfold step; rw [if_neg hc]
      rw [this, ih, emit, if_neg hc]
      simp

theorem out_eq (tab : Bool) (s : List Char) (h : s ≠ []) : addLineNumbers s tab = pre tab 1 ++ emit tab 1 s := by
  unfold addLineNumbers
  rw [if_neg h, foldl_emit]
  cases tab <;> simp [pre]

theorem padded_digit (w n : Nat) : ∀ c ∈ padded w n, '0' ≤ c ∧ c ≤ '9' := by
  intro c hc
  unfold padded at hc
  rw [List.mem_append] at hc
  rcases hc with h | h
  · rw [List.eq_of_mem_replicate h]
    decide
  · have := Nat.isDigit_of_mem_toDigits (by norm_num) (by norm_num) h
    unfold Char.isDigit at this
    simp only [Bool.and_eq_true, decide_eq_true_eq] at this
    exact this

theorem padded_len (w n : Nat) : w ≤ (padded w n).length := by
  unfold padded
  rw [List.length_append, List.length_replicate]
  omega

theorem padded_value (w n : Nat) : value (padded w n) = n := by
  have h := Litiv.Packets.val_padded w n
  unfold Litiv.Packets.val at h
  unfold value
  have e : (fun (a : Nat) (c : Char) => 10 * a + (c.toNat - '0'.toNat)) = fun a c => a * 10 + (c.toNat - 48) := by
    funext a c
    rw [Nat.mul_comm]
    rfl
  rw [e]
  exact h

theorem pre_numbered (tab : Bool) (n : Nat) (l : List Char) : Numbered tab n l (pre tab n ++ l) :=
  ⟨padded 6 n, padded_digit 6 n, padded_len 6 n, padded_value 6 n, by simp [pre, format]⟩

theorem pre_no_newline (tab : Bool) (n : Nat) : '\n' ∉ pre tab n := by
  have h : '\n' ∉ padded 6 n := by
    intro h
    have := (padded_digit 6 n _ h).1
    exact absurd this (by decide)
  unfold pre format
  cases tab <;> simp [h]

theorem lines_cons (s : List Char) : ∃ l ls, lines s = l :: ls := by
  cases s with
  | nil => exact ⟨[], [], rfl⟩
  | cons c s =>
    unfold lines
    split
    · exact ⟨_, _, rfl⟩
    · cases h : lines s with
      | nil => exact ⟨_, _, rfl⟩
      | cons l ls => exact ⟨_, _, rfl⟩

theorem lines_append {x y l : List Char} {ls : List (List Char)} (hx : '\n' ∉ x) (hy : lines y = l :: ls) :
    lines (x ++ y) = (x ++ l) :: ls := by
  induction x with
  | nil => exact hy
  | cons c x ih =>
    rw [List.cons_append, lines]
    have hc : c ≠ '\n' := by
      rintro rfl
      exact hx (by simp)
    rw [if_neg hc, ih (fun h => hx (by simp [h]))]
    rfl

theorem lines_emit (tab : Bool) (k : Nat) (s : List Char) :
    ∃ l ls, lines s = l :: ls ∧ lines (emit tab k s) = l :: number tab (k + 1) ls := by
  induction s generalizing k with
  | nil => exact ⟨[], [], rfl, rfl⟩
  | cons c s ih =>
    by_cases hc : c = '\n'
    · obtain ⟨l, ls, h1, h2⟩ := ih (k + 1)
      refine ⟨[], l :: ls, ?_, ?_⟩
      · rw [lines, if_pos hc, h1]
      · rw [emit, if_pos hc, lines, if_pos rfl, lines_append (pre_no_newline tab (k + 1)) h2]
        rfl
    · obtain ⟨l, ls, h1, h2⟩ := ih k
      refine ⟨c :: l, ls, ?_, ?_⟩
      · rw [lines, if_neg hc, h1]
      · rw [emit, if_neg hc, lines, if_neg hc, h2]

theorem lines_out (tab : Bool) (s : List Char) (h : s ≠ []) : lines (addLineNumbers s tab) = number tab 1 (lines s) := by
  rw [out_eq tab s h]
  obtain ⟨l, ls, h1, h2⟩ := lines_emit tab 1 s
  rw [lines_append (pre_no_newline tab 1) h2, h1]
  rfl

theorem number_length (tab : Bool) (k : Nat) (ls : List (List Char)) : (number tab k ls).length = ls.length := by
  induction ls generalizing k with
  | nil => rfl
  | cons l ls ih => simp [number, ih]

theorem number_get (tab : Bool) (k : Nat) (ls : List (List Char)) (i : Nat) :
    (number tab k ls)[i]? = ls[i]?.map fun l => pre tab (k + i) ++ l := by
  induction ls generalizing k i with
  | nil => simp [number]
  | cons l ls ih =>
    cases i with
    | zero => simp [number]
    | succ i =>
      rw [number, List.getElem?_cons_succ, List.getElem?_cons_succ, ih]
      have : k + 1 + i = k + (i + 1) := by omega
      rw [this]

theorem number_inj (tab : Bool) (k : Nat) {a b : List (List Char)} (h : number tab k a = number tab k b) : a = b := by
  induction a generalizing k b with
  | nil =>
    cases b with
    | nil => rfl
    | cons l ls => simp [number] at h
  | cons l ls ih =>
    cases b with
    | nil => simp [number] at h
    | cons m ms =>
      rw [number, number] at h
      injection h with h1 h2
      rw [List.append_cancel_left h1, ih _ h2]

theorem lines_inj {s t : List Char} (h : lines s = lines t) : s = t := by
  induction s generalizing t with
  | nil =>
    cases t with
    | nil => rfl
    | cons c t =>
      exfalso
      obtain ⟨l, ls, h1⟩ := lines_cons t
      rw [lines, lines, h1] at h
      split at h <;> simp at h
  | cons c s ih =>
    obtain ⟨l, ls, h1⟩ := lines_cons s
    cases t with
    | nil =>
      exfalso
      rw [lines, lines, h1] at h
      split at h <;> simp at h
    | cons d t =>
      obtain ⟨m, ms, h2⟩ := lines_cons t
      rw [lines, lines, h1, h2] at h
      by_cases hc : c = '\n'
      · by_cases hd : d = '\n'
        · rw [if_pos hc, if_pos hd] at h
          injection h with _ h
          have e := ih (t := t) (by rw [h1, h2, h])
          rw [hc, hd, e]
        · rw [if_pos hc, if_neg hd] at h
          simp at h
      · by_cases hd : d = '\n'
        · rw [if_neg hc, if_pos hd] at h
          simp at h
        · rw [if_neg hc, if_neg hd] at h
          simp only [List.cons.injEq] at h
          have e := ih (t := t) (by rw [h1, h2, h.1.2, h.2])
          rw [h.1.1, e]

end Litiv.LineNum
