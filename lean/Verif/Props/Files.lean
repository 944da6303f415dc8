import Verif.Lemmas.Files

/-!
# Properties of the creation of files and directories (C207-C208)
-/

namespace Litiv.Files

/-- C207. On a path where a file can be created, or a file that can be read and written: the bytes of the file are kept, and
followed by zeroes up to the requested size; the stream is at the beginning. A file which is large enough is unchanged.
What is missing: files that cannot be read, see `prealloc_refuted`. -/
theorem prealloc_partial (x64 : Bool) (s : Slot) (h : s.Usable) (n : Nat) :
    ∃ f, prealloc x64 s n = some (f, 0) ∧ f.bytes = padded s.content n ∧
      f.bytes.length = max s.content.length n ∧ f.bytes.take s.content.length = s.content := by
  obtain ⟨f, e, hb, -, -⟩ := opened_usable s h
  refine ⟨{ f with bytes := padded s.content n }, ?_, rfl, ?_, ?_⟩
  · unfold prealloc
    rw [e]
    dsimp only
    rw [replicate_sum, chunks_sum _ _ _ (Nat.le_refl _), missing_eq, hb]
    rfl
  · simp only [padded, List.length_append, List.length_replicate]
    omega
  · simp [padded]

/-- C207. Wherever the process stops, even in the middle of a write, the bytes of the file are kept, and calling the
function again gives the same file as if it had not stopped. -/
theorem prealloc_crash (x64 : Bool) (s : Slot) (h : s.Usable) (n i j : Nat) :
    ∃ f g, crashed x64 s n i j = some f ∧ f.bytes.take s.content.length = s.content ∧
      f.bytes.length ≤ max s.content.length n ∧
      prealloc x64 (.file f) n = some (g, 0) ∧ prealloc x64 s n = some (g, 0) := by
  obtain ⟨f, e, hb, hr, hw⟩ := opened_usable s h
  have hs := take_sum_le (chunks x64 (missing f n) (missing f n)) i j
  rw [chunks_sum _ _ _ (Nat.le_refl _)] at hs
  generalize hk : ((chunks x64 (missing f n) (missing f n)).take i).sum +
    min j ((chunks x64 (missing f n) (missing f n)).getD i 0) = k at hs
  have hc : crashed x64 s n i j = some { f with bytes := f.bytes ++ List.replicate k 0 } := by
    unfold crashed
    rw [e]
    dsimp only
    rw [replicate_sum, List.append_assoc, List.replicate_append_replicate, hk]
  rw [missing_eq, hb] at hs
  refine ⟨_, { f with bytes := padded s.content n }, hc, ?_, ?_, ?_, ?_⟩
  · simp [hb]
  · simp only [List.length_append, List.length_replicate, hb]
    omega
  · have ho : opened (.file { f with bytes := f.bytes ++ List.replicate k 0 }) =
        some { f with bytes := f.bytes ++ List.replicate k 0 } := by
      simp [opened, openUpdate, hr, hw]
    unfold prealloc
    rw [ho]
    dsimp only
    rw [replicate_sum, chunks_sum _ _ _ (Nat.le_refl _), missing_eq, List.append_assoc,
      List.replicate_append_replicate, hb]
    simp only [List.length_append, List.length_replicate, padded]
    rw [show k + (n - (s.content.length + k)) = n - s.content.length by omega]
  · unfold prealloc
    rw [e]
    dsimp only
    rw [replicate_sum, chunks_sum _ _ _ (Nat.le_refl _), missing_eq, hb]
    rfl

example : (Slot.file ⟨[7, 8], true, true⟩).Usable ∧ padded [7, 8] 5 = [7, 8, 0, 0, 0] ∧ padded [7, 8] 1 = [7, 8] ∧
    (crashed true (.file ⟨[7, 8], true, true⟩) 5 0 2) = some ⟨[7, 8, 0, 0], true, true⟩ := by
  refine ⟨⟨rfl, rfl⟩, by decide, by decide, by decide⟩

/-- C207 does not hold for a file that can be written but not read: it is emptied, and its bytes are lost. -/
theorem prealloc_refuted :
    prealloc true (.file ⟨[7, 8], false, true⟩) 3 = some (⟨[0, 0, 0], false, true⟩, 0) := by decide

/-- C207. A path where no file can be created, and a file that cannot be written, are refused. -/
theorem prealloc_refuses (x64 : Bool) (s : Slot) (n : Nat) :
    prealloc x64 s n = none ↔ s = .absent false ∨ ∃ f : File, s = .file f ∧ f.writable = false := by
  cases s with
  | absent c => cases c <;> simp [prealloc, opened, openUpdate, openTruncate]
  | file f =>
    obtain ⟨b, r, w⟩ := f
    cases r <;> cases w <;> simp [prealloc, opened, openUpdate, openTruncate]

/-- C208. When no other process acts on the path, `true` is returned exactly if a directory is there at the end; nothing
else is created or replaced; and a directory is there if one was there, or if nothing was and it may be created. What is
missing: other processes, see `createDir_refuted`. -/
theorem createDir_partial (allowed : Bool) (e : Entry) :
    ((createDir allowed e e).2 = true ↔ (createDir allowed e e).1 = .dir) ∧
    ((createDir allowed e e).1 = .dir ↔ e = .dir ∨ e = .none ∧ allowed = true) ∧
    ((createDir allowed e e).1 = e ∨ e = .none) := by
  cases allowed <;> cases e <;> decide

/-- C208, whatever other processes do: `true` is only returned if a directory is there. -/
theorem createDir_sound (allowed : Bool) (e e' : Entry) (h : (createDir allowed e e').2 = true) :
    (createDir allowed e e').1 = .dir := by
  cases allowed <;> cases e <;> cases e' <;> revert h <;> decide

/-- C208, whatever other processes do: what is at the path when the directory would be made is not replaced. -/
theorem createDir_keeps (allowed : Bool) (e e' : Entry) (h : e' ≠ .none) : (createDir allowed e e').1 = e' := by
  cases allowed <;> cases e <;> cases e' <;> revert h <;> decide

example : (createDir true .none .other).1 = .other := createDir_keeps true .none .other (by decide)

/-- C208 does not hold when another process creates the directory between the two calls: `false` is returned although the
directory is there. -/
theorem createDir_refuted : createDir true .none .dir = (.dir, false) := by decide

end Litiv.Files
