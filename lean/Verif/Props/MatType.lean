import Verif.Lemmas.MatType

/-!
# Matrix element types
-/

namespace Litiv.MatType

/-- **Accepted codes.** A type is made exactly from the codes which denote one to four values of a data type, and keeps
its code; in debug builds this holds for matrices too. -/
theorem accepted (code : Int) :
    ((ofCode code).isSome ↔ ∃ d n, n ≤ 4 ∧ Denotes code d n) ∧ (∀ t, ofCode code = some t → t.code = code) ∧
    ofMat true code = ofCode code ∧ ofMat false code = some ⟨code⟩ := by
  refine ⟨?_, ?_, rfl, rfl⟩
  · unfold ofCode
    constructor
    · intro h
      split at h
      · rename_i hd
        split at h
        · rename_i hc
          obtain ⟨d, hd'⟩ := depth_exists hd.1 hd.2
          exact ⟨d, (cvCn code).toNat, by omega, (denotes_iff code d _).2 ⟨hd', by omega⟩⟩
        · cases h
      · cases h
    · rintro ⟨d, n, hn, h⟩
      obtain ⟨h1, h2⟩ := (denotes_iff code d n).1 h
      have hb := depth_bounds d
      have hpos : 0 < cvCn code := by unfold cvCn; omega
      rw [if_pos (by omega), if_pos (by omega)]; rfl
  · intro t ht
    unfold ofCode at ht
    split at ht
    · split at ht <;> cases ht; rfl
    · cases ht

/-- **Description.** A type whose code denotes `n` values of type `d` has the depth of `d` and `n` channels, the sizes of one
and of all values, and their name; it is compatible with `d` alone, and with channels, if there are at most four, with the
element type of `n` values of type `d` alone. -/
theorem description (t : MType) (d : Data) (n : Nat) (h : Denotes t.code d n) :
    order[t.depth.toNat]? = some d ∧ t.channels = n ∧ t.bytes = d.size ∧ t.elemSize = d.size * n ∧
    t.str = d.name ++ "C" ++ toString n ∧
    (∀ e, t.compat false e = true ↔ e = .scalar d) ∧
    (n ≤ 4 → ∀ e, t.compat true e = true ↔ e = elemOf d n) := by
  have hn : 1 ≤ n := by obtain ⟨_, _, h, _⟩ := h; exact h
  obtain ⟨h1, h2⟩ := (denotes_iff t.code d n).1 h
  refine ⟨?_, h2, ?_, ?_, ?_, ?_, ?_⟩
  · unfold MType.depth; rw [h1]; exact depth_order d
  · unfold MType.bytes depthBytes; rw [h1]; cases d <;> rfl
  · unfold MType.elemSize depthBytes; rw [h1, h2, Int.toNat_natCast]; cases d <;> rfl
  · unfold MType.str depthStr; rw [h1, h2, Int.toNat_natCast]; cases d <;> rfl
  · intro e
    unfold MType.compat MType.depth
    rw [Bool.false_and, if_neg (by simp), h1]
    cases e with
    | scalar e => simp only [depthIs_iff, Elem.scalar.injEq]
    | vec e m => simp
  · intro h4 e
    unfold MType.compat MType.depth MType.channels elemOf
    rw [h1, h2]
    have : n = 1 ∨ n = 2 ∨ n = 3 ∨ n = 4 := by omega
    rcases this with rfl | rfl | rfl | rfl <;> cases e <;> simp [depthIs_iff] <;> exact and_comm

/-- **Names.** Two types have the same name exactly if they denote the same values. -/
theorem names_distinct (s t : MType) (d e : Data) (n m : Nat) (hs : Denotes s.code d n) (ht : Denotes t.code e m)
    (hn : n ≤ 4) (hm : m ≤ 4) : s.str = t.str ↔ d = e ∧ n = m := by
  have h1 : 1 ≤ n := by obtain ⟨_, _, h, _⟩ := hs; exact h
  have h2 : 1 ≤ m := by obtain ⟨_, _, h, _⟩ := ht; exact h
  rw [(description s d n hs).2.2.2.2.1, (description t e m ht).2.2.2.2.1]
  have hn' : n = 1 ∨ n = 2 ∨ n = 3 ∨ n = 4 := by omega
  have hm' : m = 1 ∨ m = 2 ∨ m = 3 ∨ m = 4 := by omega
  constructor
  · intro h
    rcases hn' with rfl | rfl | rfl | rfl <;> rcases hm' with rfl | rfl | rfl | rfl <;> cases d <;> cases e <;>
      first | exact ⟨rfl, rfl⟩ | exact absurd h (by decide)
  · rintro ⟨rfl, rfl⟩; rfl

/-- **Static types.** The code of a data type and a number of channels denotes them. -/
theorem raw_denotes (d : Data) (n : Nat) (h1 : 1 ≤ n) (h4 : n ≤ 4) :
    Denotes (rawType d n) d n ∧ 0 ≤ rawType d n ∧ rawType d n < 4096 := by
  have hb := depth_bounds d
  rw [denotes_iff]
  unfold rawType cvMake cvDepth cvCn
  omega

/-- **Equality.** Types made from codes of at most 12 bits, as all types of matrices are, are equal exactly if they denote
the same values. -/
theorem same_partial (s t : MType) (d e : Data) (n m : Nat) (hs : Denotes s.code d n) (ht : Denotes t.code e m)
    (hs' : 0 ≤ s.code ∧ s.code < 4096) (ht' : 0 ≤ t.code ∧ t.code < 4096) : s.same t = true ↔ d = e ∧ n = m := by
  obtain ⟨h1, h2⟩ := (denotes_iff _ _ _).1 hs
  obtain ⟨h3, h4⟩ := (denotes_iff _ _ _).1 ht
  unfold MType.same
  rw [beq_iff_eq]
  constructor
  · intro h
    rw [h] at h1 h2
    exact ⟨depth_inj (h1.symm.trans h3), by omega⟩
  · rintro ⟨rfl, rfl⟩
    unfold cvDepth at h1 h3
    unfold cvCn at h2 h4
    omega

/-- **Refuted.** Accepted codes with more bits, negative ones too, give types which denote the same values and have the same
name, but are not equal. -/
theorem same_refuted : ∃ a b c : MType, ofCode 0 = some a ∧ ofCode 4096 = some b ∧ ofCode (-4096) = some c ∧
    a.str = "CV_8UC1" ∧ b.str = "CV_8UC1" ∧ c.str = "CV_8UC1" ∧
    a.same b = false ∧ a.same c = false ∧ b.same c = false := by
  refine ⟨⟨0⟩, ⟨4096⟩, ⟨-4096⟩, by decide, by decide, by decide, by decide, by decide, by decide, by decide, by decide, by decide⟩

/-- **Refuted.** In release builds, the type of a matrix with five channels is made and is said to be compatible with
elements of four values, whose size differs. -/
theorem compat_refuted : ∃ t : MType, ofMat false 32 = some t ∧ Denotes t.code .u8 5 ∧ t.compat true (.vec .u8 4) = true ∧
    t.elemSize = 5 := by
  refine ⟨⟨32⟩, rfl, (denotes_iff _ _ _).2 ⟨by decide, by decide⟩, by decide, by decide⟩

/-- The codes of OpenCV's `CV_8UC3` and `CV_64FC4`. -/
example : rawType .u8 3 = 16 ∧ rawType .f64 4 = 30 ∧ (⟨16⟩ : MType).str = "CV_8UC3" ∧ (⟨30⟩ : MType).elemSize = 32 ∧
    (ofCode 7).isNone ∧ (ofCode 32).isNone ∧ Denotes 16 .u8 3 :=
  ⟨by decide, by decide, by decide, by decide, by decide, by decide, (denotes_iff _ _ _).2 ⟨by decide, by decide⟩⟩

end Litiv.MatType
