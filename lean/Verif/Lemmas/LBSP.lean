import Verif.Spec.LBSP
import Verif.Lemmas.Bits
import Mathlib.Tactic.Ring
import Mathlib.Tactic.FinCases
import Mathlib.Tactic.Linarith

/-!
# Lemmas about the LBSP model
-/

namespace Litiv.LBSP
open Spec

/-! ## Thresholds -/

theorem orBits_fold (f : Fin 16 → Bool) (l : List (Fin 16)) (a : BitVec 16) (i : Fin 16) :
    (l.foldl (fun r n => r ||| ((BitVec.ofBool (f n)).setWidth 16 <<< n.val)) a).getLsbD i =
      (a.getLsbD i || (decide (i ∈ l) && f i)) := by
  induction l generalizing a with
  | nil => simp
  | cons n l ih =>
    rw [List.foldl_cons, ih]
    by_cases h : i = n
    · subst h
      simp
      grind
    · have hv : i.val ≠ n.val := fun e => h (Fin.ext e)
      have h2 : ((BitVec.ofBool (f n)).setWidth 16 <<< n.val).getLsbD i = false := by
        rw [BitVec.getLsbD_shiftLeft]
        by_cases hlt : i.val < n.val
        · simp [hlt]
        · have : ((BitVec.ofBool (f n)).setWidth 16).getLsbD (i.val - n.val) = false := by
            rw [BitVec.getLsbD_setWidth]
            have : (BitVec.ofBool (f n)).getLsbD (i.val - n.val) = false := BitVec.getLsbD_of_ge _ _ (by omega)
            simp [this]
          simp [this]
      rw [BitVec.getLsbD_or, h2]
      simp [h]

theorem orBits_bit (f : Fin 16 → Bool) (i : Fin 16) : (orBits f).getLsbD i = f i := by
  rw [orBits, orBits_fold]
  simp

theorem desc_ext (a b : BitVec 16) (h : ∀ i : Fin 16, a.getLsbD i = b.getLsbD i) : a = b :=
  BitVec.eq_of_getLsbD_eq fun i hi => h ⟨i, hi⟩

theorem flip_toInt : ∀ x : BitVec 8, (x ^^^ (0x80 : BitVec 8)).toInt = (x.toNat : Int) - 128 := by decide +kernel

theorem slt_flip (a b : BitVec 8) : (a ^^^ (0x80 : BitVec 8)).slt (b ^^^ (0x80 : BitVec 8)) = decide (a.toNat < b.toNat) := by
  rw [BitVec.slt, flip_toInt, flip_toInt]
  congr 1
  apply propext
  omega

theorem msb_cmp (p : Bool) : (bif p then BitVec.allOnes 8 else 0 : BitVec 8).msb = p := by cases p <;> decide

theorem sub_of_le (a b : BitVec 8) (h : b.toNat ≤ a.toNat) : (a - b).toNat = a.toNat - b.toNat :=
  BitVec.toNat_sub_of_le (by rw [BitVec.le_def]; exact h)

theorem differs_iff (a b t : BitVec 8) : Differs a b t ↔ t.toNat < (a.toNat - b.toNat) + (b.toNat - a.toNat) := by
  unfold Differs
  rcases le_total b.toNat a.toNat with h | h
  · rw [abs_of_nonneg (by omega)]; omega
  · rw [abs_of_nonpos (by omega)]; omega

theorem scalar_bit (vals : Fin 16 → BitVec 8) (ref thr : BitVec 8) (n : Fin 16) :
    (thresholdScalar vals ref thr).getLsbD n = decide (Differs (vals n) ref thr) := by
  rw [thresholdScalar, orBits_bit]
  congr 1
  apply propext
  rw [BitVec.lt_def, Bits.l1distU_eq, differs_iff, Bits.Spec.dist]

theorem sse41_bit (vals : Fin 16 → BitVec 8) (ref thr : BitVec 8) (n : Fin 16) :
    (thresholdSSE41 vals ref thr).getLsbD n = decide (Differs (vals n) ref thr) := by
  rw [thresholdSSE41, movemask, orBits_bit, cmpgt8, msb_cmp]
  dsimp only [xor8, set1]
  change (thr ^^^ 0x80).slt (sub8 (maxU vals fun _ => ref) (minU vals fun _ => ref) n ^^^ 0x80) = _
  rw [slt_flip]
  congr 1
  apply propext
  rw [differs_iff]
  have e : (sub8 (maxU vals fun _ => ref) (minU vals fun _ => ref) n).toNat =
      ((vals n).toNat - ref.toNat) + (ref.toNat - (vals n).toNat) := by
    rw [sub8]
    dsimp only [maxU, minU]
    by_cases h : (vals n).ult ref
    · have h' : (vals n).toNat < ref.toNat := by simpa [BitVec.ult] using h
      rw [if_pos h, if_pos h, sub_of_le _ _ (by omega)]; omega
    · have h' : ¬ (vals n).toNat < ref.toNat := by simpa [BitVec.ult] using h
      rw [if_neg h, if_neg h, sub_of_le _ _ (by omega)]; omega
  rw [e]

theorem flip_sub : ∀ a b : BitVec 8, (a ^^^ (0x80 : BitVec 8)) - (b ^^^ (0x80 : BitVec 8)) = a - b := by
  intro a b
  have h : ∀ x : BitVec 8, x ^^^ (0x80 : BitVec 8) = x + (0x80 : BitVec 8) := by decide +kernel
  rw [h, h]
  apply BitVec.eq_of_toNat_eq
  have e : (0x80 : BitVec 8).toNat = 128 := rfl
  rw [BitVec.toNat_sub, BitVec.toNat_sub, BitVec.toNat_add, BitVec.toNat_add, e]
  have := a.isLt
  have := b.isLt
  omega

theorem sse2_bit (vals : Fin 16 → BitVec 8) (ref thr : BitVec 8) (n : Fin 16) :
    (thresholdSSE2 vals ref thr).getLsbD n = decide (Differs (vals n) ref thr) := by
  rw [thresholdSSE2, movemask, orBits_bit, cmpgt8, msb_cmp]
  dsimp only [xor8, set1, sub8, and8, or8, andnot8, cmpgt8]
  rw [slt_flip, slt_flip, flip_sub, flip_sub]
  congr 1
  apply propext
  rw [differs_iff]
  by_cases h : ref.toNat < (vals n).toNat
  · have : decide (ref.toNat < (vals n).toNat) = true := decide_eq_true h
    rw [this]
    have e : (((bif true then BitVec.allOnes 8 else 0) &&& (vals n - ref)) |||
        (~~~(bif true then BitVec.allOnes 8 else 0) &&& (ref - vals n)) : BitVec 8) = vals n - ref := by
      have h0 : ((bif true then BitVec.allOnes 8 else 0) : BitVec 8) = BitVec.allOnes 8 := rfl
      rw [h0, BitVec.allOnes_and, BitVec.not_allOnes, BitVec.zero_and, BitVec.or_zero]
    rw [e, sub_of_le _ _ (by omega)]; omega
  · have : decide (ref.toNat < (vals n).toNat) = false := decide_eq_false h
    rw [this]
    have e : (((bif false then BitVec.allOnes 8 else 0) &&& (vals n - ref)) |||
        (~~~(bif false then BitVec.allOnes 8 else 0) &&& (ref - vals n)) : BitVec 8) = ref - vals n := by
      have h0 : ((bif false then BitVec.allOnes 8 else 0) : BitVec 8) = 0#8 := rfl
      rw [h0, BitVec.zero_and, BitVec.zero_or, BitVec.not_zero, BitVec.allOnes_and]
    rw [e, sub_of_le _ _ (by omega)]; omega

theorem threshold_bit (impl : Impl) (vals : Fin 16 → BitVec 8) (ref thr : BitVec 8) (n : Fin 16) :
    (threshold impl vals ref thr).getLsbD n = decide (Differs (vals n) ref thr) := by
  cases impl
  · exact scalar_bit ..
  · exact sse2_bit ..
  · exact sse41_bit ..

/-! ## Addresses -/

theorem addr_eq (m : Img) (x y : Int) (c : Nat) (n : Fin 16) :
    addr m x y c n = BitVec.ofInt 64 ((y + offY n) * m.step + (x + offX n) * m.ch + c) := by
  have h : ∀ k : Nat, BitVec.ofNat 64 k = BitVec.ofInt 64 (k : Int) := fun k => (BitVec.ofInt_natCast 64 k).symm
  rw [addr, h, h, h]
  simp only [← BitVec.ofInt_mul, ← BitVec.ofInt_add]
  congr 1
  ring

theorem ofInt_toNat (k : Nat) (h : k < 2 ^ 64) : (BitVec.ofInt 64 (k : Int)).toNat = k := by
  rw [BitVec.ofInt_natCast, BitVec.toNat_ofNat, Nat.mod_eq_of_lt h]

/-- Row-major offsets of pixels in the image lie in the buffer. -/
theorem offset_lt (m : Img) (hm : WF m) (y x c : Nat) (hy : y < m.rows) (hx : x < m.cols) (hc : c < m.ch) :
    y * m.step + x * m.ch + c < m.data.length := by
  have h1 : x * m.ch + c < m.cols * m.ch := by
    have : (x + 1) * m.ch ≤ m.cols * m.ch := Nat.mul_le_mul_right _ hx
    rw [Nat.add_mul] at this
    omega
  have h2 : (y + 1) * m.step ≤ m.rows * m.step := Nat.mul_le_mul_right _ hy
  rw [Nat.add_mul] at h2
  have := hm.step
  have := hm.len
  omega

theorem addr_toNat (m : Img) (hm : WF m) (x y : Int) (c : Nat) (n : Fin 16) (hy0 : 0 ≤ y + offY n)
    (hy1 : y + offY n < m.rows) (hx0 : 0 ≤ x + offX n) (hx1 : x + offX n < m.cols) (hc : c < m.ch) :
    (addr m x y c n).toNat = (y + offY n).toNat * m.step + (x + offX n).toNat * m.ch + c := by
  rw [addr_eq]
  obtain ⟨Y, hY⟩ := Int.eq_ofNat_of_zero_le hy0
  obtain ⟨X, hX⟩ := Int.eq_ofNat_of_zero_le hx0
  rw [hY, hX]
  have := offset_lt m hm Y X c (by omega) (by omega) hc
  have e : ((Y : Int) * m.step + (X : Int) * m.ch + c) = ((Y * m.step + X * m.ch + c : Nat) : Int) := by push_cast; ring
  rw [e, ofInt_toNat _ (by have := hm.small; omega)]
  simp

theorem get_eq (m : Img) (hm : WF m) (y x : Int) (c : Nat) (hy0 : 0 ≤ y) (hy1 : y < m.rows) (hx0 : 0 ≤ x)
    (hx1 : x < m.cols) (hc : c < m.ch) : m.get y x c = px m y.toNat x.toNat c := by
  obtain ⟨Y, rfl⟩ := Int.eq_ofNat_of_zero_le hy0
  obtain ⟨X, rfl⟩ := Int.eq_ofNat_of_zero_le hx0
  have := offset_lt m hm Y X c (by omega) (by omega) hc
  have h : ∀ k : Nat, BitVec.ofNat 64 k = BitVec.ofInt 64 (k : Int) := fun k => (BitVec.ofInt_natCast 64 k).symm
  rw [Img.get, px, h, h, h]
  simp only [← BitVec.ofInt_mul, ← BitVec.ofInt_add]
  have e : ((Y : Int) * m.step + (X : Int) * m.ch + c) = ((Y * m.step + X * m.ch + c : Nat) : Int) := by push_cast; ring
  rw [e, ofInt_toNat _ (by have := hm.small; omega)]
  simp

theorem px_some (m : Img) (hm : WF m) (y x c : Nat) (hy : y < m.rows) (hx : x < m.cols) (hc : c < m.ch) :
    ∃ v, px m y x c = some v :=
  ⟨_, List.getElem?_eq_getElem (offset_lt m hm y x c hy hx hc)⟩

theorem off_range : ∀ n : Fin 16, -2 ≤ offX n ∧ offX n ≤ 2 ∧ -2 ≤ offY n ∧ offY n ≤ 2 := by decide

theorem sequence_some (f : Fin 16 → Option (BitVec 8)) (v : Fin 16 → BitVec 8) (h : ∀ n, f n = some (v n)) :
    sequence f = some v := by
  have h1 : ∀ n, (f n).isSome = true := fun n => by rw [h n]; rfl
  rw [sequence, dif_pos h1]
  congr 1
  funext n
  simp [h n]

theorem lookup_some (m : Img) (hm : WF m) (x y : Int) (c : Nat) (hc : c < m.ch) (hi : Inner m.rows m.cols y x) :
    ∃ vals, lookup m x y c = some vals ∧
      ∀ n, px m (y + offY n).toNat (x + offX n).toNat c = some (vals n) := by
  obtain ⟨hy0, hy1, hx0, hx1⟩ := hi
  have hp : ∀ n, ∃ v, px m (y + offY n).toNat (x + offX n).toNat c = some v := fun n => by
    have := off_range n
    exact px_some m hm _ _ c (by omega) (by omega) hc
  choose v hv using hp
  refine ⟨v, sequence_some _ _ fun n => ?_, hv⟩
  have := off_range n
  rw [addr_toNat m hm x y c n (by omega) (by omega) (by omega) (by omega) hc]
  exact hv n

/-! ## Whole images -/

theorem drawing_eq : drawing.Perm ((List.finRange 16).map fun n => (n.val, offX n, offY n)) := by decide

theorem drawing_mem (e : Nat × Int × Int) : e ∈ drawing ↔ ∃ n : Fin 16, e = (n.val, offX n, offY n) := by
  rw [drawing_eq.mem_iff]
  simp [eq_comm]

theorem descriptor_some (impl : Impl) (m ref : Img) (hm : WF m) (thr : BitVec 8 → BitVec 8) (x y : Int) (c : Nat)
    (r : BitVec 8) (hc : c < m.ch) (hi : Inner m.rows m.cols y x) (hr : px ref y.toNat x.toNat c = some r) :
    ∃ d, descriptor impl m r x y c (thr r) = some d ∧ IsDesc m ref thr y x c d := by
  obtain ⟨vals, h1, h2⟩ := lookup_some m hm x y c hc hi
  refine ⟨_, by rw [descriptor, h1]; rfl, r, hr, ?_⟩
  intro e he
  obtain ⟨n, rfl⟩ := (drawing_mem e).1 he
  refine ⟨vals n, h2 n, ?_⟩
  rw [threshold_bit]
  simp

/-- Loop over channels. -/
theorem channels_fold (f : Nat → Option (BitVec 16)) (d : Nat → BitVec 16) (l : List Nat) (hf : ∀ c ∈ l, f c = some (d c))
    (o : Nat → BitVec 16) :
    l.foldlM (fun (o : Nat → BitVec 16) c => do
      let d ← f c
      pure fun c' => if c' = c then d else o c') o = some fun c => if c ∈ l then d c else o c := by
  induction l generalizing o with
  | nil => simp
  | cons a l ih =>
    rw [List.foldlM_cons, hf a (by simp)]
    change List.foldlM _ (fun c' => if c' = a then d a else o c') l = _
    rw [ih fun c hc => hf c (by simp [hc])]
    congr 1
    funext c
    by_cases h1 : c ∈ l
    · simp [h1]
    · by_cases h2 : c = a
      · subst h2; simp [h1]
      · simp [h1, h2]

theorem pixelDesc_some (impl : Impl) (m ref : Img) (hm : WF m) (hr : WF ref) (hs : ref.rows = m.rows ∧ ref.cols = m.cols ∧ ref.ch = m.ch)
    (thr : BitVec 8 → BitVec 8) (y x : Int) (hi : Inner m.rows m.cols y x) :
    ∃ d, pixelDesc impl m ref thr y x = some d ∧ ∀ c < m.ch, IsDesc m ref thr y x c (d c) := by
  have hi' := hi
  obtain ⟨hy0, hy1, hx0, hx1⟩ := hi'
  have hp : ∀ c, ∃ r d, c < m.ch → ref.get y x c = some r ∧ descriptor impl m r x y c (thr r) = some d ∧
      IsDesc m ref thr y x c d := by
    intro c
    by_cases hc : c < m.ch
    · obtain ⟨r, h1⟩ := px_some ref hr y.toNat x.toNat c (by omega) (by omega) (by omega)
      obtain ⟨d, h2, h3⟩ := descriptor_some impl m ref hm thr x y c r hc hi h1
      refine ⟨r, d, fun _ => ⟨?_, h2, h3⟩⟩
      rw [get_eq ref hr y x c (by omega) (by omega) (by omega) (by omega) (by omega), h1]
    · exact ⟨0, 0, fun h => absurd h hc⟩
  choose r d h using hp
  refine ⟨fun c => if c ∈ List.range m.ch then d c else 0, ?_, fun c hc => ?_⟩
  · rw [pixelDesc]
    have := channels_fold (fun c => do let r ← ref.get y x c; descriptor impl m r x y c (thr r)) d (List.range m.ch)
      (fun c hc => by
        have hc' := List.mem_range.1 hc
        simp [(h c hc').1, (h c hc').2.1]) (fun _ => 0)
    rw [← this]
    congr 1
    funext o c
    simp [Option.bind_assoc]
  · simpa [hc] using (h c hc).2.2

theorem describe_some (impl : Impl) (m ref : Img) (thr : BitVec 8 → BitVec 8) (D : Int → Int → Nat → BitVec 16)
    (ps : List (Int × Int)) (h : ∀ p ∈ ps, pixelDesc impl m ref thr p.1 p.2 = some (D p.1 p.2)) (o : Map) :
    describe impl m ref thr ps o =
      some fun y x c => if (y, x) ∈ ps ∧ c < m.ch then D y x c else o y x c := by
  induction ps generalizing o with
  | nil => simp [describe]
  | cons p ps ih =>
    obtain ⟨py, pxx⟩ := p
    rw [describe, h (py, pxx) (by simp)]
    simp only [Option.bind_eq_bind, Option.bind_some]
    rw [ih fun q hq => h q (by simp [hq])]
    congr 1
    funext y x c
    simp only [Map.put, List.mem_cons, Prod.mk.injEq]
    by_cases h1 : (y, x) ∈ ps
    · by_cases h2 : c < m.ch <;> simp [h1, h2]
    · by_cases h2 : c < m.ch
      · by_cases h3 : y = py ∧ x = pxx
        · obtain ⟨rfl, rfl⟩ := h3
          simp [h1, h2]
        · have h4 : ¬ (y = py ∧ x = pxx ∧ c < m.ch) := fun h => h3 ⟨h.1, h.2.1⟩
          simp [h1, h2, h3]
      · simp [h2]

theorem mem_densePixels (rows cols : Nat) (y x : Int) : (y, x) ∈ densePixels rows cols ↔ Inner rows cols y x := by
  simp only [densePixels, List.mem_flatMap, List.mem_map, List.mem_range'_1, Prod.mk.injEq, Inner]
  constructor
  · rintro ⟨a, ha, b, hb, rfl, rfl⟩
    omega
  · rintro ⟨h1, h2, h3, h4⟩
    exact ⟨y.toNat, by omega, x.toNat, by omega, by omega, by omega⟩

theorem accepted_iff (m : Img) (ref : Option Img) : accepted m ref = true ↔ Accepts m ref := by
  cases ref <;> simp [accepted, Accepts]

theorem accepted_same (m : Img) (ref : Option Img) (h : Accepts m ref) :
    (ref.getD m).rows = m.rows ∧ (ref.getD m).cols = m.cols ∧ (ref.getD m).ch = m.ch := by
  cases ref with
  | none => simp
  | some r => have := h.2 r rfl; exact ⟨this.1, this.2.1, this.2.2.1⟩

/-! ## Rounding -/

theorem trunc_int (n : Int) : trunc (n : Rat) = n := by
  rw [trunc]
  split <;> simp

theorem cvRound_int (n : Int) : cvRound (n : Rat) = n := by
  rw [cvRound]
  simp

theorem le_cvRound (q : Rat) (h : 0 ≤ q) : 0 ≤ cvRound q := by
  have := Int.floor_nonneg.2 h
  rw [cvRound]
  split
  · exact this
  · split
    · omega
    · split <;> omega

/-! ## Keypoints -/

theorem mapM_some {α β : Type} (f : α → Option β) (g : α → β) (l : List α) (h : ∀ a ∈ l, f a = some (g a)) :
    l.mapM f = some (l.map g) := by
  induction l with
  | nil => rfl
  | cons a l ih =>
    rw [List.mapM_cons, h a (by simp), ih fun b hb => h b (by simp [hb])]
    rfl

theorem reshapeLoop_some (rows cols ch : Nat) (D : Int → Int → Nat → BitVec 16) (kps : List KP)
    (h : ∀ k ∈ kps, Integral k ∧ 0 ≤ trunc k.y ∧ trunc k.y < rows ∧ 0 ≤ trunc k.x ∧ trunc k.x < cols) (o : Map) :
    reshapeLoop rows cols ch kps (kps.map fun k => D (trunc k.y) (trunc k.x)) o =
      some fun y x c => if (y, x) ∈ kps.map (fun k => (trunc k.y, trunc k.x)) ∧ c < ch then D y x c else o y x c := by
  induction kps generalizing o with
  | nil => simp [reshapeLoop]
  | cons k kps ih =>
    obtain ⟨⟨X, Y, rfl⟩, h1, h2, h3, h4⟩ := h k (by simp)
    simp only [List.map_cons, reshapeLoop, trunc_int, cvRound_int, ite_self] at h1 h2 h3 h4 ⊢
    rw [if_pos ⟨h1, h2, h3, h4⟩, ih fun q hq => h q (by simp [hq])]
    congr 1
    funext y x c
    simp only [Map.put, List.mem_cons, Prod.mk.injEq]
    by_cases g1 : (y, x) ∈ kps.map (fun k => (trunc k.y, trunc k.x))
    · by_cases g2 : c < ch <;> simp only [g1, g2, or_true, true_and, and_true, and_false, if_true, if_false]
    · by_cases g2 : c < ch
      · by_cases g3 : y = Y ∧ x = X
        · obtain ⟨rfl, rfl⟩ := g3
          simp only [g1, g2, or_false, and_true, if_true, if_false]
        · have g4 : ¬ (y = Y ∧ x = X ∧ c < ch) := fun h => g3 ⟨h.1, h.2.1⟩
          simp only [g1, g3, g4, or_false, false_and, if_false]
      · simp only [g2, and_false, if_false]

theorem mem_filtered (rows cols : Nat) (kps : List KP) (hk : ∀ k ∈ kps, Integral k) (k : KP) :
    k ∈ runByImageBorder rows cols (5 / 2) kps ↔ k ∈ kps ∧ Inner rows cols (trunc k.y) (trunc k.x) := by
  rw [runByImageBorder]
  split
  · rename_i h
    constructor
    · intro h; cases h
    · rintro ⟨-, h1, h2, h3, h4⟩; omega
  · rw [List.mem_filter]
    constructor
    · rintro ⟨h1, h2⟩
      obtain ⟨x, y, rfl⟩ := hk k h1
      refine ⟨h1, ?_⟩
      simp only [trunc_int, cvRound_int, decide_eq_true_eq] at h2 ⊢
      obtain ⟨a, b, c, d⟩ := h2
      exact ⟨by omega, by omega, by omega, by omega⟩
    · rintro ⟨h1, h2⟩
      obtain ⟨x, y, rfl⟩ := hk k h1
      refine ⟨h1, ?_⟩
      simp only [trunc_int, cvRound_int, decide_eq_true_eq] at h2 ⊢
      obtain ⟨a, b, c, d⟩ := h2
      exact ⟨by omega, by omega, by omega, by omega⟩

/-! ## Shader -/

theorem sum_bits (l : List (Bool × Nat)) (h1 : ∀ p ∈ l, p.2 < 32) (h2 : (l.map Prod.snd).Nodup) (i : Nat) (hi : i < 32) :
    ((l.map fun p => (BitVec.ofBool p.1).setWidth 32 <<< p.2).sum : BitVec 32).getLsbD i =
      l.any fun p => p.1 && p.2 == i := by
  have key : ∀ (b : Bool) (k i : Nat), i < 32 → ((BitVec.ofBool b).setWidth 32 <<< k : BitVec 32).getLsbD i = (b && k == i) := by
    intro b k i hi
    rw [BitVec.getLsbD_shiftLeft]
    by_cases e : k = i
    · subst e; cases b <;> simp [hi]
    · by_cases hlt : i < k
      · simp [hlt, e]
      · have : ((BitVec.ofBool b).setWidth 32).getLsbD (i - k) = false := by
          rw [BitVec.getLsbD_setWidth, BitVec.getLsbD_of_ge _ _ (by omega : 1 ≤ i - k)]
          simp
        simp [this, e]
  induction l generalizing i with
  | nil => simp
  | cons p l ih =>
    rw [List.map_cons, List.nodup_cons] at h2
    have ih' := ih (fun q hq => h1 q (by simp [hq])) h2.2
    rw [List.map_cons, List.sum_cons, BitVec.add_eq_or_of_and_eq_zero, BitVec.getLsbD_or, key _ _ _ hi, ih' i hi]
    · simp
    · apply BitVec.eq_of_getLsbD_eq
      intro j hj
      rw [BitVec.getLsbD_and, key _ _ _ hj, ih' j hj, BitVec.getLsbD_zero]
      by_cases e : p.2 = j
      · have : (l.any fun p => p.1 && p.2 == j) = false := by
          rw [List.any_eq_false]
          intro q hq
          have : q.2 ≠ j := fun e' => h2.1 (List.mem_map.2 ⟨q, hq, by rw [e', e]⟩)
          simp [this]
        simp [this]
      · simp [e]

/-! ## Gradients -/

theorem range16 : List.range 16 = (List.finRange 16).map Fin.val := by decide

theorem ones_and (d k : BitVec 16) :
    Bits.Spec.ones (d &&& k) = (List.finRange 16).countP fun (n : Fin 16) => k.getLsbD n && d.getLsbD n := by
  rw [Bits.Spec.ones, range16, List.countP_map]
  congr 1
  funext n
  simp [Bool.and_comm]

theorem ones_all (d : BitVec 16) : Bits.Spec.ones d = (List.finRange 16).countP fun (n : Fin 16) => d.getLsbD n := by
  rw [Bits.Spec.ones, range16, List.countP_map]
  rfl

theorem countSide_eq (p : Int → Int → Bool) (patch : Int → Int → BitVec 8) (ref t : BitVec 8) :
    countSide p patch ref t = (List.finRange 16).countP fun (n : Fin 16) =>
      p (offX n) (offY n) && decide (Differs (patch (offX n) (offY n)) ref t) := by
  rw [countSide, drawing_eq.countP_eq, List.countP_map]
  rfl

theorem countSide_pos (p : Int → Int → Bool) (patch : Int → Int → BitVec 8) (ref t : BitVec 8) :
    countSide p patch ref t = (drawing.map Prod.snd).countP fun q => p q.1 q.2 && decide (Differs (patch q.1 q.2) ref t) := by
  rw [countSide, List.countP_map]
  rfl

theorem countSide_map (p : Int → Int → Bool) (patch : Int → Int → BitVec 8) (ref t : BitVec 8) (f g : Int × Int → Int)
    (h : ((drawing.map Prod.snd).map fun q => (f q, g q)).Perm (drawing.map Prod.snd)) :
    countSide (fun x y => p (f (x, y)) (g (x, y))) (fun x y => patch (f (x, y)) (g (x, y))) ref t =
      countSide p patch ref t := by
  rw [countSide_pos, countSide_pos]
  conv_rhs => rw [← h.countP_eq, List.countP_map]
  rfl

theorem countSide_le (p : Int → Int → Bool) (patch : Int → Int → BitVec 8) (ref t : BitVec 8) :
    countSide p patch ref t ≤ 16 := List.countP_le_length

theorem popcount_toNat (d : BitVec 16) : (Bits.popcount 8 (n := 2) d).toNat = Bits.Spec.ones d := by
  rw [Bits.popcount_eq, BitVec.toNat_ofNat, Nat.mod_eq_of_lt]
  exact Nat.lt_of_le_of_lt (Bits.ones_le d) (by decide)

theorem sub_toInt (a b : BitVec 8) (ha : a.toNat ≤ 16) (hb : b.toNat ≤ 16) :
    (a - b).toInt = (a.toNat : Int) - b.toNat := by
  rw [BitVec.toInt_sub, BitVec.toInt_eq_toNat_of_lt (by omega), BitVec.toInt_eq_toNat_of_lt (by omega)]
  rw [Int.bmod_eq_of_le (by omega) (by omega)]

theorem maskXPos : ∀ n : Fin 16, gradXPos.getLsbD n = decide (offX n < 0) := by decide
theorem maskXNeg : ∀ n : Fin 16, gradXNeg.getLsbD n = decide (0 < offX n) := by decide
theorem maskYPos : ∀ n : Fin 16, gradYPos.getLsbD n = decide (0 < offY n) := by decide
theorem maskYNeg : ∀ n : Fin 16, gradYNeg.getLsbD n = decide (offY n < 0) := by decide

theorem masked_count (impl : Impl) (patch : Int → Int → BitVec 8) (ref t : BitVec 8) (k : BitVec 16)
    (p : Int → Int → Bool) (hk : ∀ n : Fin 16, k.getLsbD n = p (offX n) (offY n)) :
    (Bits.popcount 8 (n := 2) (threshold impl (fun n => patch (offX n) (offY n)) ref t &&& k)).toNat =
      countSide p patch ref t := by
  rw [popcount_toNat, ones_and, countSide_eq]
  congr 1
  funext n
  rw [hk, threshold_bit]

theorem full_count (impl : Impl) (patch : Int → Int → BitVec 8) (ref t : BitVec 8) :
    (Bits.popcount 8 (n := 2) (threshold impl (fun n => patch (offX n) (offY n)) ref t)).toNat =
      countSide (fun _ _ => true) patch ref t := by
  rw [popcount_toNat, ones_all, countSide_eq]
  congr 1
  funext n
  rw [threshold_bit]
  simp

/-- The chosen channel: the last one when it has the greatest count, otherwise the first one that has it. -/
def Chosen (cnt : Nat → Nat) (ch c : Nat) : Prop :=
  c < ch ∧ (∀ c' < ch, cnt c' ≤ cnt c) ∧ (cnt (ch - 1) = cnt c → c = ch - 1) ∧ (c ≠ ch - 1 → ∀ c' < c, cnt c' < cnt c)

theorem Chosen.unique {cnt : Nat → Nat} {ch c c' : Nat} (h : Chosen cnt ch c) (h' : Chosen cnt ch c') : c = c' := by
  obtain ⟨h1, h2, h3, h4⟩ := h
  obtain ⟨k1, k2, k3, k4⟩ := h'
  have e : cnt c = cnt c' := Nat.le_antisymm (k2 c h1) (h2 c' k1)
  by_cases hl : cnt (ch - 1) = cnt c
  · rw [h3 hl, k3 (hl.trans e)]
  · have n1 : c ≠ ch - 1 := fun q => hl (by rw [q])
    have n2 : c' ≠ ch - 1 := fun q => hl (by rw [e, q])
    rcases Nat.lt_trichotomy c c' with q | q | q
    · have := k4 n2 c q; omega
    · exact q
    · have := h4 n1 c' q; omega

theorem gradSelect_loop (desc : Nat → BitVec 16) (ch k : Nat) (hk : k ≤ ch - 1) :
    ∃ c, (List.range k).foldl (fun s cn => if s.1 < Bits.popcount 8 (n := 2) (desc cn) then
        (Bits.popcount 8 (n := 2) (desc cn), desc cn) else s)
        (Bits.popcount 8 (n := 2) (desc (ch - 1)), desc (ch - 1)) = (Bits.popcount 8 (n := 2) (desc c), desc c) ∧
      (c = ch - 1 ∨ (c < k ∧ ∀ c' < c, Bits.Spec.ones (desc c') < Bits.Spec.ones (desc c))) ∧
      (∀ c' < k, Bits.Spec.ones (desc c') ≤ Bits.Spec.ones (desc c)) ∧
      (c = ch - 1 ∨ Bits.Spec.ones (desc (ch - 1)) < Bits.Spec.ones (desc c)) := by
  induction k with
  | zero => exact ⟨ch - 1, rfl, Or.inl rfl, by simp, Or.inl rfl⟩
  | succ k ih =>
    obtain ⟨c, h1, h2, h3, h4⟩ := ih (by omega)
    rw [List.range_succ, List.foldl_append, h1, List.foldl_cons, List.foldl_nil]
    dsimp only
    by_cases hlt : Bits.popcount 8 (n := 2) (desc c) < Bits.popcount 8 (n := 2) (desc k)
    · rw [if_pos hlt]
      rw [BitVec.lt_def, popcount_toNat, popcount_toNat] at hlt
      refine ⟨k, rfl, Or.inr ⟨by omega, fun c' hc' => ?_⟩, fun c' hc' => ?_, Or.inr ?_⟩
      · have := h3 c' hc'; omega
      · rcases Nat.lt_succ_iff_lt_or_eq.1 hc' with q | q
        · have := h3 c' q; omega
        · rw [q]
      · rcases h4 with q | q
        · rw [← q]; omega
        · omega
    · rw [if_neg hlt]
      rw [BitVec.lt_def, popcount_toNat, popcount_toNat] at hlt
      refine ⟨c, rfl, ?_, fun c' hc' => ?_, h4⟩
      · rcases h2 with q | ⟨q, q'⟩
        · exact Or.inl q
        · exact Or.inr ⟨by omega, q'⟩
      · rcases Nat.lt_succ_iff_lt_or_eq.1 hc' with q | q
        · exact h3 c' q
        · rw [q]; omega

theorem gradSelect_spec (desc : Nat → BitVec 16) (ch : Nat) (hch : 0 < ch) :
    ∃ c, gradSelect desc ch = (Bits.popcount 8 (n := 2) (desc c), desc c) ∧
      Chosen (fun c => Bits.Spec.ones (desc c)) ch c := by
  obtain ⟨c, h1, h2, h3, h4⟩ := gradSelect_loop desc ch (ch - 1) le_rfl
  refine ⟨c, h1, ?_, fun c' hc' => ?_, fun e => ?_, fun hne => ?_⟩
  · rcases h2 with q | q <;> omega
  · by_cases hl : c' = ch - 1
    · rcases h4 with q | q
      · rw [hl, q]
      · rw [hl]; exact Nat.le_of_lt q
    · exact h3 c' (by omega)
  · rcases h4 with q | q
    · exact q
    · exact absurd e (by dsimp only; omega)
  · rcases h2 with q | q
    · exact absurd q hne
    · exact q.2

/-! ## Distances -/

theorem zero8 : (0 : BitVec 8).toNat = 0 := rfl
theorem max8 : (255 : BitVec 8).toNat = 255 := rfl

theorem hdist_toNat (a b : BitVec 16) : (Bits.hdist 8 (n := 2) a b).toNat = Bits.Spec.differing a b := by
  rw [Bits.hdist, popcount_toNat, Bits.ones_xor]

theorem differing_full (a b : BitVec 16) : Bits.Spec.differing a b = 16 ↔ ∀ i < 16, a.getLsbD i ≠ b.getLsbD i := by
  rw [Bits.Spec.differing]
  have h := List.countP_eq_length (p := fun i => a.getLsbD i != b.getLsbD i) (l := List.range 16)
  rw [List.length_range] at h
  rw [h]
  simp

end Litiv.LBSP
