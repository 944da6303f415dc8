import Verif.Lemmas.AutoBuffer

/-!
# C01, C02: `AutoBuffer` is a value-semantic resizable sequence

The specification (`Verif/Spec/AutoBuffer.lean`) treats every buffer as a list; `none` elements are those for which the
interface promises no value.
-/

namespace Litiv.AutoBuffer

variable {α : Type}

/-- **C01.** For every history of allowed operations on any number of buffers (any static capacities, any element type):
the history is free of undefined behaviour; afterwards exactly the buffers that should exist exist; each has the size of
its list, a size not above its capacity, every index below the size can be read, and each element whose value is
specified reads as that value. -/
theorem history_refines_lists (ops : List (Op α)) (h : AllowedAll AState.empty ops) :
    ∃ w, exec World.empty ops = some w ∧ ∀ i,
      match specExec AState.empty ops i with
      | none => size w i = none
      | some x => ∃ n c, size w i = some n ∧ capacity w i = some c ∧ n ≤ c ∧
          (∀ idx, idx < n → (get w i idx).isSome) ∧
          ∀ l, x.contents = some l → n = l.length ∧
            ∀ idx v, l[idx]? = some (some v) → get w i idx = some (some v) := by
  obtain ⟨w, h1, hI, hR⟩ := exec_ok inv_empty R_empty ops h
  refine ⟨w, h1, ?_⟩
  intro i
  cases hx : specExec AState.empty ops i with
  | none => simp only [size, hR.absent hx, Option.map_none]
  | some x =>
    obtain ⟨o, ho, hrel⟩ := hR.object hx
    have hw := hI.wf i o ho
    obtain ⟨b, hb, hbl⟩ := hI.wfBlock ho
    have hu := hw.used
    refine ⟨o.used, o.cap, by simp [size, ho], by simp [capacity, ho], hu, ?_, ?_⟩
    · intro idx hidx
      simp only [get, ho, Option.bind_some, World.load, hb, Option.bind_eq_bind]
      rw [List.getElem?_eq_getElem (by omega)]; rfl
    · intro l hl
      obtain ⟨b', hb', hc⟩ := hrel.2 l hl
      rw [hb] at hb'; cases hb'
      have hlen := hc.1
      simp only [List.length_take] at hlen
      refine ⟨by omega, ?_⟩
      intro idx v hv
      have := hc.2 idx v hv
      rw [List.getElem?_take] at this
      simp only [get, ho, Option.bind_some, World.load, hb, Option.bind_eq_bind]
      split at this
      · exact this
      · cases this

/-- **C01 (no leak).** After every allowed history, each heap block is owned by exactly one live buffer; when all
buffers have been destroyed, no block is left. -/
theorem history_no_leak (ops : List (Op α)) (h : AllowedAll AState.empty ops) {w : World α}
    (hw : exec World.empty ops = some w) (hnone : ∀ i, specExec (AState.empty : AState α) ops i = none) (k : Nat) :
    w.heap k = none := by
  obtain ⟨w', h1, hI, hR⟩ := exec_ok inv_empty R_empty ops h
  rw [hw] at h1; cases h1
  apply Classical.byContradiction
  intro hk
  obtain ⟨_, i, o, ho, _⟩ := hI.live k hk
  rw [hR.absent (hnone i)] at ho; cases ho

/-- **C02 (unsigned index types).** On every buffer after every allowed history, `at` with an index of any unsigned type
never has undefined behaviour: it throws, or reads the element at that index, which is below the size. When the size is
representable in the index type it throws exactly for the indices that are not below the size. -/
theorem atUnsigned_spec (ops : List (Op α)) (h : AllowedAll AState.empty ops) {w : World α}
    (hw : exec World.empty ops = some w) {i n : Nat} (hn : size w i = some n) {b : Nat} (idx : BitVec b) :
    (atUnsigned w i idx = none ∨
      ∃ c, atUnsigned w i idx = some (some c) ∧ get w i idx.toNat = some c ∧ idx.toNat < n) ∧
    (n < 2 ^ b → (atUnsigned w i idx = none ↔ n ≤ idx.toNat)) := by
  obtain ⟨w', h1, hI, hR⟩ := exec_ok inv_empty R_empty ops h
  rw [hw] at h1; cases h1
  cases ho : w.obj i with
  | none => simp [size, ho] at hn
  | some o =>
    simp only [size, ho, Option.map_some, Option.some.injEq] at hn
    obtain ⟨bk, hb, hbl⟩ := hI.wfBlock ho
    have hu := (hI.wf i o ho).used
    simp only [atUnsigned, ho, get, Option.bind_some, BitVec.toNat_ofNat]
    constructor
    · by_cases hlt : idx.toNat < o.used % 2 ^ b
      · right
        have hle : o.used % 2 ^ b ≤ o.used := Nat.mod_le _ _
        refine ⟨bk[idx.toNat]'(by omega), ?_, ?_, by omega⟩
        · rw [if_pos hlt]
          simp only [World.load, hb, Option.bind_eq_bind, Option.bind_some]
          rw [List.getElem?_eq_getElem]
        · simp only [World.load, hb, Option.bind_eq_bind, Option.bind_some]
          rw [List.getElem?_eq_getElem]
      · left; rw [if_neg hlt]
    · intro hfit
      rw [hn, Nat.mod_eq_of_lt hfit]
      by_cases hlt : idx.toNat < n
      · rw [if_pos hlt]; simp; omega
      · rw [if_neg hlt]; simp; omega

/-- **C02 (signed index types, partial).** For non-negative indices of a signed type `at` never has undefined behaviour:
it throws or reads the element at that index, below the size; if the size is representable it throws exactly for indices
that are not below the size. Missing: negative indices, for which the claim is false
(`atSigned_negative_undefined`). -/
theorem atSigned_spec_partial (ops : List (Op α)) (h : AllowedAll AState.empty ops) {w : World α}
    (hw : exec World.empty ops = some w) {i n : Nat} (hn : size w i = some n) {b : Nat} (idx : BitVec b)
    (hidx : 0 ≤ idx.toInt) :
    (atSigned w i idx = none ∨
      ∃ c, atSigned w i idx = some (some c) ∧ get w i idx.toNat = some c ∧ idx.toNat < n) ∧
    (2 * n < 2 ^ b → (atSigned w i idx = none ↔ n ≤ idx.toNat)) := by
  obtain ⟨w', h1, hI, hR⟩ := exec_ok inv_empty R_empty ops h
  rw [hw] at h1; cases h1
  cases ho : w.obj i with
  | none => simp [size, ho] at hn
  | some o =>
    simp only [size, ho, Option.map_some, Option.some.injEq] at hn
    obtain ⟨bk, hb, hbl⟩ := hI.wfBlock ho
    have hu := (hI.wf i o ho).used
    have hpos : idx.toInt = (idx.toNat : Int) := by
      rw [BitVec.toInt_eq_toNat_cond]
      rw [BitVec.toInt_eq_toNat_cond] at hidx
      have := idx.isLt
      split at hidx
      · simp_all
      · omega
    have hconv : (BitVec.ofNat b o.used).toInt ≤ (o.used : Int) := by
      rw [BitVec.toInt_eq_toNat_cond]
      have := Nat.mod_le o.used (2 ^ b)
      simp only [BitVec.toNat_ofNat]
      split <;> omega
    simp only [atSigned, ho, get, Option.bind_some]
    constructor
    · by_cases hlt : idx.toInt < (BitVec.ofNat b o.used).toInt
      · right
        have : idx.toNat < o.used := by omega
        refine ⟨bk[idx.toNat]'(by omega), ?_, ?_, by omega⟩
        · rw [if_pos hlt, if_neg (by omega), hpos]
          simp only [World.load, hb, Option.bind_eq_bind, Option.bind_some, Int.toNat_natCast]
          rw [List.getElem?_eq_getElem]
        · simp only [World.load, hb, Option.bind_eq_bind, Option.bind_some]
          rw [List.getElem?_eq_getElem]
      · left; rw [if_neg hlt]
    · intro hfit
      have he : (BitVec.ofNat b o.used).toInt = (o.used : Int) := by
        rw [BitVec.toInt_eq_toNat_cond]
        simp only [BitVec.toNat_ofNat]
        rw [Nat.mod_eq_of_lt (by omega), if_pos (by omega)]
      rw [he, hpos]
      by_cases hlt : (idx.toNat : Int) < (o.used : Int)
      · rw [if_pos hlt]; simp; omega
      · rw [if_neg hlt]; simp; omega

/-- A history used by the examples: buffers with static capacity 2 and 4; the first grows to the heap, is copied to the
second, which is then changed; the first is emptied by a move. -/
def demo : List (Op Nat) :=
  [.construct 0 2 0, .pushBack 0 5, .pushBack 0 6, .pushBack 0 7, .construct 1 4 1, .copyAssign 1 0, .write 1 0 9,
   .resize 1 5, .pushBack 1 8, .moveConstruct 2 3 0, .resizeStatic 1]

/-- Non-vacuity of `history_refines_lists`: `demo` is an allowed history. -/
theorem demo_allowed : AllowedAll AState.empty demo := by
  simp [demo, AllowedAll, Allowed, specStep, AState.put, AState.empty, Abs.resize, resized]

/-- ... and the specification says what one expects. -/
example : (specExec AState.empty demo 1).map (·.contents) = some (some [some 9, some 6, some 7, none]) ∧
    (specExec AState.empty demo 2).map (·.contents) = some (some [some 5, some 6, some 7]) := by
  constructor <;> rfl

/-- Non-vacuity of `history_no_leak`. -/
example : AllowedAll AState.empty (demo ++ [.destroy 0, .destroy 1, .destroy 2]) ∧
    ∀ i, specExec AState.empty (demo ++ [.destroy 0, .destroy 1, .destroy 2]) i = none := by
  constructor
  · have happ : ∀ (l m : List (Op Nat)) a, AllowedAll a l → AllowedAll (specExec a l) m → AllowedAll a (l ++ m) := by
      intro l m
      induction l with
      | nil => intro a _ h; exact h
      | cons op l ih => intro a h1 h2; exact ⟨h1.1, ih _ h1.2 h2⟩
    refine happ _ _ _ demo_allowed ⟨?_, ?_, ?_, trivial⟩ <;> (intro h; cases h)
  · intro i
    match i with
    | 0 => rfl
    | 1 => rfl
    | 2 => rfl
    | n + 3 => rfl

/-- **C02 fails for negative indices.** A buffer with one element, read with `at(-1)` (8-bit signed index): the check
passes and the access is outside the buffer. -/
theorem atSigned_negative_undefined :
    ∃ w : World Nat, exec World.empty [.construct 0 4 1] = some w ∧ size w 0 = some 1 ∧
      atSigned w 0 (-1 : BitVec 8) = some none :=
  ⟨_, rfl, rfl, rfl⟩

/-- **C54 fails: moves between buffers of the same type alias.** The class declares its copy and move operations as
templates, so a move between equal types is the compiler-generated memberwise one. After moving a buffer that uses its
static array, the target designates the *source's* array: writing to the source changes the target, and when the source
is gone, reading the target is undefined. -/
theorem implicitMove_aliases :
    ∃ w1 w2 w3 w4 : World Nat,
      exec World.empty [.construct 0 4 0, .pushBack 0 5, .construct 1 4 0] = some w1 ∧
      implicitMoveAssign w1 1 0 = some w2 ∧ get w2 1 0 = some (some 5) ∧
      write w2 0 0 6 = some w3 ∧ get w3 1 0 = some (some 6) ∧
      destroy w2 0 = some w4 ∧ size w4 1 = some 1 ∧ get w4 1 0 = none :=
  ⟨_, _, _, _, rfl, rfl, rfl, rfl, rfl, rfl, rfl, rfl⟩

/-- ... and after moving a buffer that uses the heap, the source still designates the moved block: a `clear` of the
target makes reading the source (whose size is unchanged) undefined. -/
theorem implicitMove_dangling_source :
    ∃ w1 w2 w3 : World Nat,
      exec World.empty [.construct 0 1 2, .write 0 0 5, .construct 1 1 0] = some w1 ∧
      implicitMoveAssign w1 1 0 = some w2 ∧ clear w2 1 = some w3 ∧ size w3 0 = some 2 ∧ get w3 0 0 = none :=
  ⟨_, _, _, rfl, rfl, rfl, rfl, rfl⟩

/-- **C54 fails: `push_back` of an element of the buffer itself.** When the heap block must grow, the argument's
storage is released before it is read: undefined behaviour. (`std::vector` handles this case.) -/
theorem pushBackRef_use_after_free :
    ∃ w : World Nat, exec World.empty [.construct 0 1 2, .write 0 0 5] = some w ∧
      size w 0 = some 2 ∧ get w 0 0 = some (some 5) ∧ pushBackRef w 0 0 = none :=
  ⟨_, rfl, rfl, rfl, rfl⟩

/-- **C54 (partial): inserting an element of the buffer itself.** `push_back(buf[j])` has the same effect as pushing a
copy of that element whenever there is spare capacity or the buffer still uses its static array. Missing: growth from
one heap block to another, where it is undefined (`pushBackRef_use_after_free`). -/
theorem pushBackRef_spec_partial (ops : List (Op α)) (h : AllowedAll AState.empty ops) {w : World α}
    (hw : exec World.empty ops = some w) {i j n c : Nat} {v : α} (hn : size w i = some n) (hc : capacity w i = some c)
    (hv : get w i j = some (some v)) (hroom : n < c ∨ (w.obj i).map (·.ptr) = some (.stat i)) :
    pushBackRef w i j = step w (.pushBack i v) := by
  obtain ⟨w', h1, hI, hR⟩ := exec_ok inv_empty R_empty ops h
  rw [hw] at h1; cases h1
  cases ho : w.obj i with
  | none => simp [size, ho] at hn
  | some o =>
    simp only [size, capacity, ho, Option.map_some, Option.some.injEq] at hn hc hroom
    exact pushBackRef_ok hI ho hv (by rw [hn, hc]; exact hroom)

/-- Non-vacuity of `pushBackRef_spec_partial`: a full static buffer. -/
example : ∃ w : World Nat, exec World.empty [.construct 0 2 0, .pushBack 0 5, .pushBack 0 6] = some w ∧
    size w 0 = some 2 ∧ capacity w 0 = some 2 ∧ get w 0 1 = some (some 6) ∧
    (w.obj 0).map (·.ptr) = some (.stat 0) :=
  ⟨_, rfl, rfl, rfl, rfl, rfl⟩

/-- The debug assertion in `push_back` (`cxx.hpp:1341`, `1352`: capacity > size + 1 after growing) is too strong for a
static capacity of one: a debug build rejects a legal call. -/
theorem pushBack_assertion_fails :
    ∃ w w' : World Nat, exec World.empty [.construct 0 1 0, .pushBack 0 5] = some w ∧ pushGrow w 0 = some w' ∧
      capacity w' 0 = some 2 ∧ size w' 0 = some 1 ∧ ¬ (2 > 1 + 1) :=
  ⟨_, _, rfl, rfl, rfl, rfl, by omega⟩

end Litiv.AutoBuffer
