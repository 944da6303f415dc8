import Verif.Lemmas.ChangeDet

/-! # Theorems about the change detection application -/

namespace Litiv.ChangeDet

open Spec

/-- Without a display and when nothing throws, each frame's mask is pushed once, in order, between the start
and the stop, and the report of the batch follows. The masks are those of the algorithm started on the first frame
and fed with all the frames at the promised rates. -/
theorem complete {F S : Type} (e : Env F S) (f : F) (st : S) (hset : e.setupOk = true) (hn : 1 < e.frames)
    (hf : e.input 0 = some f) (hi : e.init f = some st)
    (hm : (masks e.input e.apply (promised e.dfltRate) e.frames 0 st).length = e.frames)
    (hp : ∀ i, e.pushOk i = true) (hs : e.stopOk = true)
    (hr : e.reportOk = true) (hd : e.display = false) :
    analyze e = (.start :: ((masks e.input e.apply (promised e.dfltRate) e.frames 0 st).map
        fun p => Ev.push p.1 p.2) ++ [.stop, .report], true) ∧
    (masks e.input e.apply (promised e.dfltRate) e.frames 0 st).map (fun p => p.1) = List.range e.frames := by
  constructor
  · have hb : body e = (.start :: ((masks e.input e.apply (promised e.dfltRate) e.frames 0 st).map
        fun p => Ev.push p.1 (marked e p.2)) ++ [.stop, .report], false) := by
      unfold body
      rw [if_neg (by simp [hset, hn]), hf]
      dsimp only
      rw [hi]
      dsimp only
      rw [loop_full e (by simp [hd]) hp _ _ _ _ hm]
      dsimp only
      rw [if_pos rfl, if_pos hs, if_pos hr]
      rfl
    have hmk : ∀ m, marked e m = m := by
      intro m
      unfold marked
      rw [if_neg (by simp [hd])]
    unfold analyze
    rw [hb]
    simp only [hmk]
    rfl
  · have := masks_index e.input e.apply (promised e.dfltRate) e.frames 0 st
    have hl := this.eq_of_length (by simp [hm])
    rw [hl, List.range_eq_range']

/-- Whatever throws and wherever, and whenever the user quits: the frames pushed are the first ones, each once and
in order, with the masks of the algorithm (marked when there is a display). -/
theorem prefix_pushed {F S : Type} (e : Env F S) :
    pushed (analyze e).1 = [] ∨
    ∃ f st, e.input 0 = some f ∧ e.init f = some st ∧
      pushed (analyze e).1 <+:
        (masks e.input e.apply (promised e.dfltRate) e.frames 0 st).map (fun p => (p.1, marked e p.2)) ∧
      ((pushed (analyze e).1).map fun p => p.1) <+: List.range e.frames := by
  have key : ∀ (l : List Ev) (st : S),
      pushed l <+: (masks e.input e.apply (promised e.dfltRate) e.frames 0 st).map (fun p => (p.1, marked e p.2)) →
      ((pushed l).map fun p => p.1) <+: List.range e.frames := by
    intro l st h
    have h1 := h.map (fun p : Nat × List Nat => p.1)
    have h2 := masks_index e.input e.apply (promised e.dfltRate) e.frames 0 st
    rw [List.map_map] at h1
    rw [List.range_eq_range']
    exact h1.trans h2
  rcases body_form e with h | ⟨f, st, l, hf, hi, hl, hpre, h⟩
  · left
    unfold analyze
    rw [h]
    rfl
  · right
    have hp : pushed (analyze e).1 = pushed l := by
      unfold analyze
      rcases h with h | ⟨hs, h | h⟩
      · rw [h]
        dsimp only
        rw [if_pos rfl]
        by_cases hs : e.stopOk = true
        · rw [if_pos hs]
          dsimp only
          rw [pushed_append]
          simp [pushed]
        · rw [if_neg hs]
          rfl
      · rw [h]
        dsimp only
        rw [if_neg (by simp), pushed_append]
        simp [pushed]
      · rw [h]
        dsimp only
        rw [if_neg (by simp), pushed_append]
        simp [pushed]
    exact ⟨f, st, hf, hi, by rw [hp]; exact hpre, by rw [hp]; exact key l st hpre⟩

/-- Whatever throws and wherever, the batch is stopped exactly once if it was started, and `Analyze` returns
normally, unless stopping itself throws. -/
theorem stopped {F S : Type} (e : Env F S) (hs : e.stopOk = true) :
    closed false (analyze e).1 = true ∧ (analyze e).2 = true := by
  rcases body_form e with h | ⟨f, st, l, hf, hi, hl, _, h⟩
  · unfold analyze
    rw [h]
    exact ⟨rfl, rfl⟩
  · unfold analyze
    rcases h with h | ⟨_, h | h⟩
    · rw [h]
      dsimp only
      rw [if_pos rfl, if_pos hs]
      refine ⟨?_, rfl⟩
      simp only [List.cons_append, closed, Bool.not_false, Bool.true_and]
      rw [closed_push l _ hl]
      rfl
    · rw [h]
      dsimp only
      rw [if_neg (by simp)]
      refine ⟨?_, rfl⟩
      simp only [List.cons_append, closed, Bool.not_false, Bool.true_and]
      rw [closed_push l _ hl]
      rfl
    · rw [h]
      dsimp only
      rw [if_neg (by simp)]
      refine ⟨?_, rfl⟩
      simp only [List.cons_append, closed, Bool.not_false, Bool.true_and]
      rw [closed_push l _ hl]
      rfl

/-- A batch that fails does not prevent the others: each batch does what it would do alone, and the report of the
dataset is written, as long as stopping does not throw. -/
theorem batches_apart {F S : Type} (es : List (Env F S)) (h0 : (es.map fun e => e.frames).sum ≠ 0)
    (hs : ∀ e ∈ es, e.stopOk = true) :
    main es true = ⟨es.map fun e => (analyze e).1, true, 0⟩ := by
  have h1 : es.length ≠ 0 := by
    intro h
    rw [List.length_eq_zero_iff] at h
    subst h
    simp at h0
  unfold main
  rw [if_neg (by push Not; exact ⟨h1, h0⟩), if_pos, if_pos rfl]
  rw [List.all_eq_true]
  exact fun e he => (stopped e (hs e he)).2

/-- An exit code of zero always comes with the reports. -/
theorem code_report {F S : Type} (es : List (Env F S)) (ok : Bool) :
    (main es ok).code = 0 ↔ (main es ok).report = true := by
  unfold main
  by_cases h1 : es.length = 0 ∨ (es.map fun e => e.frames).sum = 0
  · rw [if_pos h1]; simp
  · rw [if_neg h1]
    by_cases h2 : es.all (fun e => (analyze e).2) = true
    · rw [if_pos h2]
      cases ok <;> simp
    · rw [if_neg h2]; simp

/-- An algorithm that fails on every frame. -/
def broken : Env Nat Nat :=
  ⟨true, 2, [], fun i => some i, fun f => some f, fun _ _ _ => none, 16, false, fun _ => false, fun _ => true, true, true⟩

/-- The exit code does not tell that the batches failed: every batch throws on its first frame, and the application
ends with code 0. -/
theorem exit_code_refuted : ∃ es : List (Env Nat Nat), es ≠ [] ∧ (∀ e ∈ es, pushed (analyze e).1 = [] ∧ 1 < e.frames) ∧
    (main es true).code = 0 ∧ (main es true).report = true := by
  refine ⟨[broken], by simp, ?_, by decide +kernel, by decide +kernel⟩
  intro e he
  rw [List.mem_singleton] at he
  subst he
  exact ⟨by decide +kernel, by decide⟩

/-- An algorithm that finds nothing, on two pixels of which the first is outside the region of interest. -/
def still (display : Bool) : Env Nat Nat :=
  ⟨true, 2, [0, 255], fun i => some i, fun f => some f, fun s _ _ => some (s, [0, 0]), 16, display, fun _ => false,
    fun _ => true, true, true⟩

/-- Showing the results changes the masks that are pushed. -/
theorem display_refuted : ∃ e e' : Env Nat Nat, e' = { e with display := true } ∧ e.display = false ∧
    pushed (analyze e).1 = [(0, [0, 0]), (1, [0, 0])] ∧
    pushed (analyze e').1 = [(0, [127, 0]), (1, [127, 0])] :=
  ⟨still false, still true, rfl, rfl, by decide +kernel, by decide +kernel⟩

/-- Inside the region of interest the display changes nothing. -/
theorem display_partial {F S : Type} (e : Env F S) (m : List Nat) (k v r : Nat)
    (hv : m[k]? = some v) (hr : e.roi[k]? = some r) (h : r ≠ 0) : (marked e m)[k]? = some v := by
  unfold marked
  by_cases hd : e.display = true
  · rw [if_pos hd]
    by_cases he : e.roi.isEmpty = true
    · rw [if_pos he]; exact hv
    · rw [if_neg he, List.getElem?_zipWith, hv, hr]
      simp [h]
  · rw [if_neg hd]; exact hv

/-- Outside the region of interest a mask that was marked as foreground (255) stays so, and background (0) becomes
127. -/
theorem display_outside {F S : Type} (e : Env F S) (m : List Nat) (k v : Nat) (hd : e.display = true)
    (hv : m[k]? = some v) (hr : e.roi[k]? = some 0) :
    (v = 255 → (marked e m)[k]? = some 255) ∧ (v = 0 → (marked e m)[k]? = some 127) := by
  have he : ¬ e.roi.isEmpty = true := by
    intro h
    rw [List.isEmpty_iff] at h
    rw [h] at hr
    simp at hr
  unfold marked
  rw [if_pos hd, if_neg he, List.getElem?_zipWith, hv, hr]
  constructor <;> (rintro rfl; rfl)

/-- With one worker the batches run one after the other, and each draws the same numbers in every run, whatever the
generator was before: the first numbers after `srand(0)`. -/
theorem repeatable_partial (seed0 : Nat) (next : Nat → Nat × Nat) (w s : Nat) (ns : List Nat) :
    draws seed0 next w s (ns.flatMap fun n => program w n) =
      ns.flatMap fun n => draws seed0 next w 0 (program w n) := by
  have hrep : ∀ (n s : Nat) (t : List (Nat × RandAct)), (∃ r, t = (w, .srand) :: r) ∨ t = [] →
      draws seed0 next w s (List.replicate n (w, .draw) ++ t) =
        draws seed0 next w s (List.replicate n (w, .draw)) ++ draws seed0 next w 0 t := by
    intro n
    induction n with
    | zero =>
      intro s t ht
      rcases ht with ⟨r, rfl⟩ | rfl
      · simp [draws]
      · simp [draws]
    | succ n ih =>
      intro s t ht
      rw [List.replicate_succ]
      simp only [List.cons_append, draws, if_true]
      rw [ih _ t ht]
  have hhead : ∀ ns : List Nat, (∃ r, (ns.flatMap fun n => program w n) = (w, .srand) :: r) ∨
      (ns.flatMap fun n => program w n) = [] := by
    intro ns
    cases ns with
    | nil => exact Or.inr rfl
    | cons n t => exact Or.inl ⟨List.replicate n (w, .draw) ++ t.flatMap fun n => program w n, rfl⟩
  induction ns generalizing s with
  | nil => rfl
  | cons n t ih =>
    rw [List.flatMap_cons, List.flatMap_cons]
    unfold program
    simp only [List.cons_append, draws]
    have h := hrep n seed0 (t.flatMap fun n => program w n) (hhead t)
    unfold program at h
    rw [h]
    congr 1
    have := ih 0
    unfold program at this
    rw [this]
    rfl

/-- With two workers the numbers that a batch draws depend on the schedule: the same two batches, run twice. -/
theorem repeatable_refuted : ∃ (seed0 : Nat) (next : Nat → Nat × Nat) (tr tr' : List (Nat × RandAct)),
    (tr.filter fun p => p.1 == 0) = (program 0 2) ∧ (tr.filter fun p => p.1 == 1) = (program 1 1) ∧
    (tr'.filter fun p => p.1 == 0) = (program 0 2) ∧ (tr'.filter fun p => p.1 == 1) = (program 1 1) ∧
    draws seed0 next 0 0 tr ≠ draws seed0 next 0 0 tr' :=
  ⟨1, fun s => (s, (1103515245 * s + 12345) % 2 ^ 31),
    [(0, .srand), (0, .draw), (0, .draw), (1, .srand), (1, .draw)],
    [(0, .srand), (0, .draw), (1, .srand), (0, .draw), (1, .draw)],
    by decide +kernel, by decide +kernel, by decide +kernel, by decide +kernel, by decide +kernel⟩

/-! Concrete cases. -/

/-- An algorithm that adds up the frames and the rates. -/
def adder : Env Nat Nat :=
  ⟨true, 3, [], fun i => some (i + 1), fun f => some f, fun s f r => some (s + f + r, [s]), 16, false, fun _ => false,
    fun _ => true, true, true⟩

example : analyze adder = ([.start, .push 0 [1], .push 1 [3], .push 2 [6], .stop, .report], true) := by decide +kernel

example : (masks adder.input adder.apply (promised adder.dfltRate) adder.frames 0 1).length = adder.frames := by
  decide +kernel

example : analyze { adder with pushOk := fun i => i < 1 } = ([.start, .push 0 [1], .stop], true) := by decide +kernel

example : draws 1 (fun s => (s, s + 1)) 0 9 ([2, 3].flatMap fun n => program 0 n) = [1, 2, 1, 2, 3] := by decide +kernel

example : marked (still true) [255, 255] = [255, 255] ∧ marked (still true) [0, 3] = [127, 3] := by decide +kernel

end Litiv.ChangeDet
