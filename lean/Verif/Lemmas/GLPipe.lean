import Verif.Spec.GLPipe
import Mathlib.Tactic.SplitIfs

/-!
# Lemmas about the GPU pipeline
-/

namespace Litiv.GLPipe
open Spec

variable {σ τ I O G : Type}

/-- Layer and buffer numbers are in range. -/
def Ok (o : Opts) (p : Pipe σ I O) : Prop := p.next < o.layers ∧ p.nextPBO < 2 ∧ p.curr < o.layers ∧ p.next = (p.curr + 1) % o.layers

theorem succ_mod_ne (L a : Nat) (h : 2 ≤ L) (ha : a < L) : (a + 1) % L ≠ a := by
  by_cases e : a + 1 = L
  · rw [e, Nat.mod_self]; omega
  · rw [Nat.mod_eq_of_lt (by omega)]; omega

theorem ok_apply (o : Opts) (f : Shader σ I O) (x : Option I) (p : Pipe σ I O) (hL : 2 ≤ o.layers) (h : Ok o p) : Ok o (applyGL o f x p) := by
  obtain ⟨h1, h2, h3, h4⟩ := h
  have e1 : (applyGL o f x p).next = (p.next + 1) % o.layers := by
    unfold applyGL fetchStep transfer runShader upload rotate
    cases x <;> dsimp only <;> split_ifs <;> rfl
  have e2 : (applyGL o f x p).nextPBO = (p.nextPBO + 1) % 2 := by
    unfold applyGL fetchStep transfer runShader upload rotate
    cases x <;> dsimp only <;> split_ifs <;> rfl
  have e3 : (applyGL o f x p).curr = p.next := by
    unfold applyGL fetchStep transfer runShader upload rotate
    cases x <;> dsimp only <;> split_ifs <;> rfl
  refine ⟨?_, ?_, ?_, ?_⟩
  · rw [e1]; exact Nat.mod_lt _ (by omega)
  · rw [e2]; omega
  · rw [e3]; exact h1
  · rw [e1, e3]

theorem ok_reached (o : Opts) (f : Shader σ I O) (hL : 2 ≤ o.layers) (p : Pipe σ I O) (h : Reached o f p) : Ok o p := by
  obtain ⟨st, inL, outL, zero, ops, rfl⟩ := h
  have key : ∀ (ops : List (Op I)) (p : Pipe σ I O), Ok o p → Ok o (runOps o f zero ops p) := by
    intro ops
    induction ops with
    | nil => intro p h; exact h
    | cons op ops ih =>
      intro p h
      refine ih _ ?_
      cases op with
      | init x => exact h
      | apply x => exact ok_apply o f x p hL h
      | fetching b => exact h
      | mask =>
        dsimp only
        unfold latestMask
        dsimp only
        split
        · exact h
        · exact h
  refine key ops _ ⟨?_, ?_, ?_, ?_⟩
  · show 1 < o.layers; omega
  · show 1 < 2; omega
  · show 0 < o.layers; omega
  · show 1 = (0 + 1) % o.layers; rw [Nat.mod_eq_of_lt (by omega)]

/-- The effect of one call. -/
theorem apply_spec (o : Opts) (f : Shader σ I O) (x : Option I) (p : Pipe σ I O) (hL : 2 ≤ o.layers) (h : Ok o p) :
    (seen o x p).cur = p.inL p.next ∧ (seen o x p).frame = p.frame ∧
    (applyGL o f x p).st = (f p.st (seen o x p)).1 ∧ (applyGL o f x p).frame = p.frame + 1 ∧
    (applyGL o f x p).outL (applyGL o f x p).curr = (f p.st (seen o x p)).2 ∧
    (applyGL o f x p).fetching = p.fetching ∧
    (∀ y, x = some y → (applyGL o f x p).inL (applyGL o f x p).next = y) ∧
    (p.fetching = true → fetchLast o (applyGL o f x p) = some (some (f p.st (seen o x p)).2, p.frame)) ∧
    (∀ i, i ≠ p.next → (applyGL o f x p).outL i = p.outL i) := by
  obtain ⟨h1, h2, h3, h4⟩ := h
  have hne : p.next ≠ (p.next + 1) % o.layers := (succ_mod_ne _ _ hL h1).symm
  rcases p with ⟨next, curr, last, currPBO, nextPBO, inL, outL, inP, outP, lastOut, frame, lastIdx, fetching, st⟩
  rcases o with ⟨L, pi, po⟩
  dsimp only at *
  cases x <;> cases pi <;> cases po <;> cases fetching <;>
    refine ⟨?_, rfl, rfl, rfl, ?_, rfl, ?_, ?_, ?_⟩ <;>
    simp (config := { contextual := true }) [applyGL, fetchStep, transfer, runShader, upload, rotate, seen, viewOf, fetchLast, Function.update, hne]

/-- With two layers: the next layer holds the input given, or what it held before. -/
theorem apply_empty (o : Opts) (f : Shader σ I O) (p : Pipe σ I O) (hL : o.layers = 2) (h : Ok o p)
    (hP : o.pboIn = true → p.nextPBO = p.next ∧ p.inP 0 = p.inL 0 ∧ p.inP 1 = p.inL 1) (x : Option I) :
    (applyGL o f x p).inL (applyGL o f x p).next = x.getD (p.inL p.curr) ∧ (applyGL o f x p).inL (applyGL o f x p).curr = p.inL p.next ∧
    (o.pboIn = true → (applyGL o f x p).nextPBO = (applyGL o f x p).next ∧ (applyGL o f x p).inP 0 = (applyGL o f x p).inL 0 ∧
      (applyGL o f x p).inP 1 = (applyGL o f x p).inL 1) := by
  obtain ⟨h1, h2, h3, h4⟩ := h
  rcases p with ⟨next, curr, last, currPBO, nextPBO, inL, outL, inP, outP, lastOut, frame, lastIdx, fetching, st⟩
  rcases o with ⟨L, pi, po⟩
  dsimp only at *
  subst hL
  have hc : (curr = 0 ∧ next = 1) ∨ (curr = 1 ∧ next = 0) := by omega
  rcases hc with ⟨rfl, rfl⟩ | ⟨rfl, rfl⟩ <;>
  cases x <;> cases pi <;> cases po <;> cases fetching <;> simp at hP <;>
    simp [applyGL, fetchStep, transfer, runShader, upload, rotate, seen, viewOf, fetchLast, Function.update, hP]

theorem pbo_apply (o : Opts) (f : Shader σ I O) (x : Option I) (p : Pipe σ I O) (hL : o.layers = 2) (h : p.nextPBO = p.next) :
    (applyGL o f x p).nextPBO = (applyGL o f x p).next := by
  unfold applyGL fetchStep transfer runShader upload rotate
  cases x <;> dsimp only <;> split_ifs <;> simp [h, hL]

theorem pbo_reached (o : Opts) (f : Shader σ I O) (hL : o.layers = 2) (p : Pipe σ I O) (h : Reached o f p) : p.nextPBO = p.next := by
  obtain ⟨st, inL, outL, zero, ops, rfl⟩ := h
  have key : ∀ (ops : List (Op I)) (p : Pipe σ I O), p.nextPBO = p.next → (runOps o f zero ops p).nextPBO = (runOps o f zero ops p).next := by
    intro ops
    induction ops with
    | nil => intro p h; exact h
    | cons op ops ih =>
      intro p h
      refine ih _ ?_
      cases op with
      | init x => exact h
      | apply x => exact pbo_apply o f x p hL h
      | fetching b => exact h
      | mask =>
        dsimp only
        unfold latestMask
        dsimp only
        split
        · exact h
        · exact h
  exact key ops _ rfl

theorem init_next (p : Pipe σ I O) (x : I) : (initGL p x).inL (initGL p x).next = x := by simp [initGL]

/-- Outputs of a run with an input in every call. -/
theorem fetches_spec (o : Opts) (f : Shader σ I O) (g : σ → Nat → I → σ × O) (hL : 2 ≤ o.layers) (hf : Plain f g) :
    ∀ (xs : List I) (a : I) (p : Pipe σ I O), Ok o p → p.fetching = true → p.inL p.next = a →
      fetches o f (xs.map some) p =
        (((Spec.results g p.st p.frame (a :: xs)).take xs.length).zipIdx p.frame).map (fun r => some (some r.1, r.2))
  | [], a, p, _, _, _ => by simp [fetches]
  | x :: xs, a, p, h, hp, ha => by
    obtain ⟨h1, h2, h3, h4, h5, h6, h7, h8, h9⟩ := apply_spec o f (some x) p hL h
    have ih := fetches_spec o f g hL hf xs x (applyGL o f (some x) p) (ok_apply o f _ p hL h) (h6.trans hp) (h7 x rfl)
    have e : f p.st (seen o (some x) p) = g p.st p.frame a := by rw [hf, h1, h2, ha]
    rw [List.map_cons, fetches, ih, h8 hp, h3, h4, e]
    rw [Spec.results.eq_def g p.st p.frame (a :: x :: xs)]
    dsimp only
    rw [List.length_cons, List.take_succ_cons, List.zipIdx_cons, List.map_cons]

/-- The pipeline with two layers. -/
theorem fetches_two (o : Opts) (f : Shader σ I O) (g : σ → Nat → I → σ × O) (hL : o.layers = 2) (hf : Plain f g) :
    ∀ (xs : List (Option I)) (a b : I) (p : Pipe σ I O), Ok o p → p.fetching = true → p.inL p.next = a → p.inL p.curr = b →
      (o.pboIn = true → p.nextPBO = p.next ∧ p.inP 0 = p.inL 0 ∧ p.inP 1 = p.inL 1) →
      fetches o f xs p = ((Spec.results g p.st p.frame (processed a b xs)).zipIdx p.frame).map (fun r => some (some r.1, r.2))
  | [], a, b, p, _, _, _, _, _ => by simp [fetches, processed, Spec.results]
  | x :: xs, a, b, p, h, hp, ha, hb, hP => by
    obtain ⟨h1, h2, h3, h4, h5, h6, h7, h8, h9⟩ := apply_spec o f x p (by omega) h
    obtain ⟨k1, k2, k3⟩ := apply_empty o f p hL h hP x
    have ih := fetches_two o f g hL hf xs (x.getD b) a (applyGL o f x p) (ok_apply o f _ p (by omega) h) (h6.trans hp)
      (k1.trans (by rw [hb])) (k2.trans ha) k3
    have e : f p.st (seen o x p) = g p.st p.frame a := by rw [hf, h1, h2, ha]
    rw [fetches, ih, h8 hp, h3, h4, e, processed, Spec.results, List.zipIdx_cons, List.map_cons]

/-- Masks of a run. -/
theorem masks_spec (o : Opts) (f : Shader σ I O) (g : σ → Nat → I → σ × O) (zero : O) (hL : 2 ≤ o.layers) (hf : Plain f g) :
    ∀ (xs : List I) (a : I) (p : Pipe σ I O), Ok o p → p.fetching = true → p.inL p.next = a →
      (applyMasks o f zero xs p).2 = ((Spec.results g p.st p.frame (a :: xs)).take xs.length).map some
  | [], a, p, _, _, _ => by simp [applyMasks]
  | x :: xs, a, p, h, hp, ha => by
    obtain ⟨h1, h2, h3, h4, h5, h6, h7, h8, h9⟩ := apply_spec o f (some x) p hL h
    have e : f p.st (seen o (some x) p) = g p.st p.frame a := by rw [hf, h1, h2, ha]
    have em : applyMask o f zero x p = (applyGL o f (some x) p, some (g p.st p.frame a).2) := by
      unfold applyMask latestMask
      simp only [h6, hp, if_true, h4, Nat.succ_pos, h8 hp, e, Option.map_some, Option.getD_some]
    have ih := masks_spec o f g zero hL hf xs x (applyGL o f (some x) p) (ok_apply o f _ p hL h) (h6.trans hp) (h7 x rfl)
    rw [applyMasks, em]
    dsimp only
    rw [ih, h3, h4, e]
    rw [Spec.results.eq_def g p.st p.frame (a :: x :: xs)]
    dsimp only
    rw [List.length_cons, List.take_succ_cons, List.map_cons]

/-! ### The consumer -/

/-- The state of a consumer before a call: packet `i` is waiting in the pipeline as frame `k`. -/
structure Ready (o : Opts) (w : Batch I G) (c : Consumer σ τ I O G) (i k : Nat) : Prop where
  ok : Ok o c.pipe
  lt : i < w.count
  curr : c.curr = i
  next : c.next = i + 1
  inp : c.pipe.inL c.pipe.next = w.input i
  frame : c.pipe.frame = k
  fetch : (w.saving || w.display || w.callback) = true → c.pipe.fetching = true
  nin : i + 1 < w.count → c.nextIn = w.input (i + 1)
  ngt : w.evaluating = true → i + 1 < w.count → c.nextGT = w.gt (i + 1)
  cin : w.callback = true → c.currIn = w.input i
  cgt : w.callback = true → c.currGT = w.gt i
  en : w.evaluating = true → c.eval.next < o.layers
  eg : w.evaluating = true → c.eval.gtL c.eval.next = w.gt i
  ef : w.evaluating = true → c.eval.frame = k

theorem callback_eval (w : Batch I G) (h : w.callback = true) : w.evaluating = true := by
  unfold Batch.callback at h; simp at h; exact h.1

/-- `pre_apply_gl` gets the next packet. -/
theorem pre_spec (o : Opts) (w : Batch I G) (c : Consumer σ τ I O G) (i k n : Nat) (h : Ready o w c i k) (hgt : w.gtCount = w.count)
    (hn : n < w.count ∨ n = i + 1) : ∃ x y, preApply w n c = some { c with nextIn := x, nextGT := y } ∧
      (n < w.count → x = w.input n ∧ (w.evaluating = true → y = w.gt n)) := by
  unfold preApply
  by_cases e : n = c.next
  · rw [if_neg (by simpa using e)]
    refine ⟨c.nextIn, c.nextGT, rfl, fun hc => ?_⟩
    have : n = i + 1 := by rw [e, h.next]
    subst this
    exact ⟨h.nin hc, fun he => h.ngt he hc⟩
  · have hc : n < w.count := by
      rcases hn with h1 | h1
      · exact h1
      · exact absurd (h1.trans h.next.symm) e
    rw [if_pos (by simpa using e)]
    unfold Batch.getInput Batch.getGT
    rw [if_pos hc, if_pos (by omega)]
    cases he : w.evaluating
    · exact ⟨w.input n, c.nextGT, rfl, fun _ => ⟨rfl, by simp⟩⟩
    · exact ⟨w.input n, w.gt n, rfl, fun _ => ⟨rfl, fun _ => rfl⟩⟩

theorem loadNext_spec (w : Batch I G) (c : Consumer σ τ I O G) (hgt : w.gtCount = w.count) :
    ∃ x y, loadNext w c = some { c with nextIn := x, nextGT := y } ∧
      (c.next < w.count → x = w.input c.next ∧ (w.evaluating = true → y = w.gt c.next)) := by
  unfold loadNext
  by_cases hc : c.next < w.count
  · rw [if_pos hc]
    unfold Batch.getInput Batch.getGT
    rw [if_pos hc]
    have hc2 : c.next < w.gtCount := by omega
    simp only [Option.bind_eq_bind, Option.bind_some, if_pos hc2]
    cases he : w.evaluating
    · exact ⟨w.input c.next, c.nextGT, rfl, fun _ => ⟨rfl, by simp⟩⟩
    · exact ⟨w.input c.next, w.gt c.next, rfl, fun _ => ⟨rfl, fun _ => rfl⟩⟩
  · rw [if_neg hc]
    exact ⟨c.nextIn, c.nextGT, rfl, fun h => absurd h hc⟩

/-- One call of the consumer. -/
theorem consume_spec (o : Opts) (f : Shader σ I O) (g : σ → Nat → I → σ × O) (h : EvalFn τ G O) (w : Batch I G) (hL : 2 ≤ o.layers)
    (hf : Plain f g) (hgt : w.gtCount = w.count) (c : Consumer σ τ I O G) (i k n : Nat) (hr : Ready o w c i k)
    (hn : n < w.count ∨ n = i + 1) (hk : w.evaluating = true → k < w.gtCount) :
    ∃ c', consume o f h w n c = some c' ∧ c'.pipe.st = (g c.pipe.st k (w.input i)).1 ∧
      c'.eval.st = (if w.evaluating then h c.eval.st k (w.gt i) (g c.pipe.st k (w.input i)).2 else c.eval.st) ∧
      c'.counted = c.counted ++ [i] ∧
      c'.saved = (if w.saving then c.saved ++ [(i, some (g c.pipe.st k (w.input i)).2)] else c.saved) ∧
      c'.called = (if w.callback then c.called ++ [(w.input i, some (g c.pipe.st k (w.input i)).2, w.gt i, i)] else c.called) ∧
      (n < w.count → Ready o w c' n (k + 1)) := by
  obtain ⟨x, y, e1, hxy⟩ := pre_spec o w c i k n hr hgt hn
  obtain ⟨h1, h2, h3, h4, h5, h6, h7, h8, h9⟩ := apply_spec o f (some x) c.pipe hL hr.ok
  have hok := ok_apply o f (some x) c.pipe hL hr.ok
  have e : f c.pipe.st (seen o (some x) c.pipe) = g c.pipe.st k (w.input i) := by rw [hf, h1, h2, hr.inp, hr.frame]
  rw [e] at h3 h5 h8
  rw [hr.frame] at h4 h8
  have h7' := h7 x rfl
  rw [consume, e1]
  simp only [Option.bind_eq_bind, Option.bind_some]
  generalize applyGL o f (some x) c.pipe = q at *
  unfold postApply
  dsimp only
  -- the evaluator
  obtain ⟨ev, e2, k1, k2, k3, k4⟩ : ∃ ev : Evaluator τ G, evalStep o h w ({ c with nextIn := x, nextGT := y, pipe := q } : Consumer σ τ I O G) = some ev ∧
      ev.st = (if w.evaluating then h c.eval.st k (w.gt i) (g c.pipe.st k (w.input i)).2 else c.eval.st) ∧
      (w.evaluating = true → ev.next < o.layers) ∧ (w.evaluating = true → ev.gtL ev.next = y) ∧
      (w.evaluating = true → ev.frame = k + 1) := by
    unfold evalStep
    cases he : w.evaluating
    · exact ⟨c.eval, rfl, rfl, by simp, by simp, by simp⟩
    · have hfr := hr.ef he
      have hne := (succ_mod_ne o.layers c.eval.next hL (hr.en he)).symm
      refine ⟨⟨(c.eval.next + 1) % o.layers, c.eval.next, Function.update c.eval.gtL ((c.eval.next + 1) % o.layers) y,
        c.eval.frame + 1, h c.eval.st c.eval.frame (Function.update c.eval.gtL ((c.eval.next + 1) % o.layers) y c.eval.next) (q.outL q.curr)⟩, ?_, ?_, ?_, ?_, ?_⟩
      · rw [if_pos rfl, evalGL, if_pos (by rw [hfr]; exact hk he)]
      · rw [if_pos rfl]
        dsimp only
        rw [Function.update_of_ne hne, hr.eg he, h5, hfr]
      · intro _; exact Nat.mod_lt _ (by omega)
      · intro _; exact Function.update_self _ _ _
      · intro _; dsimp only; rw [hfr]
  rw [e2]
  simp only [Option.bind_eq_bind, Option.bind_some]
  obtain ⟨x2, y2, e3, hxy2⟩ := loadNext_spec w (shift w ⟨q, ev, c.curr, n, n + 1, c.lastIn, c.currIn, x, c.lastGT, c.currGT, y, c.saved, c.counted, c.called⟩) hgt
  rw [e3, Option.bind_some]
  have es : shift w ⟨q, ev, c.curr, n, n + 1, c.lastIn, c.currIn, x, c.lastGT, c.currGT, y, c.saved, c.counted, c.called⟩ =
      (⟨q, ev, c.curr, n, n + 1, if w.display || w.callback then c.currIn else c.lastIn, if w.display || w.callback then x else c.currIn, x,
        if (w.display || w.callback) && w.evaluating then c.currGT else c.lastGT,
        if (w.display || w.callback) && w.evaluating then y else c.currGT, y, c.saved, c.counted, c.called⟩ : Consumer σ τ I O G) := by
    unfold shift
    cases (w.display || w.callback) <;> cases w.evaluating <;> rfl
  rw [es] at hxy2
  rw [es]
  dsimp only at hxy2
  have ready : ∀ (s : List (Nat × Option O)) (cn : List Nat) (cl : List (I × Option O × G × Nat)), n < w.count →
      Ready o w (⟨q, ev, c.curr, n, n + 1, if w.display || w.callback then c.currIn else c.lastIn, if w.display || w.callback then x else c.currIn, x2,
        if (w.display || w.callback) && w.evaluating then c.currGT else c.lastGT,
        if (w.display || w.callback) && w.evaluating then y else c.currGT, y2, s, cn, cl⟩ : Consumer σ τ I O G) n (k + 1) := by
    intro s cn cl hc
    obtain ⟨ex, ey⟩ := hxy hc
    refine ⟨hok, hc, rfl, rfl, h7'.trans ex, h4, fun hw => h6.trans (hr.fetch hw), fun hc2 => (hxy2 hc2).1, fun he hc2 => (hxy2 hc2).2 he, ?_, ?_, k2,
      fun he => (k3 he).trans (ey he), k4⟩
    · intro hcb; simp [hcb, ex]
    · intro hcb; simp [hcb, callback_eval w hcb, ey (callback_eval w hcb)]
  unfold GLPipe.results
  dsimp only
  by_cases hfe : (w.saving || w.display || w.callback) = true
  · rw [if_pos hfe]
    simp only [h8 (hr.fetch hfe), Option.bind_eq_bind, Option.bind_some]
    cases hs : w.saving <;> cases hcb : w.callback
    · exact ⟨_, rfl, h3, k1, by simp [hr.curr], by simp, by simp, by simpa [hcb] using ready _ _ _⟩
    · exact ⟨_, rfl, h3, k1, by simp [hr.curr], by simp, by simp [hr.cin hcb, hr.cgt hcb, callback_eval w hcb, hr.curr], by simpa [hcb] using ready _ _ _⟩
    · exact ⟨_, rfl, h3, k1, by simp [hr.curr], by simp [hr.curr], by simp, by simpa [hcb] using ready _ _ _⟩
    · exact ⟨_, rfl, h3, k1, by simp [hr.curr], by simp [hr.curr], by simp [hr.cin hcb, hr.cgt hcb, callback_eval w hcb, hr.curr], by simpa [hcb] using ready _ _ _⟩
  · rw [if_neg hfe]
    have hs : w.saving = false := by cases hs : w.saving <;> simp_all
    have hcb : w.callback = false := by cases hs : w.callback <;> simp_all
    exact ⟨_, rfl, h3, k1, by simp [hr.curr], by simp [hs], by simp [hcb], ready _ _ _⟩

/-- A run of the consumer. -/
theorem consumeAll_spec (o : Opts) (f : Shader σ I O) (g : σ → Nat → I → σ × O) (h : EvalFn τ G O) (w : Batch I G) (hL : 2 ≤ o.layers)
    (hf : Plain f g) (hgt : w.gtCount = w.count) : ∀ (ns : List Nat) (c : Consumer σ τ I O G) (i k : Nat), Ready o w c i k → Valid w.count i ns →
      (w.evaluating = true → k + ns.length ≤ w.gtCount) →
    ∃ c', consumeAll o f h w ns c = some c' ∧
      c'.counted = c.counted ++ (i :: ns).take ns.length ∧
      c'.saved = c.saved ++ (if w.saving then ((i :: ns).take ns.length).zip
        ((Spec.results g c.pipe.st k (((i :: ns).take ns.length).map w.input)).map some) else []) ∧
      c'.called = c.called ++ (if w.callback then (((i :: ns).take ns.length).zip
        (Spec.results g c.pipe.st k (((i :: ns).take ns.length).map w.input))).map (fun r => (w.input r.1, some r.2, w.gt r.1, r.1)) else []) ∧
      c'.eval.st = (if w.evaluating then evalAll h c.eval.st k ((((i :: ns).take ns.length).map w.gt).zip
        (Spec.results g c.pipe.st k (((i :: ns).take ns.length).map w.input))) else c.eval.st)
  | [], c, i, k, hr, hv, hk => ⟨c, rfl, by simp, by simp [Spec.results], by simp [Spec.results], by simp [evalAll, Spec.results]⟩
  | n :: ns, c, i, k, hr, hv, hk => by
    have hn : n < w.count ∨ n = i + 1 := by
      cases ns with
      | nil => exact hv
      | cons m ms => exact Or.inl hv.1
    obtain ⟨c1, e1, s1, s2, s3, s4, s5, s6⟩ := consume_spec o f g h w hL hf hgt c i k n hr hn (fun he => by have := hk he; simp at this; omega)
    rw [consumeAll, e1]
    simp only [Option.bind_eq_bind, Option.bind_some]
    cases ns with
    | nil =>
      refine ⟨c1, rfl, ?_, ?_, ?_, ?_⟩
      · simpa using s3
      · rw [s4]; cases w.saving <;> simp [Spec.results]
      · rw [s5]; cases w.callback <;> simp [Spec.results]
      · rw [s2]; cases w.evaluating <;> simp [Spec.results, evalAll]
    | cons m ms =>
      obtain ⟨c2, e2, t1, t2, t3, t4⟩ := consumeAll_spec o f g h w hL hf hgt (m :: ms) c1 n (k + 1) (s6 hv.1) hv.2
        (fun he => by have := hk he; simp at this ⊢; omega)
      refine ⟨c2, e2, ?_, ?_, ?_, ?_⟩
      · rw [t1, s3]; simp
      · rw [t2, s4, s1]; cases w.saving <;> simp [Spec.results]
      · rw [t3, s5, s1]; cases w.callback <;> simp [Spec.results]
      · rw [t4, s2, s1]; cases w.evaluating <;> simp [Spec.results, evalAll]

/-- The consumer after its construction. -/
theorem init_ready (o : Opts) (w : Batch I G) (p : Pipe σ I O) (e0 : Evaluator τ G) (g0 : G) (hL : 2 ≤ o.layers) (hp : Ok o p)
    (hgt : w.gtCount = w.count) (h2 : 2 ≤ w.count) : ∃ c, consumerInit w p e0 g0 = some c ∧ Ready o w c 0 0 ∧ c.pipe.st = p.st ∧ c.eval.st = e0.st ∧
      c.counted = [] ∧ c.saved = [] ∧ c.called = [] := by
  have hg : ∃ a b, initGT w g0 = some (a, b) ∧ (w.evaluating = true → a = w.gt 0 ∧ b = w.gt 1) := by
    unfold initGT Batch.getGT
    cases he : w.evaluating
    · exact ⟨g0, g0, rfl, by simp⟩
    · rw [if_pos rfl, if_pos (show 0 < w.gtCount by omega), if_pos (show 1 < w.gtCount by omega)]
      exact ⟨w.gt 0, w.gt 1, rfl, fun _ => ⟨rfl, rfl⟩⟩
  obtain ⟨a, b, eg, hab⟩ := hg
  have key : consumerInit w p e0 g0 = some ⟨(if w.callback then setFetching true (initGL (if w.saving || w.display then setFetching true p else p) (w.input 0))
      else initGL (if w.saving || w.display then setFetching true p else p) (w.input 0)),
      { e0 with next := 1, curr := 0, frame := 0, gtL := Function.update (Function.update e0.gtL 0 a) 1 a }, 0, 0, 1, w.input 0, w.input 0, w.input 1,
      a, a, b, [], [], []⟩ := by
    unfold consumerInit Batch.getInput
    rw [if_pos (show w.gtCount > 1 by omega), if_pos (show 0 < w.count by omega), if_pos (show 1 < w.count by omega), eg]
    rfl
  refine ⟨_, key, ?_, ?_, rfl, rfl, rfl, rfl⟩
  · have hcb : w.callback = true → a = w.gt 0 := fun h => (hab (callback_eval w h)).1
    have hok : Ok o (if w.callback then setFetching true (initGL (if w.saving || w.display then setFetching true p else p) (w.input 0))
      else initGL (if w.saving || w.display then setFetching true p else p) (w.input 0)) := by
      cases w.callback <;> cases (w.saving || w.display) <;> exact hp
    refine ⟨hok, (by omega), rfl, rfl, ?_, ?_, ?_, fun _ => rfl, fun he _ => (hab he).2, fun _ => rfl, hcb, fun _ => ?_, fun he => ?_, fun _ => rfl⟩
    · cases w.callback <;> cases (w.saving || w.display) <;> exact init_next (setFetching _ p) _
    · cases w.callback <;> cases (w.saving || w.display) <;> rfl
    · intro hh
      cases h1 : w.callback <;> cases h3 : (w.saving || w.display) <;> first | rfl | (rw [h1, h3] at hh; exact absurd hh (by decide))
    · show 1 < o.layers; omega
    · simp [(hab he).1]
  · cases w.callback <;> cases (w.saving || w.display) <;> rfl

end Litiv.GLPipe
