import Verif.Lemmas.EvalRun
import Verif.Props.Packets

/-!
# Properties of evaluation sessions (C198-C200)
-/

namespace Litiv.EvalRun

open Litiv.Packets (Counter Res)
open Litiv.Metrics

/-! ### C198: metrics of a session -/

/-- C198. While a batch is processing, pushing an image succeeds exactly when the batch is not evaluated or the image is
non-empty and the ground truth and region of interest of that packet are absent or of the same size. -/
theorem image_push (b : Batch) (s : Sess Mat8 BinClassif) (hp : s.cnt.processing = true) (o : Mat8) (i : Nat)
    (ho : o.Valid) (hg : (b.gt i).Valid) (hr : (b.roi i).Valid) :
    ((s.step (imageEval b) (.push o i)).2 = .ok ↔ (b.evaluating = true → Admissible o (b.gt i) (b.roi i))) ∧
    ((s.step (imageEval b) (.push o i)).2 ≠ .ok →
      (s.step (imageEval b) (.push o i)).2 = .assertFailed ∧ (s.step (imageEval b) (.push o i)).1.acc = s.acc ∧
      (s.step (imageEval b) (.push o i)).1.saved = s.saved) := by
  have hpr : (processImage b s.acc o i).2 = true ↔ (b.evaluating = true → Admissible o (b.gt i) (b.roi i)) := by
    unfold processImage
    by_cases he : b.evaluating = true
    · rw [if_pos he]
      by_cases ha : Admissible o (b.gt i) (b.roi i)
      · have hne : ¬ o.empty = true := fun h => ha.nonempty ((empty_iff o).1 h)
        rw [if_neg hne, accImage_score s.acc ha]
        simp [ha]
      · by_cases hne : o.empty = true
        · rw [if_pos hne]; simp [ha, he]
        · rw [if_neg hne]
          cases hc : s.acc.accImage o (b.gt i) (b.roi i) with
          | none => simp [ha, he]
          | some c => exact absurd (accImage_admissible ho hg hr hc) ha
    · rw [if_neg he]; simp [he]
  have hac : (processImage b s.acc o i).2 = false → (processImage b s.acc o i).1 = s.acc := by
    unfold processImage
    by_cases he : b.evaluating = true
    · rw [if_pos he]
      by_cases hne : o.empty = true
      · rw [if_pos hne]; intro _; rfl
      · rw [if_neg hne]
        cases s.acc.accImage o (b.gt i) (b.roi i) with
        | none => intro _; rfl
        | some c => intro h; simp at h
    · rw [if_neg he]; intro _; rfl
  simp only [Sess.step, Sess.push, hp]
  cases hq : (processImage b s.acc o i).2
  · have h1 : ¬ (b.evaluating = true → Admissible o (b.gt i) (b.roi i)) := fun h => by
      rw [hpr.2 h] at hq; exact Bool.noConfusion hq
    simp [imageEval, hq, hac hq, h1]
  · simp only [imageEval, hq]
    simpa using hpr.1 hq

/-- C198. After any history of calls on a new evaluated batch its metrics are the pixel counts of exactly the outputs
pushed with success since the batch was last cleared, each compared with the ground truth of its own packet. -/
theorem image_metrics (b : Batch) (he : b.evaluating = true) (hg : ∀ i, (b.gt i).Valid) (hr : ∀ i, (b.roi i).Valid)
    (s : Sess Mat8 BinClassif) (hs : Sess.create (imageEval b) = some s) (ops : List (Call Mat8))
    (ho : ∀ o i, Call.push o i ∈ ops → o.Valid) :
    Holds (s.run (imageEval b) ops).1.acc
      ((evaluated (s.run (imageEval b) ops).2).map fun e => (e.1, b.gt e.2, b.roi e.2)) := by
  have hs' : s.acc = (imageEval b).fresh := by
    unfold Sess.create Counter.init at hs
    simp [Counter.resetCount, Counter.setPromise] at hs
    rw [← hs]
  refine run_inv (imageEval b) (fun o _ => o.Valid)
    (fun m l => Holds m (l.map fun e => (e.1, b.gt e.2, b.roi e.2))) holds_nil ?_ ?_ ops ho s [] ?_ ?_
  · intro m l o i hI hv _ hok
    simp only [imageEval, processImage, he, if_true] at hok ⊢
    by_cases hne : o.empty = true
    · simp [hne] at hok
    · simp only [hne, Bool.false_eq_true, if_false] at hok ⊢
      cases hc : m.accImage o (b.gt i) (b.roi i) with
      | none => rw [hc] at hok; simp at hok
      | some c =>
        have ha := accImage_admissible hv (hg i) (hr i) hc
        rw [accImage_score m ha] at hc
        simp only [List.map_append, List.map_cons, List.map_nil]
        rw [← Option.some.inj hc]
        exact holds_snoc hI _
  · intro m l o i hI hv _ hbad
    simp only [imageEval, processImage, he, if_true] at hbad ⊢
    by_cases hne : o.empty = true
    · simpa [hne] using hI
    · simp only [hne, Bool.false_eq_true, if_false] at hbad ⊢
      cases hc : m.accImage o (b.gt i) (b.roi i) with
      | none => exact hI
      | some c => rw [hc] at hbad; simp at hbad
  · rw [hs']; exact holds_nil
  · intro _; exact ⟨hs', rfl⟩

/-- C198. Without evaluation the metrics stay empty. -/
theorem image_metrics_off (b : Batch) (he : b.evaluating = false) (s : Sess Mat8 BinClassif)
    (hs : Sess.create (imageEval b) = some s) (ops : List (Call Mat8)) :
    (s.run (imageEval b) ops).1.acc = {} := by
  have hs' : s.acc = (imageEval b).fresh := by
    unfold Sess.create Counter.init at hs
    simp [Counter.resetCount, Counter.setPromise] at hs
    rw [← hs]
  refine run_inv (imageEval b) (fun _ _ => True) (fun m _ => m = {}) rfl ?_ ?_ ops (fun _ _ _ => trivial) s [] hs' ?_
  · intro m l o i hI _ _ _; simpa [imageEval, processImage, he] using hI
  · intro m l o i hI _ _ _; simpa [imageEval, processImage, he] using hI
  · intro _; exact ⟨hs', rfl⟩

/-- A one-pixel image. -/
def dot (x : UInt8) : Mat8 := ⟨1, 1, [x]⟩

/-- A batch with one-pixel packets: positive ground truth for packet 0, negative for the others. -/
def dots : Batch := ⟨true, true, fun i => if i = 0 then dot 255 else dot 0, fun _ => noMat⟩

theorem dots_valid : (∀ i, (dots.gt i).Valid) ∧ (∀ i, (dots.roi i).Valid) := by
  refine ⟨fun i => ?_, fun i => rfl⟩
  show Mat8.Valid (if i = 0 then dot 255 else dot 0)
  split <;> rfl

/-- A new batch. -/
def newDots : Sess Mat8 BinClassif := { cnt := { futureValid := true }, acc := {} }

example : Sess.create (imageEval dots) = some newDots := rfl

example : (newDots.run (imageEval dots) [.start, .push (dot 255) 0, .push (dot 255) 3, .push (dot 0) 4]).1.acc =
    { tp := 1, fp := 1, tn := 1 } := by decide +kernel

example : (newDots.run (imageEval dots)
    [.push (dot 0) 9, .start, .push (dot 255) 0, .reset, .push (dot 255) 3, .stop]).1.acc = { fp := 1 } := by decide +kernel

/-! ### C199: output count, metrics and saved outputs agree -/

variable {O E : Type}

/-- The call seen by the output counter. -/
def proj : Call O → Packets.Op
  | .start => .start
  | .stop => .stop
  | .push _ i => .push i
  | .reset => .reset
  | .getFinal => .getFinal

theorem step_proj (v : Eval O E) (s : Sess O E) (op : Call O) (h : ∀ o i, op = .push o i → (s.step v op).2 = .ok) :
    (s.step v op).1.cnt = (s.cnt.step (proj op)).1 ∧ (s.step v op).2 = (s.cnt.step (proj op)).2 := by
  cases op with
  | start => exact ⟨rfl, rfl⟩
  | stop => exact ⟨rfl, rfl⟩
  | getFinal => exact ⟨rfl, rfl⟩
  | reset =>
    simp only [Sess.step, Sess.reset, proj, Counter.step, Counter.reset]
    cases s.cnt.resetCount <;> exact ⟨rfl, rfl⟩
  | push o i =>
    have h := h o i rfl
    simp only [Sess.step, Sess.push, proj, Counter.step, Counter.push] at h ⊢
    cases hp : s.cnt.processing
    · simp [hp] at h
    · cases hc : v.check o
      · simp [hp, hc] at h
      · cases hr : (v.process s.acc o i).2
        · simp [hp, hc, hr] at h
        · simp [hc]

theorem accept_eval (l : List (O × Nat)) (op : Call O) (r : Res) :
    Packets.acceptStep (l.map Prod.snd) (proj op, r) = (evalStep l (op, r)).map Prod.snd := by
  cases op <;> cases r <;> simp [Packets.acceptStep, proj, evalStep]

theorem run_counts (v : Eval O E) (ops : List (Call O)) (s : Sess O E) (l : List (O × Nat))
    (hm : ∀ i, i ∈ s.cnt.seen ↔ i ∈ l.map Prod.snd) (hn : s.cnt.seen.Nodup) (hf : NoFailure (s.run v ops).2) :
    (∀ i, i ∈ (s.run v ops).1.cnt.seen ↔ i ∈ ((s.run v ops).2.foldl evalStep l).map Prod.snd) ∧
    (s.run v ops).1.cnt.seen.Nodup := by
  induction ops generalizing s l with
  | nil => exact ⟨hm, hn⟩
  | cons op ops ih =>
    simp only [Sess.run, List.foldl_cons] at hf ⊢
    have hok : ∀ o i, op = .push o i → (s.step v op).2 = .ok := by
      rintro o i rfl
      exact hf o i _ (List.mem_cons_self ..)
    obtain ⟨h1, h2⟩ := step_proj v s op hok
    obtain ⟨k1, k2⟩ := Packets.step_accept s.cnt (proj op) _ hm hn
    rw [← h1, ← h2, accept_eval] at k1
    rw [← h1] at k2
    exact ih _ _ k1 k2 fun o i r h => hf o i r (List.mem_cons_of_mem _ h)

/-- C199, for every evaluator. As long as no push has failed, the output count is the number of distinct packets among
the outputs evaluated since the batch was last cleared; it is the number of evaluated outputs when no packet was pushed
twice. What is missing: failed pushes and repeated packets, see `count_refuted`. -/
theorem count_evaluated_partial (v : Eval O E) (s : Sess O E) (hs : Sess.create v = some s) (ops : List (Call O))
    (hf : NoFailure (s.run v ops).2) :
    (s.run v ops).1.cnt.current = ((evaluated (s.run v ops).2).map Prod.snd).toFinset.card ∧
    (((evaluated (s.run v ops).2).map Prod.snd).Nodup →
      (s.run v ops).1.cnt.current = (evaluated (s.run v ops).2).length) := by
  have hc : s.cnt.seen = [] := by
    unfold Sess.create Counter.init at hs
    simp [Counter.resetCount, Counter.setPromise] at hs
    rw [← hs]
  obtain ⟨h1, h2⟩ := run_counts v ops s [] (by simp [hc]) (by simp [hc]) hf
  rw [← evaluated_fold] at h1
  have key : (s.run v ops).1.cnt.current = ((evaluated (s.run v ops).2).map Prod.snd).toFinset.card := by
    rw [Counter.current, ← List.toFinset_card_of_nodup h2]
    congr 1
    ext i
    simp only [List.mem_toFinset]
    exact h1 i
  refine ⟨key, fun hn => ?_⟩
  rw [key, List.toFinset_card_of_nodup hn, List.length_map]

example : NoFailure (newDots.run (imageEval dots) [.start, .push (dot 255) 0, .push (dot 255) 3]).2 ∧
    (evaluated (newDots.run (imageEval dots) [.start, .push (dot 255) 0, .push (dot 255) 3]).2).length = 2 := by
  refine ⟨?_, by decide +kernel⟩
  intro o i r h
  have e : (newDots.run (imageEval dots) [.start, .push (dot 255) 0, .push (dot 255) 3]).2 =
      [(.start, .cleared), (.push (dot 255) 0, .ok), (.push (dot 255) 3, .ok)] := rfl
  rw [e] at h
  simp at h
  rcases h with h | h <;> exact h.2

/-- C199 does not hold in general. A packet whose evaluation fails is counted although nothing was evaluated or saved
for it; and a packet pushed twice is counted once but its pixels enter the metrics twice. -/
theorem count_refuted :
    (let r := newDots.run (imageEval dots) [.start, .push noMat 0]
     r.1.cnt.current = 1 ∧ r.1.acc = {} ∧ r.1.saved.length = 0 ∧ evaluated r.2 = [] ∧
       r.2.map Prod.snd = [.cleared, .assertFailed]) ∧
    (let r := newDots.run (imageEval dots) [.start, .push (dot 255) 0, .push (dot 255) 0]
     r.1.cnt.current = 1 ∧ r.1.acc = { tp := 2 } ∧ r.1.saved.length = 2 ∧
       r.2.map Prod.snd = [.cleared, .ok, .ok]) := by
  refine ⟨⟨by decide +kernel, by decide +kernel, by decide +kernel, rfl, by decide +kernel⟩,
    by decide +kernel, by decide +kernel, by decide +kernel, by decide +kernel⟩

theorem run_saved (v : Eval O E) (ops : List (Call O)) (s : Sess O E) :
    (s.run v ops).1.saved = s.saved ++ (accepted (s.run v ops).2).filter fun e => v.saves e.1 := by
  induction ops generalizing s with
  | nil => simp [Sess.run, accepted]
  | cons op ops ih =>
    simp only [Sess.run]
    rw [ih]
    have hcons : ∀ (e : Call O × Res) t, accepted (e :: t) = accepted [e] ++ accepted t := by
      intro e t
      rw [← List.singleton_append, accepted, accepted, accepted, List.filterMap_append]
    rw [hcons, List.filter_append, ← List.append_assoc]
    congr 1
    cases op with
    | start => simp [Sess.step, accepted]
    | stop => simp [Sess.step, accepted]
    | getFinal => simp [Sess.step, accepted]
    | reset =>
      simp only [Sess.step, Sess.reset]
      cases s.cnt.resetCount <;> simp [accepted]
    | push o i =>
      simp only [Sess.step, Sess.push]
      cases hp : s.cnt.processing
      · simp [accepted]
      · cases hc : v.check o
        · simp [accepted]
        · cases hr : (v.process s.acc o i).2
          · simp [accepted]
          · cases hv : v.saves o <;> simp [accepted, hv]

/-- C199. Over any history, the outputs handed to the archiver are exactly the outputs pushed with success which are
non-empty, in the order of the pushes, each with its own packet index; none when saving is off. Clearing the batch does
not take them back. -/
theorem image_saved (b : Batch) (s : Sess Mat8 BinClassif) (hs : Sess.create (imageEval b) = some s)
    (ops : List (Call Mat8)) :
    (s.run (imageEval b) ops).1.saved =
      if b.saving then (accepted (s.run (imageEval b) ops).2).filter fun e => e.1.rows * e.1.cols != 0 else [] := by
  have hc : s.saved = [] := by
    unfold Sess.create Counter.init at hs
    simp [Counter.resetCount, Counter.setPromise] at hs
    rw [← hs]
  rw [run_saved, hc, List.nil_append]
  cases hb : b.saving
  · simp [imageEval, hb]
  · simp only [imageEval, hb, Bool.true_and, if_true]
    rfl

/-- C199, for arrays. -/
theorem arr_saved (b : ArrBatch) (s : Sess (List Mat8) ArrMetrics) (hs : Sess.create (arrEval b) = some s)
    (ops : List (Call (List Mat8))) :
    (s.run (arrEval b) ops).1.saved =
      if b.saving then (accepted (s.run (arrEval b) ops).2).filter fun e => e.1.length != 0 else [] := by
  have hc : s.saved = [] := by
    unfold Sess.create Counter.init at hs
    simp [Counter.resetCount, Counter.setPromise] at hs
    rw [← hs]
  rw [run_saved, hc, List.nil_append]
  cases hb : b.saving
  · simp [arrEval, hb]
  · simp only [arrEval, hb, Bool.true_and, if_true]
    congr 1
    funext e
    cases e.1 <;> simp

example : (newDots.run (imageEval { dots with evaluating := false })
    [.start, .push (dot 7) 5, .push noMat 6, .reset, .push (dot 1) 2]).1.saved.map Prod.snd = [5, 2] := by decide +kernel

/-! ### C200: metrics of array sessions -/

theorem arr_process_fit (b : ArrBatch) (he : b.evaluating = true) (hn : 0 < b.streams) (hgs : b.gtStreams = b.streams)
    (m : ArrMetrics) (hm : m.counters = [] ∧ m.names = [] ∨ m.counters.length = b.streams ∧ m.names.length = b.streams)
    (o : List Mat8) (i : Nat) (h : Fit b o i) :
    (processArr b m o i).2 = true ∧ (processArr b m o i).1.counters.length = b.streams ∧
    (processArr b m o i).1.names.length = b.streams ∧
    ∀ k < b.streams, (processArr b m o i).1.counters.getD k {} =
      (m.counters.getD k {}).acc (score (cmp o (b.gt i) (b.roi i) k)) := by
  have h0 : o.isEmpty = false := by
    rw [List.isEmpty_eq_false_iff]; intro h'; have := h.size; simp [h'] at this; omega
  have h1 : (b.gtStreams == b.streams && o.length == b.streams) = true := by simp [hgs, h.size]
  have h2 : (o.length == (b.gt i).length && ((b.roi i).isEmpty || o.length == (b.roi i).length)) = true := by
    rw [h.size, h.gt_size]
    rcases h.roi_size with hr | hr <;> simp [hr]
  unfold processArr
  rw [if_pos he, h0, h1, h2]
  simp only [Bool.not_true, Bool.false_eq_true, if_false]
  rcases hm with ⟨hm1, hm2⟩ | ⟨hm1, hm2⟩
  · rw [hm1, hm2]
    simp only [List.isEmpty_nil, Bool.or_self, if_true, resize, List.take_nil, List.nil_append, List.length_nil,
      Nat.sub_zero]
    obtain ⟨k1, k2, k3⟩ := streamLoop_ok o (b.gt i) (b.roi i) (List.range o.length) List.nodup_range
      (List.replicate o.length {}) (by simp) (fun k hk => h.ok k (by rw [← h.size]; exact List.mem_range.1 hk))
    refine ⟨k1, by rw [k2, List.length_replicate, h.size], by rw [List.length_replicate, h.size], fun k hk => ?_⟩
    rw [k3, if_pos (by rw [List.mem_range, h.size]; exact hk)]
    congr 1
    simp [List.getD_eq_getElem?_getD, List.getElem?_replicate, h.size, hk]
  · have e1 : m.counters.isEmpty = false := by
      rw [List.isEmpty_eq_false_iff]; intro h'; simp [h'] at hm1; omega
    have e2 : m.names.isEmpty = false := by
      rw [List.isEmpty_eq_false_iff]; intro h'; simp [h'] at hm2; omega
    rw [e1, e2]
    simp only [Bool.or_self, Bool.false_eq_true, if_false]
    obtain ⟨k1, k2, k3⟩ := streamLoop_ok o (b.gt i) (b.roi i) (List.range o.length) List.nodup_range
      m.counters (fun k hk => by rw [hm1, ← h.size]; exact List.mem_range.1 hk)
      (fun k hk => h.ok k (by rw [← h.size]; exact List.mem_range.1 hk))
    refine ⟨k1, by rw [k2, hm1], hm2, fun k hk => ?_⟩
    rw [k3, if_pos (by rw [List.mem_range, h.size]; exact hk)]

/-- C200. After any history of calls on a new evaluated batch in which every pushed array is either of the wrong length
or fit for evaluation, the metrics of stream `k` are the pixel counts of the `k`-th images of exactly the arrays pushed
with success since the batch was last cleared, each compared with the `k`-th ground truth of its own packet. What is
missing: arrays of the right length with an unfit image, see `arr_refuted`. -/
theorem arr_metrics_partial (b : ArrBatch) (he : b.evaluating = true) (hn : 0 < b.streams)
    (hgs : b.gtStreams = b.streams) (s : Sess (List Mat8) ArrMetrics) (hs : Sess.create (arrEval b) = some s)
    (ops : List (Call (List Mat8)))
    (ho : ∀ o i, Call.push o i ∈ ops → o.length ≠ b.streams ∨ Fit b o i) (k : Nat) (hk : k < b.streams) :
    Holds ((s.run (arrEval b) ops).1.acc.counters.getD k {})
      ((evaluated (s.run (arrEval b) ops).2).map fun e =>
        (e.1.getD k ⟨0, 0, []⟩, (b.gt e.2).getD k ⟨0, 0, []⟩, roiOf (b.roi e.2) k)) ∧
    (s.run (arrEval b) ops).1.acc.counters.length =
      (if (evaluated (s.run (arrEval b) ops).2).length = 0 then 0 else b.streams) := by
  have hs' : s.acc = (arrEval b).fresh := by
    unfold Sess.create Counter.init at hs
    simp [Counter.resetCount, Counter.setPromise] at hs
    rw [← hs]
  have hbadlen : ∀ (m : ArrMetrics) o i, o.length ≠ b.streams → processArr b m o i = (m, false) := by
    intro m o i h
    unfold processArr
    rw [if_pos he]
    by_cases h0 : o.isEmpty = true
    · rw [if_pos h0]
    · rw [if_neg h0, if_pos (by simp [h])]
  have key := run_inv (arrEval b) (fun o i => o.length ≠ b.streams ∨ Fit b o i)
    (fun m l => (l = [] ∧ m.counters = [] ∧ m.names = [] ∨
        l ≠ [] ∧ m.counters.length = b.streams ∧ m.names.length = b.streams) ∧
      Holds (m.counters.getD k {}) (l.map fun e =>
        (e.1.getD k ⟨0, 0, []⟩, (b.gt e.2).getD k ⟨0, 0, []⟩, roiOf (b.roi e.2) k)))
    ⟨Or.inl ⟨rfl, rfl, rfl⟩, holds_nil⟩ ?_ ?_ ops ho s [] ?_ ?_
  · refine ⟨key.2, ?_⟩
    rcases key.1 with ⟨h1, h2, -⟩ | ⟨h1, h2, -⟩
    · rw [evaluated_fold, h1, h2]; rfl
    · rw [h2, if_neg]
      rw [evaluated_fold, List.length_eq_zero_iff]
      exact h1
  · rintro m l o i ⟨hI, hH⟩ hP _ hok
    rcases hP with hP | hP
    · rw [show (arrEval b).process = processArr b from rfl, hbadlen m o i hP] at hok; simp at hok
    · obtain ⟨-, a2, a3, a4⟩ := arr_process_fit b he hn hgs m
        (hI.elim (fun h => Or.inl h.2) (fun h => Or.inr h.2)) o i hP
      refine ⟨Or.inr ⟨by simp, a2, a3⟩, ?_⟩
      rw [show (arrEval b).process = processArr b from rfl, a4 k hk, List.map_append]
      exact holds_snoc hH _
  · rintro m l o i hI hP _ hbad
    rcases hP with hP | hP
    · rw [show (arrEval b).process = processArr b from rfl, hbadlen m o i hP]; exact hI
    · obtain ⟨a1, -⟩ := arr_process_fit b he hn hgs m
        (hI.1.elim (fun h => Or.inl h.2) (fun h => Or.inr h.2)) o i hP
      rw [show (arrEval b).process = processArr b from rfl, a1] at hbad; simp at hbad
  · rw [hs']; exact ⟨Or.inl ⟨rfl, rfl, rfl⟩, holds_nil⟩
  · intro _; exact ⟨hs', rfl⟩

/-- C200. While a batch with ground truth for every stream is processing, pushing an array fit for evaluation succeeds,
and pushing an array of the wrong length fails without any effect on the metrics; it does not even count the packet,
unless the array is empty. -/
theorem arr_push (b : ArrBatch) (he : b.evaluating = true) (hn : 0 < b.streams) (hgs : b.gtStreams = b.streams)
    (s : Sess (List Mat8) ArrMetrics) (hp : s.cnt.processing = true)
    (hm : s.acc.counters = [] ∧ s.acc.names = [] ∨
      s.acc.counters.length = b.streams ∧ s.acc.names.length = b.streams) (o : List Mat8) (i : Nat) :
    (Fit b o i → (s.step (arrEval b) (.push o i)).2 = .ok) ∧
    (o.length ≠ b.streams → (s.step (arrEval b) (.push o i)).2 = .assertFailed ∧
      (s.step (arrEval b) (.push o i)).1.acc = s.acc ∧ (s.step (arrEval b) (.push o i)).1.saved = s.saved ∧
      (o ≠ [] → (s.step (arrEval b) (.push o i)).1.cnt = s.cnt) ∧
      (o = [] → (s.step (arrEval b) (.push o i)).1.cnt = s.cnt.countOutput i)) := by
  constructor
  · intro h
    have h1 := (arr_process_fit b he hn hgs s.acc hm o i h).1
    have h2 : (o.isEmpty || o.length == b.streams) = true := by simp [h.size]
    simp [Sess.step, Sess.push, hp, arrEval, h2, h1]
  · intro h
    cases o with
    | nil => simp [Sess.step, Sess.push, hp, arrEval, processArr, he]
    | cons a o =>
      have h2 : ((a :: o).isEmpty || (a :: o).length == b.streams) = false := by simpa using h
      simp only [Sess.step, Sess.push, hp, arrEval, h2]
      simp

/-- Two streams of one-pixel images. -/
def pairs : ArrBatch := ⟨true, false, 2, 2, fun _ => [dot 255, dot 0], fun _ => []⟩

/-- A new batch. -/
def newPairs : Sess (List Mat8) ArrMetrics := { cnt := { futureValid := true }, acc := {} }

example : Sess.create (arrEval pairs) = some newPairs := rfl

example : Fit pairs [dot 255, dot 255] 4 := by
  refine ⟨rfl, rfl, Or.inl rfl, fun k hk => ?_⟩
  have hk : k < 2 := hk
  rcases k with _ | _ | k
  · exact ⟨rfl, rfl, rfl, (by decide : ¬ (1 * 1 = 0)), Or.inr ⟨rfl, rfl⟩, Or.inl rfl⟩
  · exact ⟨rfl, rfl, rfl, (by decide : ¬ (1 * 1 = 0)), Or.inr ⟨rfl, rfl⟩, Or.inl rfl⟩
  · omega

example : (newPairs.run (arrEval pairs)
    [.start, .push [dot 255, dot 255] 4, .push [dot 0] 1, .push [dot 0, dot 0] 5]).1.acc.counters =
      [{ tp := 1, fn := 1 }, { fp := 1, tn := 1 }] := by decide +kernel

/-- C200 does not hold for an array with an unfit image: the push fails, yet the streams before that image have entered
the metrics, so that the streams no longer cover the same packets. -/
theorem arr_refuted :
    let r := newPairs.run (arrEval pairs) [.start, .push [dot 255, noMat] 4]
    r.2.map Prod.snd = [.cleared, .assertFailed] ∧ evaluated r.2 = [] ∧ r.1.cnt.current = 1 ∧
      r.1.acc.counters = [{ tp := 1 }, {}] := by
  refine ⟨by decide +kernel, rfl, by decide +kernel, by decide +kernel⟩

end Litiv.EvalRun
