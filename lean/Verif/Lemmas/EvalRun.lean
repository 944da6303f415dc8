import Verif.Spec.EvalRun
import Verif.Props.Metrics

/-!
# Lemmas about evaluation sessions
-/

namespace Litiv.EvalRun

open Litiv.Packets (Counter Res)
open Litiv.Metrics

variable {O E : Type}

/-- The log update of `evaluated`. -/
def evalStep (l : List (O × Nat)) (e : Call O × Res) : List (O × Nat) :=
  match e with
  | (_, .cleared) => []
  | (.push o i, .ok) => l ++ [(o, i)]
  | _ => l

theorem evaluated_fold (log : List (Call O × Res)) : evaluated log = log.foldl evalStep [] := rfl

/-- The counter of a batch which is idle and was never stopped. -/
def Idle (c : Counter) : Prop := c.processing = false ∧ c.promise = none

theorem start_idle (c : Counter) (h : ¬ Idle c) : c.start.2 ≠ .cleared ∧ ¬ Idle c.start.1 := by
  unfold Counter.start
  cases hp : c.processing
  · cases hq : c.promise with
    | none => exact absurd ⟨hp, hq⟩ h
    | some n => simp [Counter.resetCount, Counter.setPromise, hq, Idle, hp]
  · simp [Idle, hp]

theorem start_was_idle (c : Counter) : Idle c.start.1 → Idle c := by
  intro h; by_contra hc; exact (start_idle c hc).2 h

theorem stop_idle (c : Counter) : c.stop.2 ≠ .cleared ∧ (Idle c.stop.1 → Idle c) := by
  unfold Counter.stop
  cases hp : c.processing
  · exact ⟨by simp, fun h => by simpa using h⟩
  · cases hq : c.promise with
    | none => simp [Counter.setFinal, Counter.setPromise, hq, Idle]
    | some n => simp [Counter.setFinal, Counter.setPromise, hq, Idle]

theorem getFinal_idle (c : Counter) : c.getFinal.2 ≠ .cleared ∧ (Idle c.getFinal.1 → Idle c) := by
  unfold Counter.getFinal
  cases hf : c.futureValid <;> cases hq : c.promise <;> simp [Idle, hq]

theorem reset_some {c c' : Counter} (h : c.resetCount = some c') : c'.processing = c.processing ∧ c'.promise = none := by
  unfold Counter.resetCount Counter.setPromise at h
  cases hq : c.promise with
  | none => rw [hq] at h; simp at h; subst h; exact ⟨rfl, rfl⟩
  | some n => rw [hq] at h; simp at h

/-- The general shape of an accumulator invariant: established by a fresh accumulator, extended by a push that returns
normally, kept by a push that throws. -/
theorem run_inv (v : Eval O E) (P : O → Nat → Prop) (Inv : E → List (O × Nat) → Prop) (hf : Inv v.fresh [])
    (hok : ∀ m l o i, Inv m l → P o i → v.check o = true → (v.process m o i).2 = true →
      Inv (v.process m o i).1 (l ++ [(o, i)]))
    (hbad : ∀ m l o i, Inv m l → P o i → v.check o = true → (v.process m o i).2 = false → Inv (v.process m o i).1 l)
    (ops : List (Call O)) (hP : ∀ o i, Call.push o i ∈ ops → P o i) (s : Sess O E) (l : List (O × Nat))
    (hs : Inv s.acc l) (hi : Idle s.cnt → s.acc = v.fresh ∧ l = []) :
    Inv (s.run v ops).1.acc ((s.run v ops).2.foldl evalStep l) := by
  induction ops generalizing s l with
  | nil => exact hs
  | cons op ops ih =>
    have hP' : ∀ o i, Call.push o i ∈ ops → P o i := fun o i h => hP o i (List.mem_cons_of_mem _ h)
    simp only [Sess.run, List.foldl_cons]
    refine ih hP' _ _ ?_ ?_
    · cases op with
      | start =>
        simp only [Sess.step]
        by_cases hc : s.cnt.start.2 = .cleared
        · have : Idle s.cnt := by by_contra h; exact (start_idle _ h).1 hc
          rw [hc]; simp only [evalStep]
          rw [(hi this).1]; exact hf
        · have : evalStep l (Call.start, s.cnt.start.2) = l := by
            revert hc; cases s.cnt.start.2 <;> simp [evalStep]
          rw [this]; exact hs
      | stop =>
        simp only [Sess.step]
        have : evalStep l (Call.stop, s.cnt.stop.2) = l := by
          have := (stop_idle s.cnt).1
          revert this; cases s.cnt.stop.2 <;> simp [evalStep]
        rw [this]; exact hs
      | getFinal =>
        simp only [Sess.step]
        have : evalStep l (Call.getFinal, s.cnt.getFinal.2) = l := by
          have := (getFinal_idle s.cnt).1
          revert this; cases s.cnt.getFinal.2 <;> simp [evalStep]
        rw [this]; exact hs
      | reset =>
        simp only [Sess.step, Sess.reset]
        cases hr : s.cnt.resetCount with
        | none => simpa [evalStep] using hs
        | some c => simpa [evalStep] using hf
      | push o i =>
        simp only [Sess.step, Sess.push]
        by_cases hp : s.cnt.processing = true
        · by_cases hc : v.check o = true
          · cases hr : (v.process s.acc o i).2
            · simpa [hp, hc, hr, evalStep] using hbad _ _ _ _ hs (hP o i (List.mem_cons_self ..)) hc hr
            · simpa [hp, hc, hr, evalStep] using hok _ _ _ _ hs (hP o i (List.mem_cons_self ..)) hc hr
          · simpa [hp, hc, evalStep] using hs
        · simpa [hp, evalStep] using hs
    · intro h
      cases op with
      | start =>
        simp only [Sess.step] at h ⊢
        have h0 := hi (start_was_idle _ h)
        refine ⟨h0.1, ?_⟩
        rw [h0.2]
        cases s.cnt.start.2 <;> simp [evalStep]
      | stop =>
        simp only [Sess.step] at h ⊢
        have h0 := hi ((stop_idle _).2 h)
        refine ⟨h0.1, ?_⟩
        rw [h0.2]
        cases s.cnt.stop.2 <;> simp [evalStep]
      | getFinal =>
        simp only [Sess.step] at h ⊢
        have h0 := hi ((getFinal_idle _).2 h)
        refine ⟨h0.1, ?_⟩
        rw [h0.2]
        cases s.cnt.getFinal.2 <;> simp [evalStep]
      | reset =>
        simp only [Sess.step, Sess.reset] at h ⊢
        cases hr : s.cnt.resetCount with
        | none => rw [hr] at h; simpa [evalStep] using hi h
        | some c => simp [evalStep]
      | push o i =>
        simp only [Sess.step, Sess.push] at h ⊢
        by_cases hp : s.cnt.processing = true
        · exfalso
          by_cases hc : v.check o = true
          · cases hr : (v.process s.acc o i).2 <;> simp [hp, hc, hr, Idle, Counter.countOutput] at h
          · simp [hp, hc, Idle] at h
        · simp only [hp] at h ⊢
          simpa [evalStep] using hi h

/-! ### Counts of one comparison -/

/-- The counters of one comparison. -/
noncomputable def score (e : Mat8 × Mat8 × Mat8) : BinClassif where
  tp := UInt64.ofNat (pixels e.1 e.2.1 e.2.2 fun x g => x = 255 ∧ g = 255)
  tn := UInt64.ofNat (pixels e.1 e.2.1 e.2.2 fun x g => x ≠ 255 ∧ g ≠ 255)
  fp := UInt64.ofNat (pixels e.1 e.2.1 e.2.2 fun x g => x = 255 ∧ g ≠ 255)
  fn := UInt64.ofNat (pixels e.1 e.2.1 e.2.2 fun x g => x ≠ 255 ∧ g = 255)
  se := UInt64.ofNat (pixels e.1 e.2.1 e.2.2 fun x g => x = 255 ∧ g = 50)
  dc := UInt64.ofNat (skipped e.1 e.2.1 e.2.2)

theorem accImage_score (s : BinClassif) {c g r : Mat8} (h : Admissible c g r) :
    s.accImage c g r = some (s.acc (score (c, g, r))) := by
  by_cases hg : Absent g
  · rw [accImage_no_gt s h hg]
    simp [BinClassif.acc, score, pixels, skipped, hg]
  · obtain ⟨s', hs, h1, h2, h3, h4, h5, h6⟩ := accImage_counts s h hg
    rw [hs]
    cases s'
    simp only [BinClassif.acc, score, pixels, skipped, hg, if_false] at *
    subst h1 h2 h3 h4 h5 h6
    rfl

theorem accImage_admissible {s s' : BinClassif} {c g r : Mat8} (hc : c.Valid) (hg : g.Valid) (hr : r.Valid)
    (h : s.accImage c g r = some s') : Admissible c g r := by
  have key := fun hh => Option.some_ne_none _ (h.symm.trans (accImage_rejects s c g r hh))
  refine ⟨hc, hg, hr, fun h1 => key (Or.inl h1), ?_, ?_⟩
  · by_contra h1
    rw [not_or] at h1
    exact key (Or.inr (Or.inl h1))
  · by_contra h1
    rw [not_or] at h1
    exact key (Or.inr (Or.inr h1))

theorem add_ofNat (a : UInt64) (x n : Nat) (h : a.toNat = x % 2^64) : (a + UInt64.ofNat n).toNat = (x + n) % 2^64 := by
  rw [UInt64.toNat_add, UInt64.toNat_ofNat', h]
  omega

theorem holds_nil : Holds {} [] := by
  refine ⟨rfl, rfl, rfl, rfl, rfl, rfl⟩

theorem holds_snoc {m : BinClassif} {l : List (Mat8 × Mat8 × Mat8)} (h : Holds m l) (e : Mat8 × Mat8 × Mat8) :
    Holds (m.acc (score e)) (l ++ [e]) := by
  obtain ⟨h1, h2, h3, h4, h5, h6⟩ := h
  unfold Holds
  simp only [List.map_append, List.sum_append, List.map_cons, List.map_nil, List.sum_cons, List.sum_nil, Nat.add_zero]
  exact ⟨add_ofNat _ _ _ h1, add_ofNat _ _ _ h2, add_ofNat _ _ _ h3, add_ofNat _ _ _ h4, add_ofNat _ _ _ h5,
    add_ofNat _ _ _ h6⟩

/-! ### The stream loop -/

/-- Comparison of stream `k`. -/
def cmp (o gt roi : List Mat8) (k : Nat) : Mat8 × Mat8 × Mat8 := (o.getD k noMat, gt.getD k noMat, roiOf roi k)

theorem roiOf_code (roi : List Mat8) (k : Nat) :
    (if roi.isEmpty then noMat else roi.getD k noMat) = roiOf roi k := by
  unfold roiOf noMat
  cases roi <;> simp

theorem streamLoop_ok (o gt roi : List Mat8) (ks : List Nat) (hn : ks.Nodup) (cs : List BinClassif)
    (hk : ∀ k ∈ ks, k < cs.length)
    (hA : ∀ k ∈ ks, Admissible (o.getD k noMat) (gt.getD k noMat) (roiOf roi k)) :
    (streamLoop o gt roi ks cs).2 = true ∧ (streamLoop o gt roi ks cs).1.length = cs.length ∧
    ∀ k, (streamLoop o gt roi ks cs).1.getD k {} =
      if k ∈ ks then (cs.getD k {}).acc (score (cmp o gt roi k)) else cs.getD k {} := by
  induction ks generalizing cs with
  | nil => simp [streamLoop]
  | cons a ks ih =>
    rw [List.nodup_cons] at hn
    have ha : a < cs.length := hk a (List.mem_cons_self ..)
    have hacc : (cs.getD a {}).accImage (o.getD a noMat) (gt.getD a noMat) (roiOf roi a) =
        some ((cs.getD a {}).acc (score (cmp o gt roi a))) := accImage_score _ (hA a (List.mem_cons_self ..))
    unfold streamLoop
    rw [roiOf_code, hacc]
    simp only
    obtain ⟨h1, h2, h3⟩ := ih hn.2 (cs.set a ((cs.getD a {}).acc (score (cmp o gt roi a))))
      (fun k h => by rw [List.length_set]; exact hk k (List.mem_cons_of_mem _ h))
      (fun k h => hA k (List.mem_cons_of_mem _ h))
    refine ⟨h1, by rw [h2, List.length_set], fun k => ?_⟩
    rw [h3 k]
    by_cases hka : k = a
    · subst hka
      rw [if_neg hn.1, if_pos (List.mem_cons_self ..)]
      simp [List.getD_eq_getElem?_getD, ha]
    · have : (cs.set a ((cs.getD a {}).acc (score (cmp o gt roi a)))).getD k {} = cs.getD k {} := by
        simp [List.getD_eq_getElem?_getD, List.getElem?_set, Ne.symm hka]
      rw [this]
      simp [hka]

theorem streamLoop_admissible (o gt roi : List Mat8) (ks : List Nat) (cs : List BinClassif)
    (ho : ∀ k, (o.getD k noMat).Valid) (hg : ∀ k, (gt.getD k noMat).Valid) (hr : ∀ k, (roiOf roi k).Valid)
    (h : (streamLoop o gt roi ks cs).2 = true) :
    ∀ k ∈ ks, Admissible (o.getD k noMat) (gt.getD k noMat) (roiOf roi k) := by
  induction ks generalizing cs with
  | nil => simp
  | cons a ks ih =>
    unfold streamLoop at h
    rw [roiOf_code] at h
    cases hc : (cs.getD a {}).accImage (o.getD a noMat) (gt.getD a noMat) (roiOf roi a) with
    | none => rw [hc] at h; exact absurd h (by simp)
    | some c =>
      rw [hc] at h
      intro k hk
      rcases List.mem_cons.1 hk with rfl | hk
      · exact accImage_admissible (ho _) (hg _) (hr _) hc
      · exact ih _ h k hk

end Litiv.EvalRun
