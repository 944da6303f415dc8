import Verif.Model.Cuda
import Mathlib.Algebra.BigOperators.Intervals
import Mathlib.Tactic.Ring
import Mathlib.Tactic.Linarith

/-! # Lemmas for CUDA thread blocks -/

namespace Litiv.Cuda

variable {ι α : Type}

/-- An action writes only the cells `W`, and depends only on the cells `F`. -/
structure LocalTo (F W : ι → Prop) (a : Act ι α) : Prop where
  reads : ∀ r m m', (∀ c, F c → m c = m' c) →
    (a r m).1 = (a r m').1 ∧ ∀ c, F c → (a r m).2 c = (a r m').2 c
  frame : ∀ r m c, ¬ W c → (a r m).2 c = m c

/-- The actions of one thread alone. -/
def alone (acts : List (Act ι α)) (s : (α × α) × (ι → α)) : (α × α) × (ι → α) := acts.foldl (fun s a => a s.1 s.2) s

theorem alone_append (a b : List (Act ι α)) (s) : alone (a ++ b) s = alone b (alone a s) := by simp [alone]

theorem alone_take_succ (acts : List (Act ι α)) (s) (k : Nat) (a : Act ι α) (h : acts[k]? = some a) :
    alone (acts.take (k + 1)) s = a (alone (acts.take k) s).1 (alone (acts.take k) s).2 := by
  unfold alone
  rw [List.take_add_one, h]
  simp

structure Inv (acts : Nat → List (Act ι α)) (F : Nat → ι → Prop) (W : Nat → ι → Prop) (b : Block ι α) (g : Run ι α) : Prop where
  regs : ∀ t, g.regs t = (alone ((acts t).take (g.pc t)) (b.regs t, b.mem)).1
  mem : ∀ t c, F t c → g.mem c = (alone ((acts t).take (g.pc t)) (b.regs t, b.mem)).2 c
  rest : ∀ c, (∀ t, ¬ W t c) → g.mem c = b.mem c

theorem step_inv (acts : Nat → List (Act ι α)) (F W : Nat → ι → Prop) (b : Block ι α) (g : Run ι α) (t : Nat)
    (hloc : ∀ t, ∀ a ∈ acts t, LocalTo (F t) (W t) a) (hdis : ∀ t t' c, W t c → F t' c → t = t')
    (h : Inv acts F W b g) : Inv acts F W b (stepT acts g t) := by
  unfold stepT
  cases ha : (acts t)[g.pc t]? with
  | none => exact h
  | some a =>
    have hl := hloc t a (List.mem_of_getElem? ha)
    have hr := hl.reads (g.regs t) g.mem _ (h.mem t)
    rw [h.regs t] at hr
    refine ⟨?_, ?_, ?_⟩
    · intro t'
      by_cases ht : t' = t
      · subst ht
        simp only [Option.elim_some, Function.update_self]
        rw [alone_take_succ _ _ _ _ ha, h.regs t']
        exact hr.1
      · simp only [Option.elim_some, Function.update_of_ne ht]
        exact h.regs t'
    · intro t' c hc
      by_cases ht : t' = t
      · subst ht
        simp only [Option.elim_some, Function.update_self]
        rw [alone_take_succ _ _ _ _ ha, h.regs t']
        exact hr.2 c hc
      · simp only [Option.elim_some, Function.update_of_ne ht]
        rw [hl.frame _ _ _ (fun hc' => ht (hdis _ _ _ hc' hc).symm)]
        exact h.mem t' c hc
    · intro c hc
      simp only [Option.elim_some]
      rw [hl.frame _ _ _ (hc t)]
      exact h.rest c hc

theorem step_pc (acts : Nat → List (Act ι α)) (g : Run ι α) (t t' : Nat) (h : g.pc t' ≤ (acts t').length) :
    (stepT acts g t).pc t' = min (acts t').length (g.pc t' + if t = t' then 1 else 0) := by
  unfold stepT
  cases ha : (acts t)[g.pc t]? with
  | none =>
    rw [List.getElem?_eq_none_iff] at ha
    by_cases ht : t = t'
    · subst ht
      simp only [Option.elim_none, if_true]
      omega
    · simp [ht, h]
  | some a =>
    have hlt : g.pc t < (acts t).length := by
      rw [List.getElem?_eq_some_iff] at ha
      exact ha.1
    by_cases ht : t = t'
    · subst ht
      simp only [Option.elim_some, Function.update_self, if_true]
      omega
    · simp [ht, Function.update_of_ne (Ne.symm ht), h]

theorem foldl_pc (acts : Nat → List (Act ι α)) (sched : List Nat) (g : Run ι α) (t : Nat) (h : g.pc t ≤ (acts t).length) :
    (sched.foldl (stepT acts) g).pc t = min (acts t).length (g.pc t + sched.count t) := by
  induction sched generalizing g with
  | nil => simp [h]
  | cons a s ih =>
    rw [List.foldl_cons, ih _ (by rw [step_pc _ _ _ _ h]; omega), step_pc _ _ _ _ h, List.count_cons]
    by_cases ha : a = t
    · simp only [ha, if_true, beq_self_eq_true]
      omega
    · have : (a == t) = false := by simpa using ha
      simp only [ha, this, if_false, Bool.false_eq_true]
      omega

theorem run_spec (acts : Nat → List (Act ι α)) (F W : Nat → ι → Prop) (b : Block ι α) (sched : List Nat)
    (hloc : ∀ t, ∀ a ∈ acts t, LocalTo (F t) (W t) a) (hdis : ∀ t t' c, W t c → F t' c → t = t') :
    (∀ t, (acts t).length ≤ sched.count t →
      (sched.foldl (stepT acts) ⟨b.mem, b.regs, fun _ => 0⟩).regs t = (alone (acts t) (b.regs t, b.mem)).1) ∧
    (∀ t c, F t c → (acts t).length ≤ sched.count t →
      (sched.foldl (stepT acts) ⟨b.mem, b.regs, fun _ => 0⟩).mem c = (alone (acts t) (b.regs t, b.mem)).2 c) ∧
    ∀ c, (∀ t, ¬ W t c) → (sched.foldl (stepT acts) ⟨b.mem, b.regs, fun _ => 0⟩).mem c = b.mem c := by
  have hinv : ∀ (s : List Nat) (g : Run ι α), Inv acts F W b g → Inv acts F W b (s.foldl (stepT acts) g) := by
    intro s
    induction s with
    | nil => exact fun g h => h
    | cons a s ih => exact fun g h => ih _ (step_inv acts F W b g a hloc hdis h)
  have h0 := hinv sched ⟨b.mem, b.regs, fun _ => 0⟩
    ⟨fun t => by simp [alone], fun t c _ => by simp [alone], fun c _ => rfl⟩
  have hpc : ∀ t, (acts t).length ≤ sched.count t →
      (acts t).take ((sched.foldl (stepT acts) ⟨b.mem, b.regs, fun _ => 0⟩).pc t) = acts t := by
    intro t hlen
    rw [foldl_pc _ _ _ _ (Nat.zero_le _), List.take_of_length_le (by omega)]
  refine ⟨fun t hlen => ?_, fun t c hc hlen => ?_, fun c hc => h0.rest c hc⟩
  · have := h0.regs t
    rw [hpc t hlen] at this
    exact this
  · have := h0.mem t c hc
    rw [hpc t hlen] at this
    exact this

/-- Threads that do not touch what another one writes do not see each other between barriers. -/
theorem sec_spec (n : Nat) (acts : Nat → List (Act ι α)) (F W : Nat → ι → Prop) (s : Nat × Block ι α) (sched : Nat → List Nat)
    (hloc : ∀ t < n, ∀ a ∈ acts t, LocalTo (F t) (W t) a) (hdis : ∀ t < n, ∀ t' < n, ∀ c, W t c → F t' c → t = t') :
    (∀ t < n, (sec n sched acts s).2.regs t = (alone (acts t) (s.2.regs t, s.2.mem)).1) ∧
    (∀ t < n, ∀ c, F t c → (sec n sched acts s).2.mem c = (alone (acts t) (s.2.regs t, s.2.mem)).2 c) ∧
    ∀ c, (∀ t < n, ¬ W t c) → (sec n sched acts s).2.mem c = s.2.mem c := by
  set acts' : Nat → List (Act ι α) := fun t => if t < n then acts t else [] with hacts
  have hsame : ∀ t < n, acts' t = acts t := fun t ht => by rw [hacts]; exact if_pos ht
  obtain ⟨h1, h2, h3⟩ := run_spec acts' (fun t c => t < n ∧ F t c) (fun t c => t < n ∧ W t c) s.2
    (sched s.1 ++ (List.range n).flatMap fun t => List.replicate (acts t).length t)
    (by
      intro t a ha
      by_cases ht : t < n
      · rw [hsame t ht] at ha
        have := hloc t ht a ha
        exact ⟨fun r m m' h => ⟨(this.reads r m m' fun c hc => h c ⟨ht, hc⟩).1,
          fun c hc => (this.reads r m m' fun c hc => h c ⟨ht, hc⟩).2 c hc.2⟩, fun r m c hc => this.frame r m c fun h => hc ⟨ht, h⟩⟩
      · rw [hacts] at ha
        simp [ht] at ha)
    (fun t t' c h h' => hdis t h.1 t' h'.1 c h.2 h'.2)
  have hcount : ∀ t < n, (acts' t).length ≤
      (sched s.1 ++ (List.range n).flatMap fun t => List.replicate (acts t).length t).count t := by
    intro t ht
    rw [hsame t ht, List.count_append]
    have hsub : (List.replicate (acts t).length t).Sublist ((List.range n).flatMap fun t => List.replicate (acts t).length t) := by
      rw [List.flatMap]
      exact List.sublist_flatten_of_mem (List.mem_map.2 ⟨t, List.mem_range.2 ht, rfl⟩)
    have := hsub.count_le t
    rw [List.count_replicate_self] at this
    omega
  refine ⟨fun t ht => ?_, fun t ht c hc => ?_, fun c hc => h3 c fun t h => hc t h.1 h.2⟩
  · have := h1 t (hcount t ht)
    rw [hsame t ht] at this
    exact this
  · have := h2 t c ⟨ht, hc⟩ (hcount t ht)
    rw [hsame t ht] at this
    exact this

/-! ## Actions -/

theorem local_ld1 {F W : ι → Prop} {c : ι} (h : F c) : LocalTo F W (ld1 (α := α) c) :=
  ⟨fun r m m' hm => ⟨by simp [ld1, hm c h], fun c' hc => hm c' hc⟩, fun _ _ _ _ => rfl⟩

theorem local_ld2 {F W : ι → Prop} {c : ι} (h : F c) : LocalTo F W (ld2 (α := α) c) :=
  ⟨fun r m m' hm => ⟨by simp [ld2, hm c h], fun c' hc => hm c' hc⟩, fun _ _ _ _ => rfl⟩

theorem local_update [DecidableEq ι] {F W : ι → Prop} {c : ι} (h : W c) (v : α × α → α) :
    LocalTo F W (fun r m => (r, Function.update m c (v r)) : Act ι α) := by
  refine ⟨fun r m m' hm => ⟨rfl, fun c' hc => ?_⟩, fun r m c' hc => ?_⟩
  · by_cases e : c' = c
    · subst e; simp
    · simp [Function.update_of_ne e, hm c' hc]
  · exact Function.update_of_ne (fun e : c' = c => hc (by rw [e]; exact h)) _ _

theorem local_st [DecidableEq ι] {F W : ι → Prop} {c : ι} (h : W c) (v : α) : LocalTo F W (st c v) := local_update h fun _ => v

theorem local_addSt [DecidableEq ι] [Add α] {F W : ι → Prop} {c : ι} (h : W c) : LocalTo F W (addSt (α := α) c) :=
  local_update h fun r => r.2 + r.1

/-- A list of stores. -/
theorem alone_stores [DecidableEq ι] (cells : List ι) (v : ι → α) (s : (α × α) × (ι → α)) :
    alone (cells.map fun c => st c (v c)) s = (s.1, fun c => if c ∈ cells then v c else s.2 c) := by
  induction cells generalizing s with
  | nil => simp [alone]
  | cons a l ih =>
    have e : alone ((a :: l).map fun c => st c (v c)) s = alone (l.map fun c => st c (v c)) (st a (v a) s.1 s.2) := rfl
    rw [e, ih]
    refine Prod.ext rfl (funext fun c => ?_)
    simp only [st, List.mem_cons]
    by_cases h1 : c ∈ l
    · simp [h1]
    · by_cases h2 : c = a
      · subst h2; simp [h1]
      · simp [h1, h2]

/-! ## The tree of additions -/

/-- Memory before and after a tree of additions with the given steps, as far as its first cell is concerned. -/
def Chain [Add α] : List Nat → (Nat → α) → (Nat → α) → Prop
  | [], m, m' => m' 0 = m 0
  | s :: ss, m, m' => ∃ m1 : Nat → α, (∀ i < s, m1 i = m i + m (i + s)) ∧ Chain ss m1 m'

theorem halves_cons (f s : Nat) (h : 0 < s) : halves (f + 1) s = s :: halves f (s / 2) := by
  rw [halves, if_neg (by omega)]

theorem halves_zero : ∀ f, halves f 0 = []
  | 0 => rfl
  | _ + 1 => rfl

/-- With a power of two, all cells are added. -/
theorem chain_pow [AddCommMonoid α] : ∀ (k f : Nat) (m m' : Nat → α), k < f → Chain (halves f (2 ^ k)) m m' →
    m' 0 = ∑ i ∈ Finset.range (2 ^ (k + 1)), m i := by
  intro k
  induction k with
  | zero =>
    intro f m m' hf h
    obtain ⟨f, rfl⟩ := Nat.exists_eq_add_of_lt hf
    rw [show 0 + f + 1 = f + 1 by omega, pow_zero, halves_cons _ _ (by omega), show 1 / 2 = 0 from rfl, halves_zero] at h
    obtain ⟨m1, h1, h2⟩ := h
    have h2 : m' 0 = m1 0 := h2
    rw [h2, h1 0 (by omega), show 2 ^ (0 + 1) = 2 from rfl, Finset.sum_range_succ, Finset.sum_range_one]
    rfl
  | succ k ih =>
    intro f m m' hf h
    obtain ⟨f, rfl⟩ : ∃ g, f = g + 1 := ⟨f - 1, by omega⟩
    rw [halves_cons _ _ (Nat.pow_pos (by omega)), show 2 ^ (k + 1) / 2 = 2 ^ k by rw [pow_succ]; omega] at h
    obtain ⟨m1, h1, h2⟩ := h
    rw [ih f m1 m' (by omega) h2, pow_succ 2 (k + 1), Nat.mul_two, Finset.sum_range_add, ← Finset.sum_add_distrib]
    refine Finset.sum_congr rfl fun i hi => ?_
    rw [h1 i (Finset.mem_range.1 hi), Nat.add_comm i]

/-- With three times a power of two, every third cell is left out. -/
theorem chain_three [AddCommMonoid α] : ∀ (k f : Nat) (m m' : Nat → α), k + 1 < f → Chain (halves f (3 * 2 ^ k)) m m' →
    m' 0 = ∑ i ∈ Finset.range (2 ^ (k + 1)), (m (3 * i) + m (3 * i + 1)) := by
  intro k
  induction k with
  | zero =>
    intro f m m' hf h
    obtain ⟨f, rfl⟩ : ∃ g, f = g + 1 + 1 := ⟨f - 2, by omega⟩
    rw [pow_zero, halves_cons _ _ (by omega), show 3 * 1 / 2 = 1 from rfl, halves_cons _ _ (by omega), show 1 / 2 = 0 from rfl,
      halves_zero] at h
    obtain ⟨m1, h1, m2, h2, h3⟩ := h
    have h3 : m' 0 = m2 0 := h3
    rw [h3, h2 0 (by omega), h1 0 (by omega), h1 1 (by omega), show 2 ^ (0 + 1) = 2 from rfl, Finset.sum_range_succ, Finset.sum_range_one]
    show m 0 + m 3 + (m 1 + m 4) = m 0 + m 1 + (m 3 + m 4)
    ac_rfl
  | succ k ih =>
    intro f m m' hf h
    obtain ⟨f, rfl⟩ : ∃ g, f = g + 1 := ⟨f - 1, by omega⟩
    rw [halves_cons _ _ (Nat.mul_pos (by omega) (Nat.pow_pos (by omega))), show 3 * 2 ^ (k + 1) / 2 = 3 * 2 ^ k by rw [pow_succ]; omega] at h
    obtain ⟨m1, h1, h2⟩ := h
    rw [ih f m1 m' (by omega) h2, pow_succ 2 (k + 1), Nat.mul_two, Finset.sum_range_add, ← Finset.sum_add_distrib]
    refine Finset.sum_congr rfl fun i hi => ?_
    have hi := Finset.mem_range.1 hi
    rw [h1 _ (by omega), h1 _ (by omega), show 3 * i + 3 * 2 ^ (k + 1) = 3 * (2 ^ (k + 1) + i) by ring,
      show 3 * i + 1 + 3 * 2 ^ (k + 1) = 3 * (2 ^ (k + 1) + i) + 1 by ring]
    ac_rfl

end Litiv.Cuda
