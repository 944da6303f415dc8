import Verif.Spec.GLLobster
import Verif.Props.LBSP
import Verif.Props.Sampling
import Verif.Props.GLPreload
import Verif.Lemmas.IEEE
import Mathlib.Algebra.BigOperators.Fin
import Mathlib.Algebra.BigOperators.Intervals

/-! # Lemmas for the GPU LOBSTER -/

namespace Litiv.GLLobster
open Spec

/-! ### Layout -/

theorem padding_mod (d : Dim) : (pxSize d + padding d) % 4 = 0 := by
  unfold padding; split <;> omega

theorem elem_eq (d : Dim) (h : Supported d) : elem d = d.ch := by
  unfold elem; rcases h.1 with h | h <;> rw [h] <;> rfl

theorem structSize_eq (d : Dim) (h : Supported d) : structSize d = colStep d := by
  have hm := padding_mod d
  unfold structSize colStep
  rw [elem_eq d h]
  have e : d.ch * d.n + d.ch * d.n = pxSize d := by unfold pxSize; omega
  rw [e]
  rcases h.1 with h1 | h1 <;> rw [h1]
  · simp
  · omega

theorem colStep_ge (d : Dim) : 2 * (d.n * d.ch) ≤ colStep d := by
  unfold colStep pxSize
  rw [Nat.mul_comm d.ch d.n]; omega

theorem glColor_host (d : Dim) (h : Supported d) (row col s c : Nat) :
    glColor d (idxOf d (col, row)) s c = hostColor d row col s c := by
  unfold glColor hostColor idxOf rowStep
  rw [structSize_eq d h, elem_eq d h]
  ring

theorem glDesc_host (d : Dim) (h : Supported d) (row col s c : Nat) :
    glDesc d (idxOf d (col, row)) s c = hostDesc d row col s c := by
  unfold glDesc hostDesc idxOf rowStep
  rw [structSize_eq d h, elem_eq d h]
  ring

/-- A word of the buffer as pixel index and offset in the pixel. -/
theorem addr_unique (k : Nat) (i j a b : Nat) (ha : a < k) (hb : b < k) (e : i * k + a = j * k + b) : i = j ∧ a = b := by
  have h1 : (i * k + a) / k = i := by rw [Nat.mul_comm, Nat.mul_add_div (by omega), Nat.div_eq_of_lt ha]; rfl
  have h2 : (j * k + b) / k = j := by rw [Nat.mul_comm, Nat.mul_add_div (by omega), Nat.div_eq_of_lt hb]; rfl
  have : i = j := by rw [← h1, e, h2]
  subst this
  exact ⟨rfl, by omega⟩

theorem sample_lt (d : Dim) (s c : Nat) (hs : s < d.n) (hc : c < d.ch) : s * d.ch + c < d.n * d.ch := by
  have : (s + 1) * d.ch ≤ d.n * d.ch := Nat.mul_le_mul_right _ hs
  rw [Nat.add_mul] at this; omega

theorem glColor_eq (d : Dim) (h : Supported d) (i s c : Nat) : glColor d i s c = i * colStep d + (s * d.ch + c) := by
  unfold glColor; rw [structSize_eq d h, elem_eq d h]; omega

theorem glDesc_eq (d : Dim) (h : Supported d) (i s c : Nat) : glDesc d i s c = i * colStep d + (d.n * d.ch + (s * d.ch + c)) := by
  unfold glDesc; rw [structSize_eq d h, elem_eq d h, Nat.mul_comm d.ch d.n]; omega

theorem glColor_inj (d : Dim) (h : Supported d) (i s c i' s' c' : Nat) (hs : s < d.n) (hc : c < d.ch) (hs' : s' < d.n)
    (hc' : c' < d.ch) (e : glColor d i s c = glColor d i' s' c') : i = i' ∧ s = s' ∧ c = c' := by
  rw [glColor_eq d h, glColor_eq d h] at e
  have := colStep_ge d
  have l := sample_lt d s c hs hc
  have l' := sample_lt d s' c' hs' hc'
  obtain ⟨h1, h2⟩ := addr_unique _ i i' _ _ (by omega) (by omega) e
  obtain ⟨h3, h4⟩ := addr_unique _ s s' _ _ hc hc' h2
  exact ⟨h1, h3, h4⟩

theorem glDesc_inj (d : Dim) (h : Supported d) (i s c i' s' c' : Nat) (hs : s < d.n) (hc : c < d.ch) (hs' : s' < d.n)
    (hc' : c' < d.ch) (e : glDesc d i s c = glDesc d i' s' c') : i = i' ∧ s = s' ∧ c = c' := by
  rw [glDesc_eq d h, glDesc_eq d h] at e
  have := colStep_ge d
  have l := sample_lt d s c hs hc
  have l' := sample_lt d s' c' hs' hc'
  obtain ⟨h1, h2⟩ := addr_unique _ i i' _ _ (by omega) (by omega) e
  obtain ⟨h3, h4⟩ := addr_unique _ s s' _ _ hc hc' (by omega : s * d.ch + c = s' * d.ch + c')
  exact ⟨h1, h3, h4⟩

theorem glColor_ne_glDesc (d : Dim) (h : Supported d) (i s c i' s' c' : Nat) (hs : s < d.n) (hc : c < d.ch) (hs' : s' < d.n)
    (hc' : c' < d.ch) : glColor d i s c ≠ glDesc d i' s' c' := by
  intro e
  rw [glColor_eq d h, glDesc_eq d h] at e
  have := colStep_ge d
  have l := sample_lt d s c hs hc
  have l' := sample_lt d s' c' hs' hc'
  obtain ⟨h1, h2⟩ := addr_unique _ i i' _ _ (by omega) (by omega) e
  omega

theorem idx_lt (d : Dim) (q : Nat × Nat) (hx : q.1 < d.cols) (hy : q.2 < d.rows) : idxOf d q < d.cols * d.rows := by
  have : (q.2 + 1) * d.cols ≤ d.rows * d.cols := Nat.mul_le_mul_right _ hy
  unfold idxOf
  rw [Nat.mul_comm d.cols, Nat.add_mul] at *; omega

theorem idx_inj (d : Dim) (q q' : Nat × Nat) (hx : q.1 < d.cols) (hx' : q'.1 < d.cols) (e : idxOf d q = idxOf d q') : q = q' := by
  obtain ⟨h1, h2⟩ := addr_unique d.cols q.2 q'.2 q.1 q'.1 hx hx' e
  exact Prod.ext h2 h1

theorem addr_lt (d : Dim) (i a : Nat) (hi : i < d.cols * d.rows) (ha : a < colStep d) : i * colStep d + a < modelSize d := by
  have : (i + 1) * colStep d ≤ d.cols * d.rows * colStep d := Nat.mul_le_mul_right _ hi
  unfold modelSize rowStep
  rw [Nat.add_mul] at this
  calc i * colStep d + a < i * colStep d + 1 * colStep d := by omega
    _ ≤ d.cols * d.rows * colStep d := this
    _ = colStep d * d.cols * d.rows := by ring

theorem glColor_lt (d : Dim) (h : Supported d) (q : Nat × Nat) (hx : q.1 < d.cols) (hy : q.2 < d.rows) (s c : Nat) (hs : s < d.n)
    (hc : c < d.ch) : glColor d (idxOf d q) s c < modelSize d := by
  rw [glColor_eq d h]
  have := colStep_ge d
  have l := sample_lt d s c hs hc
  exact addr_lt d _ _ (idx_lt d q hx hy) (by omega)

theorem glDesc_lt (d : Dim) (h : Supported d) (q : Nat × Nat) (hx : q.1 < d.cols) (hy : q.2 < d.rows) (s c : Nat) (hs : s < d.n)
    (hc : c < d.ch) : glDesc d (idxOf d q) s c < modelSize d := by
  rw [glDesc_eq d h]
  have := colStep_ge d
  have l := sample_lt d s c hs hc
  exact addr_lt d _ _ (idx_lt d q hx hy) (by omega)

/-! ### Programs -/

/-- A program which only loads from addresses satisfying `Rd`, given that loads return values satisfying `R`; which only
stores what `Wr` allows, and whose result satisfies `O`. -/
def Sat (Rd : Nat → Prop) (R Wr : Nat → W → Prop) (O : Nat → Prop) : Prog → Prop
  | .read a k => Rd a ∧ ∀ v, R a v → Sat Rd R Wr O (k v)
  | .write a v k => Wr a v ∧ Sat Rd R Wr O k
  | .out r => O r

theorem Sat.mono {Rd : Nat → Prop} {R R' Wr Wr' : Nat → W → Prop} {O O' : Nat → Prop} (hR : ∀ a v, R' a v → R a v)
    (hW : ∀ a v, Wr a v → Wr' a v) (hO : ∀ r, O r → O' r) : ∀ p : Prog, Sat Rd R Wr O p → Sat Rd R' Wr' O' p
  | .read _ k, h => ⟨h.1, fun v hv => Sat.mono hR hW hO (k v) (h.2 v (hR _ _ hv))⟩
  | .write _ _ k, h => ⟨hW _ _ h.1, Sat.mono hR hW hO k h.2⟩
  | .out _, h => hO _ h

theorem sat_readVec {Rd : Nat → Prop} {R Wr : Nat → W → Prop} {O : Nat → Prop} :
    ∀ (m a : Nat) (k : List W → Prog), (∀ i < m, Rd (a + i)) →
      (∀ l : List W, l.length = m → (∀ i < m, R (a + i) (l.getD i 0)) → Sat Rd R Wr O (k l)) → Sat Rd R Wr O (readVec m a k)
  | 0, a, k, _, h => h [] rfl (by omega)
  | m + 1, a, k, hr, h => by
    refine ⟨hr 0 (by omega), fun v hv => ?_⟩
    refine sat_readVec m (a + 1) _ (fun i hi => ?_) fun l hl hR => h (v :: l) (by simp [hl]) ?_
    · have := hr (i + 1) (by omega)
      rwa [show a + 1 + i = a + (i + 1) by omega]
    · intro i hi
      rcases i with _ | i
      · exact hv
      · have := hR i (by omega)
        rwa [show a + (i + 1) = a + 1 + i by omega]

theorem sat_writeVec {Rd : Nat → Prop} {R Wr : Nat → W → Prop} {O : Nat → Prop} :
    ∀ (l : List W) (a : Nat) (k : Prog), (∀ i < l.length, Wr (a + i) (l.getD i 0)) → Sat Rd R Wr O k → Sat Rd R Wr O (writeVec l a k)
  | [], _, _, _, h => h
  | v :: l, a, k, hw, h => by
    refine ⟨hw 0 (by simp), sat_writeVec l (a + 1) k (fun i hi => ?_) h⟩
    have := hw (i + 1) (by simp; omega)
    rwa [show a + (i + 1) = a + 1 + i by omega] at this

/-- The sample loop: `good + m` reaches the required number if all samples read match. -/
theorem sat_scan {Rd : Nat → Prop} {R Wr : Nat → W → Prop} {O : Nat → Prop} (g : Cfg) (inp : GlImg) (p : Nat × Nat) (idx : Nat) (k : Nat → Prog)
    (Q : Nat → Nat → Prop) :
    ∀ (m s good : Nat), (∀ s' < s + m, ∀ c < comps g.d, Rd (glColor g.d idx s' c) ∧ Rd (glDesc g.d idx s' c)) →
      Q m good →
      (∀ m' s' good col desc, s' < s + m → Q (m' + 1) good → col.length = comps g.d → desc.length = comps g.d →
        (∀ c < comps g.d, R (glColor g.d idx s' c) (col.getD c 0) ∧ R (glDesc g.d idx s' c) (desc.getD c 0)) →
        Q m' (if matchesSample g inp p col desc then good + 1 else good)) →
      (∀ m good, Q m good → (m = 0 ∨ g.req ≤ good) → Sat Rd R Wr O (k good)) →
      Sat Rd R Wr O (scan g inp p idx m s good k)
  | 0, _, good, _, hq, _, hk => hk 0 good hq (Or.inl rfl)
  | m + 1, s, good, hr, hq, hQ, hk => by
    refine sat_readVec _ _ _ (fun i hi => ?_) fun col hcl hcol => sat_readVec _ _ _ (fun i hi => ?_) fun desc hdl hdesc => ?_
    · exact (hr s (by omega) i hi).1
    · exact (hr s (by omega) i hi).2
    · have hq' := hQ m s good col desc (by omega) hq hcl hdl fun c hc => ⟨hcol c hc, hdesc c hc⟩
      dsimp only
      by_cases h : (if matchesSample g inp p col desc then good + 1 else good) ≥ g.req
      · rw [if_pos h]; exact hk m _ hq' (Or.inr h)
      · rw [if_neg h]
        refine sat_scan g inp p idx k Q m (s + 1) _ (fun s' hs' => hr s' (by omega)) hq' ?_ hk
        intro m' s' good' col' desc' hs'
        exact hQ m' s' good' col' desc' (by omega)

/-! ### Schedules -/

/-- Rely and guarantee: whatever the programs store is allowed for the loads of all of them. -/
theorem run_inv (Rd : Nat → Prop) (R : Nat → W → Prop) (Wr : Nat × Nat → Nat → W → Prop) (O : Nat × Nat → Nat → Prop)
    (hWR : ∀ p a v, Wr p a v → R a v) : ∀ (sched : List (Nat × Nat)) (s : Sys), (∀ a, R a (s.mem a)) →
    (∀ p, Sat Rd R (Wr p) (O p) (s.pc p)) →
    (∀ a, R a ((sched.foldl step s).mem a)) ∧ ∀ p, Sat Rd R (Wr p) (O p) ((sched.foldl step s).pc p)
  | [], _, hm, hp => ⟨hm, hp⟩
  | i :: sched, s, hm, hp => by
    have hi := hp i
    refine run_inv Rd R Wr O hWR sched (step s i) ?_ ?_
    · intro a
      unfold step
      split
      · exact hm a
      · rename_i a' v k e
        rw [e] at hi
        dsimp only
        by_cases h : a = a'
        · subst h; rw [Function.update_self]; exact hWR i _ _ hi.1
        · rw [Function.update_of_ne h]; exact hm a
      · exact hm a
    · intro p
      unfold step
      split
      · rename_i a k e
        rw [e] at hi
        dsimp only
        by_cases h : p = i
        · subst h; rw [Function.update_self]; exact hi.2 _ (hm a)
        · rw [Function.update_of_ne h]; exact hp p
      · rename_i a' v k e
        rw [e] at hi
        dsimp only
        by_cases h : p = i
        · subst h; rw [Function.update_self]; exact hi.2
        · rw [Function.update_of_ne h]; exact hp p
      · exact hp p

/-- A program which from its first store on can only return 0. -/
def Traced (Wr : Nat → W → Prop) : Prog → Prop
  | .read _ k => ∀ v, Traced Wr (k v)
  | .write a v k => Wr a v ∧ Sat (fun _ => True) (fun _ _ => True) Wr (· = 0) k
  | .out _ => True

theorem traced_of_sat (Wr : Nat → W → Prop) : ∀ p : Prog, Sat (fun _ => True) (fun _ _ => True) Wr (· = 0) p → Traced Wr p
  | .read _ k, h => fun v => traced_of_sat Wr (k v) (h.2 v trivial)
  | .write _ _ _, h => h
  | .out _, _ => trivial

theorem traced_readVec {Wr : Nat → W → Prop} : ∀ (m a : Nat) (k : List W → Prog), (∀ l, Traced Wr (k l)) → Traced Wr (readVec m a k)
  | 0, _, k, h => h []
  | m + 1, a, k, h => fun v => traced_readVec m (a + 1) _ fun l => h (v :: l)

theorem traced_scan {Wr : Nat → W → Prop} (g : Cfg) (inp : GlImg) (p : Nat × Nat) (idx : Nat) (k : Nat → Prog) (hk : ∀ good, Traced Wr (k good)) :
    ∀ m s good, Traced Wr (scan g inp p idx m s good k)
  | 0, _, good => hk good
  | m + 1, s, good => by
    refine traced_readVec _ _ _ fun col => traced_readVec _ _ _ fun desc => ?_
    dsimp only
    by_cases h : (if matchesSample g inp p col desc then good + 1 else good) ≥ g.req
    · rw [if_pos h]; exact hk _
    · rw [if_neg h]; exact traced_scan g inp p idx k hk m (s + 1) _

/-- Every change of the buffer was stored by a program that can only return 0. -/
theorem run_trace (Wr : Nat × Nat → Nat → W → Prop) (b : Buf) : ∀ (sched : List (Nat × Nat)) (s : Sys), (∀ p, Traced (Wr p) (s.pc p)) →
    (∀ a, s.mem a = b a ∨ ∃ p, Sat (fun _ => True) (fun _ _ => True) (Wr p) (· = 0) (s.pc p) ∧ Wr p a (s.mem a)) →
    ∀ a, (sched.foldl step s).mem a = b a ∨
      ∃ p, Sat (fun _ => True) (fun _ _ => True) (Wr p) (· = 0) ((sched.foldl step s).pc p) ∧ Wr p a ((sched.foldl step s).mem a)
  | [], _, _, h => h
  | i :: sched, s, hp, hm => by
    have hi := hp i
    have keep : ∀ p, Sat (fun _ => True) (fun _ _ => True) (Wr p) (· = 0) (s.pc p) →
        Sat (fun _ => True) (fun _ _ => True) (Wr p) (· = 0) ((step s i).pc p) := by
      intro p h
      unfold step
      split
      · rename_i a k e
        dsimp only
        by_cases hpi : p = i
        · subst hpi; rw [Function.update_self]; rw [e] at h; exact h.2 _ trivial
        · rw [Function.update_of_ne hpi]; exact h
      · rename_i a v k e
        dsimp only
        by_cases hpi : p = i
        · subst hpi; rw [Function.update_self]; rw [e] at h; exact h.2
        · rw [Function.update_of_ne hpi]; exact h
      · exact h
    refine run_trace Wr b sched (step s i) ?_ ?_
    · intro p
      unfold step
      split
      · rename_i a k e
        dsimp only
        by_cases hpi : p = i
        · subst hpi; rw [Function.update_self]; rw [e] at hi; exact hi _
        · rw [Function.update_of_ne hpi]; exact hp p
      · rename_i a v k e
        dsimp only
        by_cases hpi : p = i
        · subst hpi; rw [Function.update_self]; rw [e] at hi; exact traced_of_sat _ _ hi.2
        · rw [Function.update_of_ne hpi]; exact hp p
      · exact hp p
    · intro a
      by_cases hw : ∃ v k, s.pc i = .write a v k
      · obtain ⟨v, k, e⟩ := hw
        rw [e] at hi
        right
        refine ⟨i, ?_, ?_⟩
        · unfold step; rw [e]; dsimp only; rw [Function.update_self]; exact hi.2
        · unfold step; rw [e]; dsimp only; rw [Function.update_self]; exact hi.1
      · have e : (step s i).mem a = s.mem a := by
          unfold step
          split
          · rfl
          · rename_i a' v k e
            dsimp only
            rw [Function.update_of_ne]
            rintro rfl
            exact hw ⟨v, k, e⟩
          · rfl
        have := hm a
        rw [← e] at this
        exact this.imp id fun ⟨p, h1, h2⟩ => ⟨p, keep p h1, h2⟩

/-! ### Running alone -/

theorem exec_readVec : ∀ (m a : Nat) (k : List W → Prog) (b : Buf),
    exec (readVec m a k) b = exec (k ((List.range m).map fun i => b (a + i))) b
  | 0, _, _, _ => rfl
  | m + 1, a, k, b => by
    rw [readVec, exec, exec_readVec m (a + 1), List.range_succ_eq_map, List.map_cons, List.map_map]
    congr 4
    funext i
    simp only [Function.comp]
    congr 1; omega

theorem exec_zero {Rd : Nat → Prop} {Wr : Nat → W → Prop} : ∀ (p : Prog) (b : Buf), Sat Rd (fun _ _ => True) Wr (· = 0) p → (exec p b).1 = 0
  | .read _ k, b, h => exec_zero (k _) b (h.2 _ trivial)
  | .write _ _ k, b, h => exec_zero k _ h.2
  | .out _, _, h => h

/-- The words of a sample as read by the shader. -/
def wordsAt (d : Dim) (b : Buf) (a : Nat) : List W := (List.range (comps d)).map fun i => b (a + i)

/-- Does sample `s` match? -/
def hit (g : Cfg) (inp : GlImg) (p : Nat × Nat) (idx : Nat) (b : Buf) (s : Nat) : Bool :=
  matchesSample g inp p (wordsAt g.d b (glColor g.d idx s 0)) (wordsAt g.d b (glDesc g.d idx s 0))

theorem exec_scan (g : Cfg) (inp : GlImg) (p : Nat × Nat) (idx : Nat) (k : Nat → Prog) (b : Buf) : ∀ m s good,
    ∃ gf, exec (scan g inp p idx m s good k) b = exec (k gf) b ∧
      (gf < g.req ↔ good + (List.range m).countP (fun i => hit g inp p idx b (s + i)) < g.req)
  | 0, s, good => ⟨good, rfl, by simp⟩
  | m + 1, s, good => by
    rw [scan, exec_readVec, exec_readVec]
    have hc : (List.range (m + 1)).countP (fun i => hit g inp p idx b (s + i)) =
        (if hit g inp p idx b s then 1 else 0) + (List.range m).countP (fun i => hit g inp p idx b (s + 1 + i)) := by
      rw [List.range_succ_eq_map, List.countP_cons, List.countP_map, Nat.add_comm]
      congr 1
      apply List.countP_congr
      intro i _
      simp only [Function.comp]
      rw [show s + i.succ = s + 1 + i by omega]
    rw [hc]
    change ∃ gf, exec (if (if hit g inp p idx b s then good + 1 else good) ≥ g.req then k (if hit g inp p idx b s then good + 1 else good)
      else scan g inp p idx m (s + 1) (if hit g inp p idx b s then good + 1 else good) k) b = _ ∧ _
    have e : (if hit g inp p idx b s then good + 1 else good) = good + (if hit g inp p idx b s then 1 else 0) := by split <;> rfl
    rw [e]
    by_cases h : good + (if hit g inp p idx b s then 1 else 0) ≥ g.req
    · rw [if_pos h]
      exact ⟨_, rfl, by omega⟩
    · rw [if_neg h]
      obtain ⟨gf, e1, e2⟩ := exec_scan g inp p idx k b m (s + 1) (good + (if hit g inp p idx b s then 1 else 0))
      exact ⟨gf, e1, by rw [e2]; omega⟩

/-! ### Matching -/

open LBSP LBSP.Spec in
theorem pattern_glsl (patch : Int → Int → BitVec 8) (ref t : BitVec 8) : IsPattern patch ref t (LBSP.glslDesc patch ref t) := by
  rw [(glsl_agrees .scalar patch ref t).1]
  constructor
  · intro e he
    obtain ⟨n, rfl⟩ := (drawing_mem e).1 he
    rw [BitVec.getLsbD_setWidth]
    have h := threshold_spec .scalar (fun n => patch (offX n) (offY n)) ref t n
    have : decide (n.val < 32) = true := by have := n.2; simp; omega
    simp only [this, Bool.true_and]
    exact h
  · intro i hi
    rw [BitVec.getLsbD_setWidth, BitVec.getLsbD_of_ge _ _ hi, Bool.and_false]

open LBSP LBSP.Spec in
theorem pattern_unique (patch : Int → Int → BitVec 8) (ref t : BitVec 8) (w w' : W) (h : IsPattern patch ref t w)
    (h' : IsPattern patch ref t w') : w = w' := by
  apply BitVec.eq_of_getLsbD_eq
  intro i _
  by_cases hi : i < 16
  · have hn := (drawing_mem ((⟨i, hi⟩ : Fin 16).val, offX ⟨i, hi⟩, offY ⟨i, hi⟩)).2 ⟨_, rfl⟩
    exact Bool.eq_iff_iff.2 ((h.1 _ hn).trans (h'.1 _ hn).symm)
  · rw [h.2 i (by omega), h'.2 i (by omega)]

theorem hdist_differing (a b : W) : hdist a b = differing a b := by
  unfold hdist differing
  apply List.countP_congr
  intro i _
  simp only [BitVec.getLsbD_xor]

theorem absdiff_dist (v : BitVec 8) (w : W) (h : w.toNat < 256) : absdiff (v.setWidth 32) w = dist v.toNat w.toNat := by
  unfold absdiff dist
  have hv := v.isLt
  rw [BitVec.toInt_eq_toNat_of_lt (by rw [BitVec.toNat_setWidth]; omega), BitVec.toInt_eq_toNat_of_lt (by omega), BitVec.toNat_setWidth,
    Nat.mod_eq_of_lt (by omega)]
  omega

theorem matches_iff (g : Cfg) (inp : GlImg) (p : Nat × Nat) (col desc : List W) (colF descF : Nat → W)
    (hc : ∀ c < comps g.d, col.getD c 0 = colF c) (hd : ∀ c < comps g.d, desc.getD c 0 = descF c)
    (hb : ∀ c < comps g.d, (colF c).toNat < 256) :
    matchesSample g inp p col desc = true ↔ Matches g inp p colF descF := by
  have key : ∀ c < comps g.d, colDist inp p col c = dist (inp p.1 p.2 c).toNat (colF c).toNat ∧
      ∀ w, IsPattern (fun dx dy => inp (p.1 + dx) (p.2 + dy) c) ((colF c).setWidth 8) (g.lut ((colF c).setWidth 8)) w →
        descDist g inp p col desc c = differing w (descF c) := by
    intro c h
    unfold colDist descDist
    rw [hc c h, hd c h, absdiff_dist _ _ (hb c h), hdist_differing]
    refine ⟨rfl, fun w hw => ?_⟩
    rw [pattern_unique _ _ _ _ _ hw (pattern_glsl _ _ _)]
    rfl
  have ex : ∀ c, IsPattern (fun dx dy => inp (p.1 + dx) (p.2 + dy) c) ((colF c).setWidth 8) (g.lut ((colF c).setWidth 8))
      (lbsp g inp p c ((colF c).setWidth 8)) := fun c => pattern_glsl _ _ _
  unfold matchesSample Matches
  by_cases h4 : g.d.ch = 4
  · have h3 : comps g.d = 3 := by unfold comps; rw [if_pos h4]
    rw [h3] at key
    simp only [if_pos h4]
    obtain ⟨k0, k0'⟩ := key 0 (by omega)
    obtain ⟨k1, k1'⟩ := key 1 (by omega)
    obtain ⟨k2, k2'⟩ := key 2 (by omega)
    have all3 : ∀ P : Nat → Prop, (∀ c < 3, P c) ↔ P 0 ∧ P 1 ∧ P 2 := fun P =>
      ⟨fun h => ⟨h 0 (by omega), h 1 (by omega), h 2 (by omega)⟩, fun ⟨a, b, c⟩ i hi => by interval_cases i <;> assumption⟩
    simp only [Bool.and_eq_true, List.all_eq_true, List.mem_range, decide_eq_true_eq, all3, Finset.sum_range_succ, Finset.sum_range_zero,
      Nat.zero_add, k0, k1, k2, Nat.mul_comm 3]
    constructor
    · rintro ⟨⟨⟨h1, h2⟩, h3⟩, h4⟩
      rw [k0' _ (ex 0), k1' _ (ex 1), k2' _ (ex 2)] at h3 h4
      exact ⟨_, ex, ⟨⟨h1.1, h3.1⟩, ⟨h1.2.1, h3.2.1⟩, h1.2.2, h3.2.2⟩, h2, h4⟩
    · rintro ⟨w, hw, ⟨⟨a1, a2⟩, ⟨b1, b2⟩, c1, c2⟩, h2, h3⟩
      rw [k0' _ (hw 0), k1' _ (hw 1), k2' _ (hw 2)]
      exact ⟨⟨⟨⟨a1, b1, c1⟩, h2⟩, a2, b2, c2⟩, h3⟩
  · have h1 : comps g.d = 1 := by unfold comps; rw [if_neg h4]
    rw [h1] at key
    simp only [if_neg h4]
    obtain ⟨k0, k0'⟩ := key 0 (by omega)
    simp only [Bool.and_eq_true, decide_eq_true_eq, k0]
    constructor
    · rintro ⟨h1, h2⟩
      rw [k0' _ (ex 0)] at h2
      exact ⟨_, ex, h1, h2⟩
    · rintro ⟨w, hw, h1, h2⟩
      rw [k0' _ (hw 0)]
      exact ⟨h1, h2⟩

/-! ### Invocations -/

/-- The descriptor word stored for channel `c`. -/
def descWord (g : Cfg) (inp : GlImg) (p : Nat × Nat) (c : Nat) : W := if c = 3 then 0 else lbsp g inp p c (inp p.1 p.2 c)

theorem descWord_at (g : Cfg) (inp : GlImg) (p : Nat × Nat) (c : Nat) : DescAt g.lut inp p c (descWord g inp p c) := by
  unfold DescAt descWord
  by_cases h : c = 3
  · rw [if_pos h, if_pos h]
  · rw [if_neg h, if_neg h]; exact pattern_glsl _ _ _

theorem colorWords_get (d : Dim) (h : Supported d) (inp : GlImg) (p : Nat × Nat) :
    (colorWords d inp p).length = d.ch ∧ ∀ c < d.ch, (colorWords d inp p).getD c 0 = colorAt inp p c := by
  unfold colorWords comps colorAt
  rcases h.1 with h | h
  · simp only [h, show ¬ (1 = 4) by decide, if_false]
    refine ⟨rfl, fun c hc => ?_⟩
    interval_cases c; rfl
  · simp only [h, if_true]
    refine ⟨rfl, fun c hc => ?_⟩
    interval_cases c <;> rfl

theorem descWords_get (g : Cfg) (h : Supported g.d) (inp : GlImg) (p : Nat × Nat) :
    (descWords g inp p).length = g.d.ch ∧ ∀ c < g.d.ch, (descWords g inp p).getD c 0 = descWord g inp p c := by
  unfold descWords comps descWord
  rcases h.1 with h | h
  · simp only [h, show ¬ (1 = 4) by decide, if_false]
    refine ⟨rfl, fun c hc => ?_⟩
    interval_cases c; rfl
  · simp only [h, if_true]
    refine ⟨rfl, fun c hc => ?_⟩
    interval_cases c <;> rfl

/-- `Wr` allows storing the input of `p` in all samples of the pixel with index `idx`. -/
def Allows (g : Cfg) (inp : GlImg) (p : Nat × Nat) (Wr : Nat → W → Prop) (idx : Nat) : Prop :=
  ∀ s < g.d.n, ∀ c < g.d.ch, Wr (glColor g.d idx s c) (colorAt inp p c) ∧ Wr (glDesc g.d idx s c) (descWord g inp p c)

theorem sat_resample {Rd : Nat → Prop} {R Wr : Nat → W → Prop} {O : Nat → Prop} (g : Cfg) (h : Supported g.d) (inp : GlImg) (p : Nat × Nat)
    (idx : Nat) (r1 r2 : W) (k : Prog) (hw : Allows g inp p Wr idx) (hk : Sat Rd R Wr O k) : Sat Rd R Wr O (resample g inp p idx r1 r2 k) := by
  obtain ⟨l1, e1⟩ := colorWords_get g.d h inp p
  obtain ⟨l2, e2⟩ := descWords_get g h inp p
  refine sat_writeVec _ _ _ (fun i hi => ?_) (sat_writeVec _ _ _ (fun i hi => ?_) hk)
  · rw [l1] at hi; rw [e1 i hi]
    exact (hw _ (Nat.mod_lt r1.toNat h.2) i hi).1
  · rw [l2] at hi; rw [e2 i hi]
    exact (hw _ (Nat.mod_lt r2.toNat h.2) i hi).2

theorem nbIdx_eq (d : Dim) (x y : Nat) (hx : x < d.cols) (hy : y < d.rows) (hs : d.cols * d.rows < 2 ^ 32) :
    nbIdx d (x, y) = idxOf d (x, y) := by
  have := idx_lt d (x, y) hx hy
  unfold idxOf at this ⊢
  unfold nbIdx
  dsimp only at this ⊢
  rw [BitVec.ofInt_natCast, BitVec.ofInt_natCast, ← BitVec.ofNat_mul, ← BitVec.ofNat_add, BitVec.toNat_ofNat, Nat.mod_eq_of_lt (by omega)]

theorem neighbour_exists (d : Dim) (p : Nat × Nat) (r : W) (hx : 1 ≤ p.1 ∧ p.1 + 1 < d.cols) (hy : 1 ≤ p.2 ∧ p.2 + 1 < d.rows)
    (hs : d.cols * d.rows < 2 ^ 32) : ∃ q : Nat × Nat, q.1 < d.cols ∧ q.2 < d.rows ∧ Adjacent p q ∧
      nbIdx d (GLPreload.randNeighbor 0 d.cols d.rows (p.1, p.2) r) = idxOf d q := by
  have hp : ∀ i : Fin 8, -1 ≤ (GLPreload.pattern3x3 i).1 ∧ (GLPreload.pattern3x3 i).1 ≤ 1 ∧ -1 ≤ (GLPreload.pattern3x3 i).2 ∧
    (GLPreload.pattern3x3 i).2 ≤ 1 := by decide
  unfold GLPreload.randNeighbor
  dsimp only
  generalize (⟨r.toNat % 8, Nat.mod_lt _ (by decide)⟩ : Fin 8) = i
  obtain ⟨h1, h2, h3, h4⟩ := hp i
  refine ⟨(((p.1 : Int) + (GLPreload.pattern3x3 i).1).toNat, ((p.2 : Int) + (GLPreload.pattern3x3 i).2).toNat), ?_, ?_, ?_, ?_⟩
  · dsimp only; omega
  · dsimp only; omega
  · unfold Adjacent dist; dsimp only; omega
  · rw [← nbIdx_eq d _ _ (by omega) (by omega) hs]
    congr 2 <;> omega

theorem sat_spread {Rd : Nat → Prop} {R Wr : Nat → W → Prop} {O : Nat → Prop} (g : Cfg) (h : Supported g.d) (inp : GlImg) (rnd : Nat → W)
    (p : Nat × Nat) (k : Nat) (hx : 1 ≤ p.1 ∧ p.1 + 1 < g.d.cols) (hy : 1 ≤ p.2 ∧ p.2 + 1 < g.d.rows) (hs : g.d.cols * g.d.rows < 2 ^ 32)
    (hw : ∀ q : Nat × Nat, q.1 < g.d.cols → q.2 < g.d.rows → Adjacent p q → Allows g inp p Wr (idxOf g.d q)) (hO : O 0) :
    Sat Rd R Wr O (spread g inp rnd p k) := by
  unfold spread
  split
  · obtain ⟨q, h1, h2, h3, e⟩ := neighbour_exists g.d p (rnd (k + 1)) hx hy hs
    rw [e]
    exact sat_resample g h inp p _ _ _ _ (hw q h1 h2 h3) hO
  · exact hO

/-- The part of the program after the sample loop. -/
def after (g : Cfg) (inp : GlImg) (rnd : Nat → W) (p : Nat × Nat) (good : Nat) : Prog :=
  if good < g.req then .out 255
  else if (rnd 0).toNat % g.rate = 0 then
    resample g inp p (p.2 * g.d.cols + p.1) (rnd 1) (rnd 2) (spread g inp rnd p 3)
  else spread g inp rnd p 1

theorem sat_after {Rd : Nat → Prop} {R Wr : Nat → W → Prop} {O : Nat → Prop} (g : Cfg) (h : Supported g.d) (inp : GlImg) (rnd : Nat → W)
    (p : Nat × Nat) (hx : 1 ≤ p.1 ∧ p.1 + 1 < g.d.cols) (hy : 1 ≤ p.2 ∧ p.2 + 1 < g.d.rows) (hs : g.d.cols * g.d.rows < 2 ^ 32)
    (hw : ∀ q : Nat × Nat, q.1 < g.d.cols → q.2 < g.d.rows → Adjacent p q → Allows g inp p Wr (idxOf g.d q)) (good : Nat)
    (hg : g.req ≤ good) (hO : O 0) : Sat Rd R Wr O (after g inp rnd p good) := by
  unfold after
  rw [if_neg (by omega)]
  split
  · refine sat_resample g h inp p _ _ _ _ (hw p (by omega) (by omega) ?_) (sat_spread g h inp rnd p 3 hx hy hs hw hO)
    unfold Adjacent dist; omega
  · exact sat_spread g h inp rnd p 1 hx hy hs hw hO

theorem roi_inner {d : Dim} {roi : Int → Int → BitVec 8} (m : Nat) (hm : 1 ≤ m) (hr : RoiInner m d roi) (p : Nat × Nat) (h : roi p.1 p.2 ≠ 0) :
    (1 ≤ p.1 ∧ p.1 + 1 < d.cols) ∧ (1 ≤ p.2 ∧ p.2 + 1 < d.rows) := by
  have := hr p.1 p.2 h
  omega

/-! ### Loops which establish a property for each of their elements -/

theorem foldl_establish {σ κ : Type} (f : σ → κ → σ) (P : κ → σ → Prop) : ∀ (l : List κ),
    (∀ k ∈ l, ∀ s, P k (f s k)) → (∀ k ∈ l, ∀ k', k ≠ k' → ∀ s, P k' s → P k' (f s k)) → ∀ s,
    (∀ k ∈ l, P k (l.foldl f s)) ∧ ∀ k, P k s → P k (l.foldl f s)
  | [], _, _, _ => ⟨by simp, fun _ h => h⟩
  | k :: l, h1, h2, s => by
    obtain ⟨a, b⟩ := foldl_establish f P l (fun k hk => h1 k (List.mem_cons_of_mem _ hk)) (fun k hk => h2 k (List.mem_cons_of_mem _ hk)) (f s k)
    rw [List.foldl_cons]
    refine ⟨fun k' hk' => ?_, fun k' hk' => ?_⟩
    · rcases List.mem_cons.1 hk' with rfl | hk'
      · exact b _ (h1 _ List.mem_cons_self s)
      · exact a k' hk'
    · by_cases e : k = k'
      · subst e; exact b _ (h1 _ List.mem_cons_self s)
      · exact b _ (h2 k List.mem_cons_self k' e s hk')

theorem foldlM_establish {σ κ : Type} (f : σ → κ → Option σ) (P : κ → σ → Prop) : ∀ (l : List κ),
    (∀ k ∈ l, ∀ s s', f s k = some s' → P k s') → (∀ k ∈ l, ∀ k' , k ≠ k' → ∀ s s', f s k = some s' → P k' s → P k' s') → ∀ s s',
    l.foldlM f s = some s' → (∀ k ∈ l, P k s') ∧ ∀ k, P k s → P k s'
  | [], _, _, s, s', e => by
    rw [List.foldlM_nil] at e
    cases Option.some.inj e
    exact ⟨by simp, fun _ h => h⟩
  | k :: l, h1, h2, s, s', e => by
    rw [List.foldlM_cons] at e
    obtain ⟨t, e1, e2⟩ := Option.bind_eq_some_iff.1 e
    obtain ⟨a, b⟩ := foldlM_establish f P l (fun k hk => h1 k (List.mem_cons_of_mem _ hk)) (fun k hk => h2 k (List.mem_cons_of_mem _ hk)) t s' e2
    refine ⟨fun k' hk' => ?_, fun k' hk' => ?_⟩
    · rcases List.mem_cons.1 hk' with rfl | hk'
      · exact b _ (h1 _ List.mem_cons_self s t e1)
      · exact a k' hk'
    · by_cases e : k = k'
      · subst e; exact b _ (h1 _ List.mem_cons_self s t e1)
      · exact b _ (h2 k List.mem_cons_self k' e s t e1 hk')

theorem foldlM_keep {σ κ : Type} (f : σ → κ → Option σ) (I : σ → Prop) : ∀ (l : List κ), (∀ k ∈ l, ∀ s s', I s → f s k = some s' → I s') →
    ∀ s s', I s → l.foldlM f s = some s' → I s'
  | [], _, s, s', hI, e => by
    rw [List.foldlM_nil] at e
    cases Option.some.inj e
    exact hI
  | k :: l, h, s, s', hI, e => by
    rw [List.foldlM_cons] at e
    obtain ⟨t, e1, e2⟩ := Option.bind_eq_some_iff.1 e
    exact foldlM_keep f I l (fun k hk => h k (List.mem_cons_of_mem _ hk)) t s' (h k List.mem_cons_self s t hI e1) e2

theorem foldlM_total {σ κ : Type} (f : σ → κ → Option σ) : ∀ (l : List κ), (∀ k ∈ l, ∀ s, ∃ s', f s k = some s') → ∀ s, ∃ s', l.foldlM f s = some s'
  | [], _, s => ⟨s, rfl⟩
  | k :: l, h, s => by
    obtain ⟨t, e⟩ := h k List.mem_cons_self s
    obtain ⟨s', e'⟩ := foldlM_total f l (fun k hk => h k (List.mem_cons_of_mem _ hk)) t
    exact ⟨s', by rw [List.foldlM_cons, e, Option.bind_eq_bind, Option.bind_some]; exact e'⟩

/-! ### Refresh -/

theorem mem_raster (d : Dim) (p : Nat × Nat) : p ∈ raster d ↔ p.1 < d.rows ∧ p.2 < d.cols := by
  obtain ⟨r, c⟩ := p
  unfold raster
  simp only [List.mem_flatten, List.mem_map, List.mem_range]
  constructor
  · rintro ⟨l, ⟨r', hr, rfl⟩, h⟩
    simp only [List.mem_map, List.mem_range, Prod.mk.injEq] at h
    obtain ⟨c', hc, rfl, rfl⟩ := h
    exact ⟨hr, hc⟩
  · rintro ⟨hr, hc⟩
    exact ⟨_, ⟨r, hr, rfl⟩, List.mem_map.2 ⟨c, List.mem_range.2 hc, rfl⟩⟩

/-- What `putSample` stores. -/
def Holds (impl : LBSP.Impl) (lut : BitVec 8 → BitVec 8) (d : Dim) (img : HostImg) (row col s y x : Nat) (b : Buf) : Prop :=
  ∀ c < d.ch, b (hostColor d row col s c) = (img y x (srcChan d c)).setWidth 32 ∧
    b (hostDesc d row col s c) =
      (LBSP.threshold impl (nbs img y x c) (img y x (srcChan d c)) (lut (img y x (srcChan d c)))).setWidth 32

theorem putSample_ne (impl : LBSP.Impl) (lut : BitVec 8 → BitVec 8) (d : Dim) (img : HostImg) (row col s y x : Nat) (a : Nat)
    (h : ∀ c < d.ch, a ≠ hostColor d row col s c ∧ a ≠ hostDesc d row col s c) (b : Buf) : putSample impl lut d img row col s y x b a = b a := by
  unfold putSample
  have key : ∀ (l : List Nat), (∀ c ∈ l, c < d.ch) → ∀ b : Buf, (l.foldl (fun (b : Buf) (c : Nat) =>
      let ref := img y x (srcChan d c)
      Function.update (Function.update b (hostColor d row col s c) (ref.setWidth 32)) (hostDesc d row col s c)
        ((LBSP.threshold impl (nbs img y x c) ref (lut ref)).setWidth 32)) b) a = b a := by
    intro l
    induction l with
    | nil => intros; rfl
    | cons c l ih =>
      intro hl b
      obtain ⟨h1, h2⟩ := h c (hl c List.mem_cons_self)
      rw [List.foldl_cons, ih fun c hc => hl c (List.mem_cons_of_mem _ hc)]
      rw [Function.update_of_ne h2, Function.update_of_ne h1]
  exact key _ (fun c hc => List.mem_range.1 hc) b

theorem putSample_self (impl : LBSP.Impl) (lut : BitVec 8 → BitVec 8) (d : Dim) (hd : Supported d) (img : HostImg) (row col s y x : Nat)
    (hs : s < d.n) (b : Buf) : Holds impl lut d img row col s y x (putSample impl lut d img row col s y x b) := by
  have := (foldl_establish (fun (b : Buf) (c : Nat) =>
      let ref := img y x (srcChan d c)
      Function.update (Function.update b (hostColor d row col s c) (ref.setWidth 32)) (hostDesc d row col s c)
        ((LBSP.threshold impl (nbs img y x c) ref (lut ref)).setWidth 32))
    (fun c b => c < d.ch → b (hostColor d row col s c) = (img y x (srcChan d c)).setWidth 32 ∧
      b (hostDesc d row col s c) =
        (LBSP.threshold impl (nbs img y x c) (img y x (srcChan d c)) (lut (img y x (srcChan d c)))).setWidth 32)
    (List.range d.ch) ?_ ?_ b).1
  · intro c hc
    exact this c (List.mem_range.2 hc) hc
  · intro c _ b hc
    dsimp only
    refine ⟨?_, by rw [Function.update_self]⟩
    rw [Function.update_of_ne, Function.update_self]
    rw [← glColor_host d hd, ← glDesc_host d hd]
    exact glColor_ne_glDesc d hd _ _ _ _ _ _ hs hc hs hc
  · intro c hc c' hne b hb hc'
    have hc := List.mem_range.1 hc
    obtain ⟨h1, h2⟩ := hb hc'
    dsimp only
    rw [← glColor_host d hd, ← glColor_host d hd, ← glDesc_host d hd, ← glDesc_host d hd] at *
    rw [Function.update_of_ne, Function.update_of_ne, Function.update_of_ne, Function.update_of_ne]
    · exact ⟨h1, h2⟩
    · exact fun e => glColor_ne_glDesc d hd _ _ _ _ _ _ hs hc hs hc' e.symm
    · exact fun e => hne ((glDesc_inj d hd _ _ _ _ _ _ hs hc' hs hc e).2.2).symm
    · exact fun e => hne ((glColor_inj d hd _ _ _ _ _ _ hs hc' hs hc e).2.2).symm
    · exact glColor_ne_glDesc d hd _ _ _ _ _ _ hs hc' hs hc

/-- Storing a sample does not change another one. -/
theorem putSample_other (impl : LBSP.Impl) (lut : BitVec 8 → BitVec 8) (d : Dim) (hd : Supported d) (img : HostImg) (row col s y x row' col' s' : Nat)
    (hcol : col < d.cols) (hcol' : col' < d.cols) (hs : s < d.n) (hs' : s' < d.n) (hne : (row, col, s) ≠ (row', col', s')) (c : Nat)
    (hc : c < d.ch) (b : Buf) :
    putSample impl lut d img row col s y x b (hostColor d row' col' s' c) = b (hostColor d row' col' s' c) ∧
    putSample impl lut d img row col s y x b (hostDesc d row' col' s' c) = b (hostDesc d row' col' s' c) := by
  constructor
  · apply putSample_ne
    intro c1 hc1
    rw [← glColor_host d hd, ← glColor_host d hd, ← glDesc_host d hd]
    refine ⟨fun e => ?_, glColor_ne_glDesc d hd _ _ _ _ _ _ hs' hc hs hc1⟩
    obtain ⟨e1, e2, _⟩ := glColor_inj d hd _ _ _ _ _ _ hs' hc hs hc1 e
    have := idx_inj d _ _ hcol' hcol e1
    rw [Prod.mk.injEq] at this
    exact hne (by rw [this.1, this.2, e2])
  · apply putSample_ne
    intro c1 hc1
    rw [← glColor_host d hd, ← glDesc_host d hd, ← glDesc_host d hd]
    refine ⟨fun e => glColor_ne_glDesc d hd _ _ _ _ _ _ hs hc1 hs' hc e.symm, fun e => ?_⟩
    obtain ⟨e1, e2, _⟩ := glDesc_inj d hd _ _ _ _ _ _ hs' hc hs hc1 e
    have := idx_inj d _ _ hcol' hcol e1
    rw [Prod.mk.injEq] at this
    exact hne (by rw [this.1, this.2, e2])

/-- Sample `s` of a pixel holds what was found at some position `q` that the sampling can choose. -/
def Sampled (impl : LBSP.Impl) (lut : BitVec 8 → BitVec 8) (d : Dim) (img : HostImg) (ok : Nat × Nat → Prop) (row col s : Nat) (b : Buf) : Prop :=
  ∃ rnd : Nat, ∃ x y : Nat, Sampling.samplePosition7 rnd (col, row) 2 d.cols d.rows = ((x : Int), (y : Int)) ∧ ok (x, y) ∧
    Holds impl lut d img row col s y x b

theorem sampled_other (impl : LBSP.Impl) (lut : BitVec 8 → BitVec 8) (d : Dim) (hd : Supported d) (img : HostImg) (ok : Nat × Nat → Prop)
    (row col s y x row' col' s' : Nat) (hcol : col < d.cols) (hcol' : col' < d.cols) (hs : s < d.n) (hs' : s' < d.n)
    (hne : (row, col, s) ≠ (row', col', s')) (b : Buf) (h : Sampled impl lut d img ok row' col' s' b) :
    Sampled impl lut d img ok row' col' s' (putSample impl lut d img row col s y x b) := by
  obtain ⟨r, x', y', e, h1, h2⟩ := h
  refine ⟨r, x', y', e, h1, fun c hc => ?_⟩
  obtain ⟨e1, e2⟩ := putSample_other impl lut d hd img row col s y x row' col' s' hcol hcol' hs hs' hne c hc b
  rw [e1, e2]
  exact h2 c hc

theorem position_nat (d : Dim) (rnd : Nat) (row col : Nat) (hw : 4 < d.cols) (hh : 4 < d.rows) :
    ∃ x y : Nat, Sampling.samplePosition7 rnd (col, row) 2 d.cols d.rows = ((x : Int), (y : Int)) ∧ x < d.cols ∧ y < d.rows := by
  obtain ⟨⟨h1, h2, h3, h4⟩, _⟩ := Sampling.sample7_in_window rnd (col, row) 2 d.cols d.rows (by omega) (by omega)
  refine ⟨(Sampling.samplePosition7 rnd (col, row) 2 d.cols d.rows).1.toNat, (Sampling.samplePosition7 rnd (col, row) 2 d.cols d.rows).2.toNat,
    ?_, by omega, by omega⟩
  ext <;> dsimp only <;> omega

/-- The effect of one sample of the refresh. -/
theorem refreshSample_cases (impl : LBSP.Impl) (lut : BitVec 8 → BitVec 8) (d : Dim) (img : HostImg) (fg : List (BitVec 8)) (force : Bool)
    (rnd : Nat → Nat) (row col s : Nat) (hw : 4 < d.cols) (hh : 4 < d.rows) (st st' : Buf × Nat)
    (e : refreshSample impl lut d img fg force rnd row col s st = some st') :
    (st'.1 = st.1 ∧ force = false) ∨ ∃ r x y : Nat, Sampling.samplePosition7 r (col, row) 2 d.cols d.rows = ((x : Int), (y : Int)) ∧
      (force = true ∨ fg[x + y * d.cols]? = some 0) ∧ st'.1 = putSample impl lut d img row col (s % d.n) y x st.1 := by
  unfold refreshSample unmasked at e
  obtain ⟨x, y, e1, hx, hy⟩ := position_nat d (rnd st.2) row col hw hh
  rw [show ((5 / 2 : Nat) : Int) = 2 from rfl, e1] at e
  simp only [Int.toNat_natCast] at e
  cases force with
  | true =>
    simp only [if_true, Option.map_some] at e
    cases Option.some.inj e
    exact Or.inr ⟨rnd st.2, x, y, e1, Or.inl rfl, rfl⟩
  | false =>
    simp only [Bool.false_eq_true, if_false, Option.map_map] at e
    obtain ⟨v, e2, e3⟩ := Option.map_eq_some_iff.1 e
    by_cases hv : v = 0
    · subst hv
      right
      refine ⟨rnd st.2, x, y, e1, Or.inr e2, ?_⟩
      rw [← e3]; rfl
    · left
      refine ⟨?_, rfl⟩
      rw [← e3]
      have : (v == 0) = false := by simpa using hv
      simp only [Function.comp, this, Bool.false_eq_true, if_false]

theorem refreshPixel_true (impl : LBSP.Impl) (lut : BitVec 8 → BitVec 8) (d : Dim) (img : HostImg) (fg : List (BitVec 8)) (force : Bool)
    (rnd : Nat → Nat) (start cnt : Nat) (st st' : Buf × Nat) (p : Nat × Nat)
    (e : refreshPixel impl lut d img fg force rnd start cnt st p = some st') :
    (st' = st ∧ force = false) ∨ ((force = true ∨ fg[p.2 + p.1 * d.rows]? = some 0) ∧
      (List.range cnt).foldlM (fun st (i : Nat) => refreshSample impl lut d img fg force rnd p.1 p.2 (start + i) st) st = some st') := by
  unfold refreshPixel at e
  split at e
  · exact absurd e (by simp)
  · rename_i h
    cases Option.some.inj e
    refine Or.inl ⟨rfl, ?_⟩
    unfold unmasked at h
    cases force
    · rfl
    · simp at h
  · rename_i h
    refine Or.inr ⟨?_, e⟩
    unfold unmasked at h
    cases force
    · simp only [Bool.false_eq_true, if_false] at h
      obtain ⟨v, h1, h2⟩ := Option.map_eq_some_iff.1 h
      right
      rw [h1]
      simpa using h2
    · exact Or.inl rfl

theorem refresh_all (impl : LBSP.Impl) (lut : BitVec 8 → BitVec 8) (d : Dim) (hd : Supported d) (img : HostImg) (fg : List (BitVec 8))
    (rnd : Nat → Nat) (hw : 4 < d.cols) (hh : 4 < d.rows) (b b' : Buf) (e : refresh impl lut d img fg true rnd none b = some b') (row col s : Nat)
    (hr : row < d.rows) (hc : col < d.cols) (hs : s < d.n) : Sampled impl lut d img (fun _ => True) row col s b' := by
  unfold refresh at e
  dsimp only at e
  obtain ⟨st', e1, rfl⟩ := Option.map_eq_some_iff.1 e
  have := (foldlM_establish (refreshPixel impl lut d img fg true rnd 0 d.n)
    (fun p st => p.2 < d.cols → ∀ s < d.n, Sampled impl lut d img (fun _ => True) p.1 p.2 s st.1) (raster d) ?_ ?_ _ _ e1).1
  · exact this (row, col) ((mem_raster d _).2 ⟨hr, hc⟩) hc s hs
  · intro p hp st st' e _ s hs
    have hpc := ((mem_raster d p).1 hp).2
    obtain ⟨_, h⟩ | ⟨_, e⟩ := refreshPixel_true _ _ _ _ _ _ _ _ _ _ _ _ e
    · exact absurd h (by decide)
    · refine (foldlM_establish _ (fun i st => i < d.n → Sampled impl lut d img (fun _ => True) p.1 p.2 i st.1) _ ?_ ?_ _ _ e).1 s
        (List.mem_range.2 hs) hs
      · intro i _ st st' e hi
        obtain ⟨_, h⟩ | ⟨r, x, y, e1, _, e2⟩ := refreshSample_cases _ _ _ _ _ _ _ _ _ _ hw hh _ _ e
        · exact absurd h (by decide)
        · rw [e2, Nat.zero_add, Nat.mod_eq_of_lt hi]
          exact ⟨r, x, y, e1, trivial, putSample_self impl lut d hd img _ _ _ _ _ hi _⟩
      · intro i hi i' hne st st' e h hi'
        obtain ⟨_, h⟩ | ⟨r, x, y, e1, _, e2⟩ := refreshSample_cases _ _ _ _ _ _ _ _ _ _ hw hh _ _ e
        · exact absurd h (by decide)
        · have hi := List.mem_range.1 hi
          rw [e2, Nat.zero_add, Nat.mod_eq_of_lt hi]
          exact sampled_other impl lut d hd img _ _ _ _ _ _ _ _ _ hpc hpc hi hi' (fun e => hne (by simpa using e)) _ (h hi')
  · intro p hp p' hne st st' e h hp' s hs
    have hpc := ((mem_raster d p).1 hp).2
    obtain ⟨_, h⟩ | ⟨_, e⟩ := refreshPixel_true _ _ _ _ _ _ _ _ _ _ _ _ e
    · exact absurd h (by decide)
    · refine foldlM_keep _ (fun st : Buf × Nat => ∀ s < d.n, Sampled impl lut d img (fun _ => True) p'.1 p'.2 s st.1) _ ?_ _ _ (h hp') e s hs
      intro i _ st st' h e s hs
      obtain ⟨_, h⟩ | ⟨r, x, y, e1, _, e2⟩ := refreshSample_cases _ _ _ _ _ _ _ _ _ _ hw hh _ _ e
      · exact absurd h (by decide)
      · rw [e2]
        refine sampled_other impl lut d hd img _ _ _ _ _ _ _ _ _ hpc hp' (Nat.mod_lt _ hd.2) hs (fun e => hne ?_) _ (h s hs)
        simp only [Prod.mk.injEq] at e
        exact Prod.ext e.1 e.2.1

/-- What holds during a refresh for each sample. -/
def RefreshInv (impl : LBSP.Impl) (lut : BitVec 8 → BitVec 8) (d : Dim) (img : HostImg) (fg : List (BitVec 8)) (force : Bool) (b : Buf)
    (st : Buf × Nat) : Prop := ∀ row col s, row < d.rows → col < d.cols → s < d.n →
  (∀ c < d.ch, st.1 (hostColor d row col s c) = b (hostColor d row col s c) ∧ st.1 (hostDesc d row col s c) = b (hostDesc d row col s c)) ∨
  ((force = true ∨ fg[row * d.cols + col]? = some 0) ∧
    Sampled impl lut d img (fun q => force = true ∨ fg[q.2 * d.cols + q.1]? = some 0) row col s st.1)

/-- Each sample keeps its contents, or is taken from an unmasked position for an unmasked pixel. -/
theorem refresh_some (impl : LBSP.Impl) (lut : BitVec 8 → BitVec 8) (d : Dim) (hd : Supported d) (img : HostImg) (fg : List (BitVec 8)) (force : Bool)
    (rnd : Nat → Nat) (frac : Option Nat) (hw : 4 < d.cols) (hh : 4 < d.rows) (hsq : force = true ∨ d.rows = d.cols) (b b' : Buf)
    (e : refresh impl lut d img fg force rnd frac b = some b') (row col s : Nat) (hr : row < d.rows) (hc : col < d.cols) (hs : s < d.n) :
    (∀ c < d.ch, b' (hostColor d row col s c) = b (hostColor d row col s c) ∧ b' (hostDesc d row col s c) = b (hostDesc d row col s c)) ∨
    ((force = true ∨ fg[row * d.cols + col]? = some 0) ∧
      Sampled impl lut d img (fun q => force = true ∨ fg[q.2 * d.cols + q.1]? = some 0) row col s b') := by
  have main : ∀ start cnt k st', (raster d).foldlM (refreshPixel impl lut d img fg force rnd start cnt) (b, k) = some st' →
      ∀ row col s, row < d.rows → col < d.cols → s < d.n →
      (∀ c < d.ch, st'.1 (hostColor d row col s c) = b (hostColor d row col s c) ∧ st'.1 (hostDesc d row col s c) = b (hostDesc d row col s c)) ∨
      ((force = true ∨ fg[row * d.cols + col]? = some 0) ∧
        Sampled impl lut d img (fun q => force = true ∨ fg[q.2 * d.cols + q.1]? = some 0) row col s st'.1) := by
    intro start cnt k st' e
    refine foldlM_keep _ (RefreshInv impl lut d img fg force b) _ ?_ _ _ ?_ e
    · intro p hp st st' hI e
      have hpc := ((mem_raster d p).1 hp).2
      obtain ⟨rfl, _⟩ | ⟨hm, e⟩ := refreshPixel_true _ _ _ _ _ _ _ _ _ _ _ _ e
      · exact hI
      · refine foldlM_keep _ (RefreshInv impl lut d img fg force b) _ ?_ _ _ hI e
        intro i _ st st' hI e row col s hr hc hs
        obtain ⟨e2, _⟩ | ⟨r, x, y, e1, hq, e2⟩ := refreshSample_cases _ _ _ _ _ _ _ _ _ _ hw hh _ _ e
        · rw [e2]; exact hI row col s hr hc hs
        · rw [e2]
          by_cases heq : (p.1, p.2, (start + i) % d.n) = (row, col, s)
          · right
            simp only [Prod.mk.injEq] at heq
            obtain ⟨rfl, rfl, rfl⟩ := heq
            refine ⟨?_, r, x, y, e1, ?_, putSample_self impl lut d hd img _ _ _ _ _ hs _⟩
            · rcases hm with hm | hm
              · exact Or.inl hm
              · rcases hsq with h | h
                · exact Or.inl h
                · rw [h, Nat.add_comm] at hm; exact Or.inr hm
            · exact hq.imp id fun h => by rw [Nat.add_comm]; exact h
          · refine (hI row col s hr hc hs).imp (fun h c hc' => ?_) fun h => ⟨h.1, ?_⟩
            · obtain ⟨h1, h2⟩ := putSample_other impl lut d hd img _ _ _ y x row col s hpc hc (Nat.mod_lt _ hd.2) hs heq c hc' st.1
              rw [h1, h2]; exact h c hc'
            · exact sampled_other impl lut d hd img _ _ _ _ y x row col s hpc hc (Nat.mod_lt _ hd.2) hs heq _ h.2
    · intro row col s _ _ _
      exact Or.inl fun c _ => ⟨rfl, rfl⟩
  unfold refresh at e
  split at e
  rename_i start cnt k _
  obtain ⟨st', e1, rfl⟩ := Option.map_eq_some_iff.1 e
  exact main start cnt k st' e1 row col s hr hc hs

theorem refresh_total (impl : LBSP.Impl) (lut : BitVec 8 → BitVec 8) (d : Dim) (img : HostImg) (fg : List (BitVec 8)) (force : Bool)
    (rnd : Nat → Nat) (frac : Option Nat) (hw : 4 < d.cols) (hh : 4 < d.rows) (hsq : force = true ∨ (d.rows ≤ d.cols ∧ fg.length = d.cols * d.rows))
    (b : Buf) : ∃ b', refresh impl lut d img fg force rnd frac b = some b' := by
  have get : ∀ a, (force = true ∨ a < fg.length) → ∃ v, unmasked force fg a = some v := by
    intro a h
    unfold unmasked
    cases force
    · rcases h with h | h
      · exact absurd h (by decide)
      · rw [List.getElem?_eq_getElem h]; exact ⟨_, rfl⟩
    · exact ⟨true, rfl⟩
  have main : ∀ start cnt st, ∃ st', (raster d).foldlM (refreshPixel impl lut d img fg force rnd start cnt) st = some st' := by
    intro start cnt st
    refine foldlM_total _ _ (fun p hp st => ?_) st
    obtain ⟨hr, hc⟩ := (mem_raster d p).1 hp
    obtain ⟨v, hv⟩ := get (p.2 + p.1 * d.rows) (hsq.imp id fun ⟨h1, h2⟩ => by
      rw [h2]
      have : (p.1 + 1) * d.rows ≤ d.rows * d.rows := Nat.mul_le_mul_right _ hr
      have h3 : d.rows * d.rows + (d.cols - d.rows) * d.rows = d.cols * d.rows := by rw [← Nat.add_mul]; congr 1; omega
      have h4 : d.cols - d.rows ≤ (d.cols - d.rows) * d.rows := Nat.le_mul_of_pos_right _ (by omega)
      rw [Nat.add_mul] at this
      omega)
    unfold refreshPixel
    rw [hv]
    cases v
    · exact ⟨st, rfl⟩
    · refine foldlM_total _ _ (fun i _ st => ?_) st
      obtain ⟨x, y, e1, hx, hy⟩ := position_nat d (rnd st.2) p.1 p.2 hw hh
      unfold refreshSample
      rw [show ((5 / 2 : Nat) : Int) = 2 from rfl, e1]
      simp only [Int.toNat_natCast]
      obtain ⟨v, hv⟩ := get (x + y * d.cols) (hsq.imp id fun ⟨h1, h2⟩ => by
        rw [h2]
        have := idx_lt d (x, y) hx hy
        unfold idxOf at this
        dsimp only at this
        omega)
      rw [hv]
      exact ⟨_, rfl⟩
  unfold refresh
  split
  rename_i start cnt k _
  obtain ⟨st', e⟩ := main start cnt (b, k)
  rw [e]
  exact ⟨_, rfl⟩

theorem pattern_host (impl : LBSP.Impl) (img : HostImg) (y x c : Nat) (ref t : BitVec 8) :
    IsPattern (fun dx dy => img ((y : Int) + dy).toNat ((x : Int) + dx).toNat c) ref t ((LBSP.threshold impl (nbs img y x c) ref t).setWidth 32) := by
  have := (LBSP.glsl_agrees impl (fun dx dy => img ((y : Int) + dy).toNat ((x : Int) + dx).toNat c) ref t).1
  unfold nbs
  rw [← this]
  exact pattern_glsl _ _ _

/-- The program ends after at most that many actions, whatever it reads. -/
def Within : Nat → Prog → Prop
  | _, .out _ => True
  | 0, .read _ _ => False
  | 0, .write _ _ _ => False
  | m + 1, .read _ k => ∀ v, Within m (k v)
  | m + 1, .write _ _ k => Within m k

theorem Within.mono {m m' : Nat} (h : m ≤ m') : ∀ {p : Prog}, Within m p → Within m' p := by
  induction m generalizing m' with
  | zero => intro p hp; cases p <;> first | exact (by cases m' <;> trivial) | exact hp.elim
  | succ m ih =>
    intro p hp
    obtain ⟨k, rfl⟩ : ∃ k, m' = k + 1 := ⟨m' - 1, by omega⟩
    cases p with
    | read a k' => exact fun v => ih (by omega) (hp v)
    | write a v k' => exact ih (m' := k) (by omega) (p := k') hp
    | out r => trivial

theorem within_readVec (t : Nat) : ∀ (m a : Nat) (k : List W → Prog), (∀ l, Within t (k l)) → Within (m + t) (readVec m a k)
  | 0, a, k, h => by rw [Nat.zero_add]; exact h []
  | m + 1, a, k, h => by
    rw [show m + 1 + t = (m + t) + 1 by omega]
    exact fun v => within_readVec t m (a + 1) _ fun l => h (v :: l)

theorem within_writeVec (t : Nat) : ∀ (l : List W) (a : Nat) (k : Prog), Within t k → Within (l.length + t) (writeVec l a k)
  | [], a, k, h => by simpa [writeVec] using h
  | v :: l, a, k, h => by
    rw [show (v :: l).length + t = (l.length + t) + 1 by simp; omega]
    exact within_writeVec t l (a + 1) k h

theorem within_scan (t : Nat) (g : Cfg) (inp : GlImg) (p : Nat × Nat) (idx : Nat) (k : Nat → Prog) (hk : ∀ good, Within t (k good)) :
    ∀ m s good, Within (m * (comps g.d + comps g.d) + t) (scan g inp p idx m s good k)
  | 0, _, good => by simpa [scan] using hk good
  | m + 1, s, good => by
    rw [show (m + 1) * (comps g.d + comps g.d) + t = comps g.d + (comps g.d + (m * (comps g.d + comps g.d) + t)) by ring]
    refine within_readVec _ _ _ _ fun col => within_readVec _ _ _ _ fun desc => ?_
    dsimp only
    by_cases h : (if matchesSample g inp p col desc then good + 1 else good) ≥ g.req
    · rw [if_pos h]; exact (hk _).mono (by omega)
    · rw [if_neg h]; exact within_scan t g inp p idx k hk m (s + 1) _

theorem within_resample (t : Nat) (g : Cfg) (h : Supported g.d) (inp : GlImg) (p : Nat × Nat) (idx : Nat) (r1 r2 : W) (k : Prog) (hk : Within t k) :
    Within (g.d.ch + (g.d.ch + t)) (resample g inp p idx r1 r2 k) := by
  have := within_writeVec _ (colorWords g.d inp p) (glColor g.d idx (r1.toNat % g.d.n) 0) _
    (within_writeVec _ (descWords g inp p) (glDesc g.d idx (r2.toNat % g.d.n) 0) k hk)
  rwa [(colorWords_get g.d h inp p).1, (descWords_get g h inp p).1] at this

theorem within_out (m r : Nat) : Within m (.out r) := by cases m <;> trivial

theorem within_invocation (g : Cfg) (h : Supported g.d) (inp : GlImg) (roi : Int → Int → BitVec 8) (rnd : Nat → W) (p : Nat × Nat) :
    Within (g.d.n * (comps g.d + comps g.d) + (g.d.ch + (g.d.ch + (g.d.ch + (g.d.ch + 0))))) (invocation g inp roi rnd p) := by
  have hs : ∀ k, Within (g.d.ch + (g.d.ch + 0)) (spread g inp rnd p k) := by
    intro k
    unfold spread
    split
    · exact within_resample 0 g h inp p _ _ _ _ (within_out _ _)
    · exact within_out _ _
  unfold invocation
  split
  · exact within_out _ _
  · refine within_scan _ g inp p _ _ (fun good => ?_) _ _ _
    split
    · exact within_out _ _
    · split
      · exact within_resample _ g h inp p _ _ _ _ (hs 3)
      · exact (hs 1).mono (by omega)

theorem run_within (p : Nat × Nat) : ∀ (sched : List (Nat × Nat)) (s : Sys) (m : Nat), Within m (s.pc p) →
    Within (m - sched.count p) ((sched.foldl step s).pc p)
  | [], s, m, h => by simpa using h
  | i :: sched, s, m, h => by
    rw [List.foldl_cons]
    by_cases hi : i = p
    · subst hi
      have h1 : Within (m - 1) ((step s i).pc i) := by
        unfold step
        split
        · rename_i a k e
          rw [e] at h
          dsimp only
          rw [Function.update_self]
          rcases m with _ | m
          · exact h.elim
          · exact h _
        · rename_i a v k e
          rw [e] at h
          dsimp only
          rw [Function.update_self]
          rcases m with _ | m
          · exact h.elim
          · exact h
        · rename_i r e
          rw [e]
          exact within_out _ _
      have := run_within i sched _ _ h1
      rw [List.count_cons_self]
      rwa [show m - (sched.count i + 1) = m - 1 - sched.count i by omega]
    · have h1 : (step s i).pc p = s.pc p := by
        unfold step
        split
        · dsimp only; rw [Function.update_of_ne (Ne.symm hi)]
        · dsimp only; rw [Function.update_of_ne (Ne.symm hi)]
        · rfl
      rw [List.count_cons_of_ne hi]
      exact run_within p sched _ m (by rw [h1]; exact h)

end Litiv.GLLobster
