import Verif.Model.CosegmPush
import Verif.Spec.CosegmPush

/-!
# Lemmas about the delayed results
-/

namespace Litiv.CosegmPush

theorem each_self (a : Nat) : each a a = [] := by simp [each]

theorem each_succ (a b : Nat) (h : a ≤ b) : each a b ++ [(b, b)] = each a (b + 1) := by
  unfold each
  have e : b + 1 - a = (b - a) + 1 := by omega
  have e2 : a + (b - a) = b := by omega
  rw [e, List.range'_concat]
  simp [e2]

/-- What holds before a frame, after the reset. -/
structure Pre (d start cur : Nat) (s : St) : Prop where
  lo : start ≤ s.last
  hi : s.last ≤ cur
  layers : s.layers = (List.range (min (cur - s.last) (d + 1))).map fun k => cur - 1 - k
  out : s.out = each start (max s.last (cur - d))

/-- What holds between two frames. -/
def Good (brk : Nat → Bool) (d start cur : Nat) (s : St) : Prop :=
  start ≤ cur ∧ (brk cur = true → s.out = each start cur) ∧ (brk cur = false → Pre d start cur s)

theorem good_reset (brk : Nat → Bool) (d start cur : Nat) (s : St) (h : Good brk d start cur s) :
    Pre d start cur (reset brk cur s) := by
  obtain ⟨h0, h1, h2⟩ := h
  unfold reset
  cases hb : brk cur with
  | true =>
    refine ⟨h0, Nat.le_refl _, by simp, ?_⟩
    simp only [if_true]
    rw [h1 hb, Nat.max_eq_left (by omega)]
  | false => simpa using h2 hb

theorem process_layers (d start cur : Nat) (s : St) (h : Pre d start cur s) :
    (process d cur s).layers = (List.range (min (cur - s.last) d + 1)).map fun k => cur - k := by
  unfold process
  dsimp only
  rw [h.layers]
  apply List.ext_getElem?
  intro k
  cases k with
  | zero => simp
  | succ k =>
    simp only [List.take_succ_cons, List.getElem?_cons_succ, List.getElem?_take, List.getElem?_map, List.getElem?_range]
    by_cases hk : k < min (cur - s.last) d
    · have a : k < d := by omega
      have b : k < min (cur - s.last) (d + 1) := by omega
      have c : k + 1 < min (cur - s.last) d + 1 := by omega
      simp [a, List.getElem?_range b, List.getElem?_range c]
      omega
    · have c : ¬ k + 1 < min (cur - s.last) d + 1 := by omega
      have c' : (List.range (min (cur - s.last) d + 1))[k + 1]? = none := by
        simp only [List.getElem?_eq_none_iff, List.length_range]; omega
      rw [c']
      by_cases a : k < d
      · have b' : (List.range (min (cur - s.last) (d + 1)))[k]? = none := by
          simp only [List.getElem?_eq_none_iff, List.length_range]; omega
        simp [a, b']
      · simp [a]

theorem catchUp_all (start cur : Nat) : ∀ (n : Nat) (s : St), (∀ k < n, s.layers[k]? = some (cur - k)) → n ≤ cur + 1 →
    start ≤ cur + 1 - n → s.out = each start (cur + 1 - n) →
    catchUp cur n s = some { s with out := each start (cur + 1) }
  | 0, s, _, _, _, ho => by
    unfold catchUp
    rw [Nat.sub_zero] at ho
    rw [← ho]
  | n + 1, s, hl, hn, hs, ho => by
    unfold catchUp pushLayer
    rw [hl n (by omega)]
    dsimp only [Option.bind_some]
    have e : cur + 1 - (n + 1) = cur - n := by omega
    rw [e] at ho hs
    have ho' : s.out ++ [(cur - n, cur - n)] = each start (cur + 1 - n) := by
      rw [ho, each_succ _ _ hs]
      congr 1
      omega
    exact catchUp_all start cur n { s with out := s.out ++ [(cur - n, cur - n)] } (fun k hk => hl k (by omega)) (by omega)
      (by omega) ho'

theorem frame_good (brk : Nat → Bool) (d start cur : Nat) (s : St) (h : Good brk d start cur s) :
    ∃ s', frame brk d cur s = some s' ∧ Good brk d start (cur + 1) s' := by
  have hp := good_reset brk d start cur s h
  have h0 := h.1
  unfold frame
  generalize reset brk cur s = r at hp
  have hl := process_layers d start cur r hp
  have hlast : (process d cur r).last = r.last := rfl
  have hout : (process d cur r).out = r.out := rfl
  have lo := hp.lo
  have hi := hp.hi
  have ho := hp.out
  generalize process d cur r = t at hl hlast hout
  have hget : ∀ k < min (cur - r.last) d + 1, t.layers[k]? = some (cur - k) := by
    intro k hk
    rw [hl, List.getElem?_map, List.getElem?_range hk]
    rfl
  unfold pushes
  rw [hlast]
  cases hb : brk (cur + 1) with
  | true =>
    rw [if_pos rfl]
    refine ⟨_, catchUp_all start cur _ t hget (by omega) (by omega) ?_, by omega, fun _ => rfl, fun hf => ?_⟩
    · rw [hout, ho]
      congr 1
      omega
    · rw [hb] at hf
      simp at hf
  | false =>
    rw [if_neg (by simp)]
    have hlay : t.layers = (List.range (min (cur + 1 - r.last) (d + 1))).map fun k => cur + 1 - 1 - k := by
      rw [hl]
      have e : min (cur + 1 - r.last) (d + 1) = min (cur - r.last) d + 1 := by omega
      rw [e]
      rfl
    by_cases hd : cur - r.last ≥ d
    · rw [if_pos hd]
      unfold pushLayer
      rw [hget d (by omega)]
      refine ⟨_, rfl, by omega, fun hf => ?_, fun _ => ⟨?_, ?_, ?_, ?_⟩⟩
      · rw [hb] at hf
        simp at hf
      · dsimp only; omega
      · dsimp only; omega
      · dsimp only; rw [hlast]; exact hlay
      · dsimp only
        rw [hout, ho, hlast]
        have e1 : max r.last (cur - d) = cur - d := by omega
        have e2 : max r.last (cur + 1 - d) = cur - d + 1 := by omega
        rw [e1, e2]
        exact each_succ _ _ (by omega)
    · rw [if_neg hd]
      refine ⟨_, rfl, by omega, fun hf => ?_, fun _ => ⟨?_, ?_, ?_, ?_⟩⟩
      · rw [hb] at hf
        simp at hf
      · omega
      · omega
      · rw [hlast]; exact hlay
      · rw [hout, ho, hlast]
        congr 1
        omega

theorem loop_good (brk : Nat → Bool) (d start : Nat) : ∀ (n cur : Nat) (s : St), Good brk d start cur s →
    ∃ s', loop brk d n cur s = some s' ∧ Good brk d start (cur + n) s'
  | 0, _, s, h => ⟨s, rfl, h⟩
  | n + 1, cur, s, h => by
    obtain ⟨t, ht, hg⟩ := frame_good brk d start cur s h
    obtain ⟨u, hu, hk⟩ := loop_good brk d start n (cur + 1) t hg
    refine ⟨u, ?_, ?_⟩
    · unfold loop
      rw [ht]
      exact hu
    · have e : cur + (n + 1) = cur + 1 + n := by omega
      rw [e]
      exact hk

theorem good_init (brk : Nat → Bool) (d start : Nat) : Good brk d start start ⟨start, [], []⟩ := by
  refine ⟨Nat.le_refl _, fun _ => (each_self _).symm, fun _ => ⟨Nat.le_refl _, Nat.le_refl _, by simp, ?_⟩⟩
  dsimp only
  rw [Nat.max_eq_left (by omega), each_self]

theorem batch_good (brk : Nat → Bool) (d start total : Nat) (h : start ≤ total) :
    ∃ s, batch brk d start total = some s ∧ Good brk d start total s := by
  obtain ⟨s, hs, hg⟩ := loop_good brk d start (total - start) start _ (good_init brk d start)
  refine ⟨s, hs, ?_⟩
  have e : start + (total - start) = total := by omega
  rwa [e] at hg

/-- A frame that neither starts a window nor ends one keeps the start of the window. -/
theorem frame_last (brk : Nat → Bool) (d cur : Nat) (s t : St) (h1 : brk (cur + 1) = false)
    (h : frame brk d cur s = some t) : t.last = (reset brk cur s).last := by
  unfold frame pushes at h
  rw [if_neg (by simp [h1])] at h
  split at h
  · unfold pushLayer at h
    split at h
    · simp at h
    · obtain rfl := Option.some.inj h
      rfl
  · obtain rfl := Option.some.inj h
    rfl

/-- Without a break the window that contains the first frame goes on. -/
theorem loop_last (brk : Nat → Bool) (d : Nat) : ∀ (n cur : Nat) (s s' : St),
    (∀ i, cur ≤ i → i ≤ cur + n → brk i = false) → loop brk d n cur s = some s' → s'.last = s.last
  | 0, _, s, s', _, h => by
    unfold loop at h
    obtain rfl := Option.some.inj h
    rfl
  | n + 1, cur, s, s', hb, h => by
    unfold loop at h
    obtain ⟨t, ht, hl⟩ := Option.bind_eq_some_iff.mp h
    rw [loop_last brk d n (cur + 1) t s' (fun i h1 h2 => hb i (by omega) (by omega)) hl,
      frame_last brk d cur s t (hb (cur + 1) (by omega) (by omega)) ht]
    unfold reset
    rw [if_neg (by simp [hb cur (Nat.le_refl _) (by omega)])]

end Litiv.CosegmPush
