import Verif.Lemmas.PawcsBg
import Verif.Props.Pawcs

/-!
# Properties of the background image of PAWCS
-/

namespace Litiv.PawcsFeed
open IEEE Consensus Consensus.Spec Pawcs Pawcs.Spec

variable {F : Type}

/-! ## C132: the background image shows observed features -/

/-- C132 (part): after every history of frames and of refreshes that create words with at least one occurrence (and clear the counts only if they
resample everywhere), the background image is defined at every pixel; outside of the region of interest it is zero; inside, any interval that contains the values of
all features known near the pixel contains its value. `val` selects the channel of the colour (8 bits) or of the descriptor (16 bits). The number of words is
limited by the rounding of the sums: (2n+3) 2^(bits+1) < 2^24. Missing: refreshes with no occurrences (resets while the camera moves) and refreshes that clear all counts and skip
foreground (mode switches): see `pawcs_background_refuted`. -/
theorem pawcs_background_partial {c : Cfg} {ng : Nat} (zero : F) {px : List (Nat × Nat)} (S : Setup c ng px) (rnd : Nat → Nat) (r : Refresh F)
    (ops : List (Op F)) (hops : ∀ f, Op.frame f ∈ ops → Callable f) (hr : ∀ r, Op.refresh r ∈ ops → 1 ≤ r.base ∧ (r.frac < 1 ∨ r.force = true))
    (m : Mdl F) (t : Nat) (e : session float32 c ng zero rnd px r ops = some (m, t))
    (off : Nat) (hoff : 0 < off) (bits : Nat) (hsmall : (2 * c.n + 3) * 2 ^ (bits + 1) < 2 ^ 24) (val : F → Nat) (y x : Nat) :
    ∃ v, bgPixel float32 bits c px t off val m y x = some v ∧ ((y, x) ∉ px → v = 0) ∧
      ((y, x) ∈ px → ∀ lo hi, hi < 2 ^ bits → (∀ f, Known c px r ops (y, x) f → lo ≤ val f ∧ val f ≤ hi) → lo ≤ v ∧ v ≤ hi) := by
  unfold bgPixel
  cases hp : px.idxOf? (y, x) with
  | none =>
    exact ⟨0, rfl, fun _ => rfl, fun h => absurd h (List.idxOf?_eq_none_iff.1 hp)⟩
  | some p =>
    dsimp only
    have hpq : px[p]? = some (y, x) := by
      obtain ⟨h1, h2, -⟩ := List.findIdx?_eq_some_iff_getElem.1 hp
      rw [List.getElem?_eq_getElem h1, beq_iff_eq.1 h2]
    have hpl : p < px.length := (List.getElem?_eq_some_iff.1 hpq).1
    obtain ⟨-, hw⟩ := session_words float32 zero S rnd r ops hops m t e
    obtain ⟨-, hany⟩ := session_any float32_rounds zero S rnd r ops hops hr m t e
    obtain ⟨i0, hi0, w0, hw0, ho0⟩ := hany p hpl
    obtain ⟨ws, h1, h2, h3, h4⟩ := bgSums_run t off val (wordAt c m p) c.n fun i hi => by
      obtain ⟨w, h, -⟩ := hw p _ hpq i hi
      exact ⟨w, h⟩
    have hlen : (ws.map fun w => ((val w.feat : ℚ), weight float32 t off w)).length = c.n := by rw [List.length_map, h1]
    have hpos : ∃ e ∈ ws.map fun w => ((val w.feat : ℚ), weight float32 t off w), 0 < e.2 :=
      ⟨_, List.mem_map.2 ⟨w0, h3 i0 hi0 w0 hw0, rfl⟩, (weight_pos t off hoff w0).2 ho0⟩
    have key : ∀ lo hi : Nat, hi < 2 ^ bits → (∀ w ∈ ws, lo ≤ val w.feat ∧ val w.feat ≤ hi) → 0 < (run (ws.map fun w => ((val w.feat : ℚ), weight float32 t off w))).2 ∧
        lo ≤ BgImage.convert bits (float32 ((run (ws.map fun w => ((val w.feat : ℚ), weight float32 t off w))).1 / (run (ws.map fun w => ((val w.feat : ℚ), weight float32 t off w))).2)) ∧
        BgImage.convert bits (float32 ((run (ws.map fun w => ((val w.feat : ℚ), weight float32 t off w))).1 / (run (ws.map fun w => ((val w.feat : ℚ), weight float32 t off w))).2)) ≤ hi := by
      intro lo hi hb hv
      refine run_quotient bits _ lo hi ?_ (by omega) hpos (by rw [hlen]; exact hsmall)
      intro d hd
      obtain ⟨w, hwm, rfl⟩ := List.mem_map.1 hd
      exact ⟨Nat.cast_le.2 (hv w hwm).1, Nat.cast_le.2 (hv w hwm).2, (weight_pos t off hoff w).1⟩
    have hn1 : ((c.n : ℚ) + 1) / 2 ^ 24 < 1 := by
      have h1 : (1 : ℚ) ≤ 2 ^ (bits + 1) := one_le_pow₀ (by norm_num)
      have h2 : (2 * (c.n : ℚ) + 3) * 2 ^ (bits + 1) < 2 ^ 24 := by exact_mod_cast hsmall
      have h3 : (0 : ℚ) ≤ c.n := Nat.cast_nonneg _
      rw [div_lt_one (by norm_num)]
      nlinarith
    have hW : 0 < (run (ws.map fun w => ((val w.feat : ℚ), weight float32 t off w))).2 := by
      obtain ⟨-, b1, -, -⟩ := run_spec (ws.map fun w => ((val w.feat : ℚ), weight float32 t off w)) (by
        intro d hd
        obtain ⟨w, hwm, rfl⟩ := List.mem_map.1 hd
        exact ⟨Nat.cast_nonneg _, (weight_pos t off hoff w).1⟩) (by
          rw [hlen]; exact hn1)
      refine lt_of_lt_of_le (mul_pos ?_ ?_) b1
      · rw [hlen, sub_pos]; exact hn1
      · obtain ⟨d, hd, hd0⟩ := hpos
        refine lt_of_lt_of_le hd0 (List.single_le_sum ?_ _ (List.mem_map.2 ⟨d, hd, rfl⟩))
        intro q hq
        obtain ⟨d, hd, rfl⟩ := List.mem_map.1 hq
        obtain ⟨w, hwm, rfl⟩ := List.mem_map.1 hd
        exact (weight_pos t off hoff w).1
    refine ⟨BgImage.convert bits (float32 ((run (ws.map fun w => ((val w.feat : ℚ), weight float32 t off w))).1 / (run (ws.map fun w => ((val w.feat : ℚ), weight float32 t off w))).2)), ?_, ?_, ?_⟩
    · unfold bgValue
      have h4' : bgSums float32 t off val (fun i => (m.loc.addr (p * c.n + i)).map m.loc.mem) c.n =
          some (run (ws.map fun w => ((val w.feat : ℚ), weight float32 t off w))) := h4
      rw [h4']
      dsimp only
      rw [if_neg hW.ne']
      rfl
    · intro hn
      exact absurd (List.mem_of_getElem? hpq) hn
    · intro _ lo hi hb hk
      refine (key lo hi hb ?_).2
      intro w hwm
      obtain ⟨i, hi', hwi⟩ := h2 w hwm
      obtain ⟨w', hw', -, -, hkn⟩ := hw p _ hpq i hi'
      rw [hwi] at hw'
      cases Option.some.inj hw'
      exact hk _ hkn

/-- A history of the small instance in which the scene changes from 5 to 9: the background is defined and between 5 and 9. (Without jitter.) -/
def stillInit : Refresh Nat := { tinyInit with jitter := fun _ _ _ f => f }

theorem still_known (q : Nat × Nat) (f : Nat) (h : Known tiny2 [(1, 1), (1, 2)] stillInit [.frame (tinyFrame 5 2 true), .refresh stillInit, .frame (tinyFrame 9 3 false)] q f) :
    5 ≤ f ∧ f ≤ 9 := by
  induction h with
  | init p h n => exact ⟨le_rfl, by norm_num [stillInit, tinyInit]⟩
  | jitter0 k f h ih => exact ih
  | refresh r o p h n =>
    have : r = stillInit := by simpa using o
    subst this
    exact ⟨le_rfl, by norm_num [stillInit, tinyInit]⟩
  | jitter r o k f h ih =>
    have : r = stillInit := by simpa using o
    subst this
    exact ih
  | frame f o y x h n =>
    have : f = tinyFrame 5 2 true ∨ f = tinyFrame 9 3 false := by simpa using o
    rcases this with rfl | rfl <;> simp [tinyFrame]
  | update f o y x h n g g' k u ih =>
    have : f = tinyFrame 5 2 true ∨ f = tinyFrame 9 3 false := by simpa using o
    rcases this with rfl | rfl <;> simp [tinyFrame] at u

example : ∃ m t, session float32 tiny2 3 0 (fun k => k * 7919) [(1, 1), (1, 2)] stillInit [.frame (tinyFrame 5 2 true), .refresh stillInit, .frame (tinyFrame 9 3 false)] = some (m, t) ∧
    (∃ v, bgPixel float32 8 tiny2 [(1, 1), (1, 2)] t 1000 id m 1 2 = some v ∧ 5 ≤ v ∧ v ≤ 9) ∧ bgPixel float32 8 tiny2 [(1, 1), (1, 2)] t 1000 id m 0 0 = some 0 := by
  have hc : ∀ f : Pawcs.Frame Nat, Op.frame f ∈ [Op.frame (tinyFrame 5 2 true), .refresh stillInit, .frame (tinyFrame 9 3 false)] → Callable f := by
    intro f hf
    simp at hf
    rcases hf with rfl | rfl
    · exact tinyFrame_callable _ _ _ (by norm_num) (by norm_num)
    · exact tinyFrame_callable _ _ _ (by norm_num) (by norm_num)
  have hr : ∀ r : Refresh Nat, Op.refresh r ∈ [Op.frame (tinyFrame 5 2 true), .refresh stillInit, .frame (tinyFrame 9 3 false)] → 1 ≤ r.base ∧ (r.frac < 1 ∨ r.force = true) := by
    intro r hf
    have : r = stillInit := by simpa using hf
    subst this
    exact ⟨le_rfl, .inl (by norm_num [stillInit, tinyInit])⟩
  obtain ⟨m, t, e, -⟩ := session_complete float32 (0 : Nat) (tiny2_setup 3 (by norm_num)) (fun k => k * 7919) stillInit _ hc
  refine ⟨m, t, e, ?_, ?_⟩
  · obtain ⟨v, h1, -, h3⟩ := pawcs_background_partial 0 (tiny2_setup 3 (by norm_num)) _ _ _ hc hr m t e 1000 (by norm_num) 8 (by decide) id 1 2
    exact ⟨v, h1, h3 (by simp) 5 9 (by norm_num) fun f hf => still_known _ f hf⟩
  · obtain ⟨v, h1, h2, -⟩ := pawcs_background_partial 0 (tiny2_setup 3 (by norm_num)) _ _ _ hc hr m t e 1000 (by norm_num) 8 (by decide) id 0 0
    rw [h1, h2 (by simp)]

/-- A refresh as a reset while the camera moves does it: offset 5, so new words have 5/8 = 0 occurrences; no two features are close. -/
def movingReset : Refresh Nat := { tinyInit with base := 5 / 8, frac := 0, force := true, off := 5, near := fun _ _ _ _ => false }

/-- C132, refuted for a reset while the camera moves: with one word per pixel the only word of a pixel gets no occurrences, and the
background image is zero divided by zero. -/
theorem pawcs_background_refuted :
    ∃ (c : Cfg) (px : List (Nat × Nat)) (r : Refresh Nat) (m : Mdl Nat), Setup c 1 px ∧ 1 ≤ r.base ∧
      session float32 c 1 0 (fun _ => 0) px r [.refresh movingReset] = some (m, 0) ∧ bgPixel float32 8 c px 0 5 id m 1 1 = none := by
  have hd : (session float32 ⟨3, 3, 1, 0, 1⟩ 1 0 (fun _ => 0) [(1, 1)] tinyInit [.refresh movingReset]).map
      (fun s => (s.2, bgPixel float32 8 ⟨3, 3, 1, 0, 1⟩ [(1, 1)] 0 5 id s.1 1 1)) = some (0, none) := by decide +kernel
  cases hs : session float32 ⟨3, 3, 1, 0, 1⟩ 1 0 (fun _ => 0) [(1, 1)] tinyInit [.refresh movingReset] with
  | none => rw [hs] at hd; cases hd
  | some s =>
    rw [hs] at hd
    obtain ⟨m, t⟩ := s
    have h := Option.some.inj hd
    have h1 : t = 0 := congrArg Prod.fst h
    have h2 : bgPixel float32 8 ⟨3, 3, 1, 0, 1⟩ [(1, 1)] 0 5 id m 1 1 = none := congrArg Prod.snd h
    subst h1
    exact ⟨⟨3, 3, 1, 0, 1⟩, [(1, 1)], tinyInit, m, ⟨by decide, by decide, by decide, by decide, by decide, by simp [Consensus.Spec.Inner], by simp⟩, le_rfl, hs, h2⟩

end Litiv.PawcsFeed
