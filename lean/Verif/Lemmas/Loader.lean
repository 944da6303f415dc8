import Verif.Spec.Loader
import Verif.Lemmas.Display
import Mathlib.Tactic.SplitIfs

/-!
# Lemmas for the data loaders
-/

namespace Litiv.Loader

open Spec

theorem empty_iff (m : Img) : m.empty = true ↔ NoPixels m.rows m.cols := by
  simp [Img.empty, NoPixels]

theorem empty_false (m : Img) : m.empty = false ↔ ¬ NoPixels m.rows m.cols := by
  rw [← empty_iff]; simp

theorem infoEmpty_iff (i : Info) : i.empty = true ↔ NoPixels i.rows i.cols := by
  simp [Info.empty, NoPixels]

theorem covers_nearest (old new x : Nat) (ho : 0 < old) (hx : x < new) : Covers old new x (min (x * old / new) (old - 1)) := by
  have h0 : 0 < new := by omega
  have h1 : x * old / new < old := by
    rw [Nat.div_lt_iff_lt_mul h0, Nat.mul_comm old new]
    exact Nat.mul_lt_mul_of_pos_right hx ho
  rw [Nat.min_eq_left (by omega)]
  refine ⟨h1, Nat.div_mul_le_self _ _, ?_⟩
  rw [Nat.mul_comm (_ + 1) new]
  exact Nat.lt_mul_div_succ _ h0

theorem covers_self (n x : Nat) (hx : x < n) : Covers n n x x := by
  refine ⟨hx, le_refl _, ?_⟩
  rw [Nat.add_mul]; omega

theorem cvt_suitable (K : Conv) (m : Img) (i : Info) (h : Suitable m i) :
    (cvtChannels K m i).depth = i.depth ∧ (cvtChannels K m i).ch = i.ch ∧ (cvtChannels K m i).rows = m.rows ∧
      (cvtChannels K m i).cols = m.cols ∧ ∀ r c, (cvtChannels K m i).px r c = convPx K m i (m.px r c) := by
  obtain ⟨hd, hc⟩ := h
  unfold cvtChannels convPx
  rcases hc with hc | ⟨hc, h4 | h1⟩
  · rw [if_neg (by simp [hc])]
    exact ⟨hd, hc, rfl, rfl, fun r c => by rw [if_pos hc]⟩
  · rw [if_pos ⟨hd.symm, by omega⟩, if_pos ⟨h4, hc⟩]
    exact ⟨hd, h4.symm, rfl, rfl, fun r c => by rw [if_neg (by omega), if_pos h4]⟩
  · rw [if_pos ⟨hd.symm, by omega⟩, if_neg (by omega), if_pos ⟨h1, hc⟩]
    exact ⟨hd, h1.symm, rfl, rfl, fun r c => by rw [if_neg (by omega), if_neg (by omega)]⟩

theorem cvt_size (K : Conv) (m : Img) (i : Info) : (cvtChannels K m i).rows = m.rows ∧ (cvtChannels K m i).cols = m.cols := by
  unfold cvtChannels
  split_ifs <;> exact ⟨rfl, rfl⟩

theorem cvt_unsuitable (K : Conv) (m : Img) (i : Info) (h : ¬ Suitable m i) :
    (cvtChannels K m i).depth = m.depth ∧ ¬ ((cvtChannels K m i).depth = i.depth ∧ (cvtChannels K m i).ch = i.ch) := by
  unfold Suitable at h
  unfold cvtChannels
  split_ifs with h1 h2 h3
  · exact absurd ⟨h1.1.symm, Or.inr ⟨h2.2, Or.inl h2.1⟩⟩ h
  · exact absurd ⟨h1.1.symm, Or.inr ⟨h3.2, Or.inr h3.1⟩⟩ h
  · exact ⟨rfl, fun hh => h1.2 hh.2.symm⟩
  · refine ⟨rfl, fun hh => h ⟨hh.1, Or.inl hh.2⟩⟩

theorem transform_type (K : Conv) (m : Img) (i : Info) (o : Img) (h : transform K m i = some o) :
    o.depth = (cvtChannels K m i).depth ∧ o.ch = (cvtChannels K m i).ch ∧ o.rows = i.rows ∧ o.cols = i.cols := by
  unfold transform at h
  dsimp only at h
  by_cases h1 : i.rows = (cvtChannels K m i).rows ∧ i.cols = (cvtChannels K m i).cols
  · rw [if_pos h1] at h
    obtain rfl := Option.some.inj h
    exact ⟨rfl, rfl, h1.1.symm, h1.2.symm⟩
  · rw [if_neg h1] at h
    unfold resizeNN at h
    split_ifs at h
    obtain rfl := Option.some.inj h
    exact ⟨rfl, rfl, rfl, rfl⟩

theorem transform_delivers (K : Conv) (m : Img) (i : Info) (hm : ¬ NoPixels m.rows m.cols) (hi : ¬ NoPixels i.rows i.cols)
    (hs : Suitable m i) : ∃ o, transform K m i = some o ∧ Delivered K m i o := by
  obtain ⟨c1, c2, c3, c4, c5⟩ := cvt_suitable K m i hs
  unfold transform
  dsimp only
  by_cases h1 : i.rows = (cvtChannels K m i).rows ∧ i.cols = (cvtChannels K m i).cols
  · rw [if_pos h1]
    refine ⟨_, rfl, c1, c2, h1.1.symm, h1.2.symm, fun r c hr hc => ⟨r, c, ?_, ?_, c5 r c⟩⟩
    · rw [c3] at h1; rw [← h1.1]; exact covers_self _ _ hr
    · rw [c4] at h1; rw [← h1.2]; exact covers_self _ _ hc
  · rw [if_neg h1]
    unfold resizeNN
    have he : ¬ (i.rows * i.cols = 0 ∨ (cvtChannels K m i).empty = true) := by
      rw [empty_iff, c3, c4]
      rintro (h | h)
      · exact hi (Nat.mul_eq_zero.1 h)
      · exact hm h
    rw [if_neg he]
    refine ⟨_, rfl, c1, c2, rfl, rfl, fun r c hr hc => ⟨_, _, ?_, ?_, c5 _ _⟩⟩
    · rw [c3]; refine covers_nearest _ _ _ ?_ hr
      exact Nat.pos_of_ne_zero (fun h => hm (Or.inl h))
    · rw [c4]; refine covers_nearest _ _ _ ?_ hc
      exact Nat.pos_of_ne_zero (fun h => hm (Or.inr h))

theorem transform_empty (K : Conv) (m : Img) (i : Info) (hm : ¬ NoPixels m.rows m.cols) (hi : NoPixels i.rows i.cols) :
    transform K m i = none := by
  unfold transform
  dsimp only
  obtain ⟨c3, c4⟩ := cvt_size K m i
  rw [if_neg (by rw [c3, c4]; rintro ⟨h1, h2⟩; rw [← h1, ← h2] at hm; exact hm hi)]
  unfold resizeNN
  rw [if_pos (Or.inl (Nat.mul_eq_zero.2 hi))]

theorem redirect_can (K : Conv) (pol : Policy) (raw : Img) (i : Info) (h : CanDeliver pol raw i) :
    ∃ m, redirect K pol raw i = some m ∧ StreamOut K pol raw i m := by
  rcases h with ⟨h1, h2⟩ | ⟨h1, h2, h⟩
  · refine ⟨raw, ?_, Or.inl ⟨h1, h2, rfl⟩⟩
    unfold redirect
    rw [if_neg (by rw [empty_false]; simpa using h1), if_pos ((infoEmpty_iff i).2 h2)]
  · have he := (empty_false raw).2 h1
    rcases h with ⟨rfl, hs⟩ | ⟨rfl, hs⟩
    · obtain ⟨o, ho, hd⟩ := transform_delivers K raw i h1 h2 hs
      refine ⟨o, ?_, Or.inr ⟨h1, h2, Or.inl ⟨rfl, hd⟩⟩⟩
      unfold redirect
      rw [if_pos he]
      simp only [Option.bind_eq_bind, ho, Option.bind_some]
      rw [if_pos ⟨hd.1, hd.2.1, hd.2.2.1, hd.2.2.2.1⟩]
    · refine ⟨raw, ?_, Or.inr ⟨h1, h2, Or.inr ⟨rfl, rfl, hs.1, hs.2.1, hs.2.2.1, hs.2.2.2, fun r c hr hc => ⟨r, c, ?_, ?_, ?_⟩⟩⟩⟩
      · unfold redirect
        rw [if_pos he]
        simp only [Option.bind_eq_bind, Option.bind_some]
        rw [if_pos hs]
      · rw [hs.2.2.1]; exact covers_self _ _ hr
      · rw [hs.2.2.2]; exact covers_self _ _ hc
      · unfold convPx; rw [if_pos hs.2.1]

theorem redirect_cannot (K : Conv) (pol : Policy) (raw : Img) (i : Info) (h : ¬ CanDeliver pol raw i) : redirect K pol raw i = none := by
  unfold redirect
  by_cases he : raw.empty = false
  · rw [if_pos he]
    have h1 := (empty_false raw).1 he
    cases pol with
    | other => rfl
    | unspecified =>
      simp only [Option.bind_eq_bind, Option.bind_some]
      refine if_neg (fun hh => h (Or.inr ⟨h1, ?_, Or.inr ⟨rfl, hh⟩⟩))
      rw [← hh.2.2.1, ← hh.2.2.2]; exact h1
    | image =>
      simp only [Option.bind_eq_bind]
      by_cases hi : NoPixels i.rows i.cols
      · rw [transform_empty K raw i h1 hi]; rfl
      · have hs : ¬ Suitable raw i := fun hs => h (Or.inr ⟨h1, hi, Or.inl ⟨rfl, hs⟩⟩)
        cases ht : transform K raw i with
        | none => rfl
        | some o =>
          rw [Option.bind_some]
          obtain ⟨t1, t2, _, _⟩ := transform_type K raw i o ht
          refine if_neg (fun hh => (cvt_unsuitable K raw i hs).2 ⟨t1.symm.trans hh.1, t2.symm.trans hh.2.1⟩)
  · rw [if_neg he]
    refine if_neg (fun hi => h (Or.inl ⟨?_, (infoEmpty_iff i).1 hi⟩))
    rw [empty_false] at he
    simpa using he

/-! ### Arrays -/

theorem mapM_zip_some {α β γ : Type} (f : α × β → Option γ) : ∀ (as : List α) (bs : List β) (ms : List γ), as.length = bs.length →
    (as.zip bs).mapM f = some ms → ms.length = as.length ∧
      ∀ (k : Nat) a b m, as[k]? = some a → bs[k]? = some b → ms[k]? = some m → f (a, b) = some m
  | [], [], ms, _, h => by
    obtain rfl := (Option.some.inj h).symm
    exact ⟨rfl, fun k a b m ha => by simp at ha⟩
  | a :: as, b :: bs, ms, hl, h => by
    rw [List.zip_cons_cons, List.mapM_cons] at h
    simp only [Option.bind_eq_bind, Option.pure_def] at h
    cases hf : f (a, b) with
    | none => rw [hf] at h; simp at h
    | some m =>
      rw [hf, Option.bind_some] at h
      cases hr : (as.zip bs).mapM f with
      | none => rw [hr] at h; simp at h
      | some ms' =>
        rw [hr, Option.bind_some] at h
        obtain rfl := (Option.some.inj h).symm
        obtain ⟨i1, i2⟩ := mapM_zip_some f as bs ms' (by simpa using hl) hr
        refine ⟨by simp [i1], fun k a' b' m' ha hb hm => ?_⟩
        cases k with
        | zero =>
          simp at ha hb hm
          rw [← ha, ← hb, ← hm]; exact hf
        | succ k => exact i2 k a' b' m' (by simpa using ha) (by simpa using hb) (by simpa using hm)

theorem mapM_zip_total {α β γ : Type} (f : α × β → Option γ) : ∀ (as : List α) (bs : List β), as.length = bs.length →
    (∀ (k : Nat) a b, as[k]? = some a → bs[k]? = some b → ∃ m, f (a, b) = some m) → ∃ ms, (as.zip bs).mapM f = some ms
  | [], [], _, _ => ⟨[], rfl⟩
  | a :: as, b :: bs, hl, h => by
    obtain ⟨m, hm⟩ := h 0 a b (by simp) (by simp)
    obtain ⟨ms, hms⟩ := mapM_zip_total f as bs (by simpa using hl) (fun k a' b' ha hb => h (k + 1) a' b' (by simpa using ha) (by simpa using hb))
    refine ⟨m :: ms, ?_⟩
    rw [List.zip_cons_cons, List.mapM_cons]
    simp only [Option.bind_eq_bind, Option.pure_def, hm, Option.bind_some, hms]

theorem redirectArray_some (K : Conv) (pol : Policy) (streams : Nat) (raws : List Img) (infos : List Info) (ms : List Img)
    (h : redirectArray K pol streams raws infos = some ms) : raws.length = streams ∧ infos.length = streams ∧ ms.length = streams ∧
      ∀ (k : Nat) raw i m, raws[k]? = some raw → infos[k]? = some i → ms[k]? = some m → StreamOut K pol raw i m := by
  unfold redirectArray at h
  by_cases hl : raws.length = streams ∧ infos.length = streams
  · rw [if_pos hl] at h
    obtain ⟨h1, h2⟩ := mapM_zip_some _ _ _ _ (hl.1.trans hl.2.symm) h
    refine ⟨hl.1, hl.2, h1.trans hl.1, fun k raw i m a b c => ?_⟩
    have h3 := h2 k raw i m a b c
    dsimp only at h3
    by_cases hc : CanDeliver pol raw i
    · obtain ⟨m', e1, e2⟩ := redirect_can K pol raw i hc
      rw [e1] at h3
      rw [← Option.some.inj h3]; exact e2
    · rw [redirect_cannot K pol raw i hc] at h3
      simp at h3
  · rw [if_neg hl] at h
    simp at h

theorem redirectArray_none (K : Conv) (pol : Policy) (streams : Nat) (raws : List Img) (infos : List Info)
    (h : redirectArray K pol streams raws infos = none) : ¬ (raws.length = streams ∧ infos.length = streams ∧
      ∀ (k : Nat) raw i, raws[k]? = some raw → infos[k]? = some i → CanDeliver pol raw i) := by
  rintro ⟨h1, h2, h3⟩
  unfold redirectArray at h
  rw [if_pos ⟨h1, h2⟩] at h
  obtain ⟨ms, hms⟩ := mapM_zip_total (fun x => redirect K pol x.1 x.2) raws infos (h1.trans h2.symm) (fun k a b ha hb => by
    obtain ⟨m, hm, _⟩ := redirect_can K pol a b (h3 k a b ha hb)
    exact ⟨m, hm⟩)
  rw [hms] at h
  simp at h

theorem streamOut_agree (K : Conv) (pol : Policy) (raw : Img) (i : Info) (m : Img) (h : StreamOut K pol raw i m) : Agree m i := by
  rcases h with ⟨h1, h2, rfl⟩ | ⟨_, _, h⟩
  · exact Or.inl ⟨h1, h2⟩
  · rcases h with ⟨_, h⟩ | ⟨_, _, h⟩ <;> exact Or.inr ⟨h.1, h.2.1, h.2.2.1, h.2.2.2.1⟩

theorem forall₂_index {α β : Type} (R : α → β → Prop) : ∀ (as : List α) (bs : List β), as.length = bs.length →
    (∀ (k : Nat) a b, as[k]? = some a → bs[k]? = some b → R a b) → List.Forall₂ R as bs
  | [], [], _, _ => List.Forall₂.nil
  | a :: as, b :: bs, hl, h => List.Forall₂.cons (h 0 a b (by simp) (by simp))
      (forall₂_index R as bs (by simpa using hl) (fun k a' b' ha hb => h (k + 1) a' b' (by simpa using ha) (by simpa using hb)))

/-- What is known between calls: the held packet is the one of the last index, and the views are those of the held packet. -/
def Sync {P V ι : Type} (load : Nat → Option P) (unpack : P → ι → Option (List V)) (infos : Nat → ι) (c : Cache P V) : Prop :=
  ∀ n, c.last = some n → ∃ p vs, load n = some p ∧ c.held = some p ∧ unpack p (infos n) = some vs ∧ c.views = vs ∧ c.viewsOf = c.stamp

theorem out_sync {P V : Type} (c : Cache P V) (h : c.viewsOf = c.stamp) : c.out = .ok c.views := by
  unfold Cache.out
  cases hv : c.views with
  | nil => rfl
  | cons a t => rw [if_neg (by simp), if_pos h]

theorem refresh_sync {P V ι : Type} (load : Nat → Option P) (unpack : P → ι → Option (List V)) (infos : Nat → ι) (c : Cache P V) (n : Nat)
    (hn : c.last ≠ some n) (hs : Sync load unpack infos c) (hu : ∀ p, load n = some p → ∃ vs, unpack p (infos n) = some vs) :
    Sync load unpack infos (refresh load unpack (infos n) c n).2 ∧
      (refresh load unpack (infos n) c n).1 = (match load n with
        | none => .error
        | some p => match unpack p (infos n) with
          | none => .error
          | some vs => .ok vs) ∧
      (load n ≠ none → (refresh load unpack (infos n) c n).2.last = some n) := by
  unfold refresh getPacket
  rw [if_neg hn]
  cases hl : load n with
  | none => exact ⟨hs, rfl, fun h => absurd rfl h⟩
  | some p =>
    obtain ⟨vs, hv⟩ := hu p hl
    dsimp only
    rw [hv]
    dsimp only
    refine ⟨fun k hk => ?_, out_sync _ rfl, fun _ => rfl⟩
    have hk : n = k := by simpa using hk
    subst hk
    exact ⟨p, vs, hl, rfl, hv, rfl, rfl⟩

/-! ### Parsing -/

theorem dropBad_spec {φ : Type} (disk : φ → Img) : ∀ (k : Nat) (pre suf : List φ), suf.length ≤ k →
    (∃ bad p rest, suf = bad ++ p :: rest ∧ (∀ q ∈ bad, (disk q).empty = true) ∧ (disk p).empty = false ∧
      dropBad disk k (pre ++ suf) pre.length = (pre ++ p :: rest, some (disk p))) ∨
    ((∀ q ∈ suf, (disk q).empty = true) ∧ dropBad disk k (pre ++ suf) pre.length = (pre, none))
  | 0, pre, suf, h => by
    have : suf = [] := List.length_eq_zero_iff.1 (by omega)
    subst this
    right
    exact ⟨by simp, by simp [dropBad]⟩
  | k + 1, pre, [], h => by
    right
    refine ⟨by simp, ?_⟩
    rw [dropBad]
    simp
  | k + 1, pre, p :: suf, h => by
    rw [dropBad]
    have e1 : (pre ++ p :: suf)[pre.length]? = some p := by simp
    have e2 : (pre ++ p :: suf).eraseIdx pre.length = pre ++ suf := by
      rw [List.eraseIdx_append_of_length_le (le_refl _)]; simp
    rw [e1]
    dsimp only
    cases hp : (disk p).empty with
    | false =>
      left
      refine ⟨[], p, suf, rfl, by simp, hp, by rw [if_neg (by simp)]⟩
    | true =>
      rw [if_pos rfl, e2]
      rcases dropBad_spec disk k pre suf (by simpa using h) with ⟨bad, q, rest, h1, h2, h3, h4⟩ | ⟨h1, h2⟩
      · left
        refine ⟨p :: bad, q, rest, by rw [h1]; rfl, ?_, h3, h4⟩
        intro x hx
        rcases List.mem_cons.1 hx with rfl | hx
        · exact hp
        · exact h2 x hx
      · right
        refine ⟨?_, h2⟩
        intro x hx
        rcases List.mem_cons.1 hx with rfl | hx
        · exact hp
        · exact h1 x hx

theorem roundEven_pos_iff (x : ℚ) : Lut.roundEven x ≤ 0 ↔ x ≤ 1 / 2 := by
  constructor
  · intro h
    have := Display.roundEven_near x
    rw [abs_le] at this
    have h2 : ((Lut.roundEven x : Int) : ℚ) ≤ 0 := by exact_mod_cast h
    linarith
  · intro h
    have h1 := IEEE.roundEven_mono _ _ h
    have h2 : Lut.roundEven (1 / 2 : ℚ) = 0 := by decide +kernel
    omega

theorem scaleSize_some (scale : ℚ) (m : Img) (r c : Nat) (hm : ¬ NoPixels m.rows m.cols) (h : scaleSize scale m = some (r, c)) :
    ¬ NoPixels r c ∧ (scale = 1 → r = m.rows ∧ c = m.cols) ∧ |(r : ℚ) - m.rows * scale| ≤ 1 / 2 ∧ |(c : ℚ) - m.cols * scale| ≤ 1 / 2 := by
  unfold scaleSize at h
  by_cases h1 : scale = 1
  · rw [if_pos h1] at h
    have h2 := Option.some.inj h
    simp only [Prod.mk.injEq] at h2
    obtain ⟨rfl, rfl⟩ := h2
    refine ⟨hm, fun _ => ⟨rfl, rfl⟩, ?_, ?_⟩ <;> rw [h1] <;> norm_num
  · rw [if_neg h1] at h
    dsimp only at h
    split_ifs at h with h2
    have h3 := Option.some.inj h
    simp only [Prod.mk.injEq] at h3
    obtain ⟨rfl, rfl⟩ := h3
    rw [Nat.mul_eq_zero, not_or] at h2
    refine ⟨fun hh => hh.elim h2.1 h2.2, fun hh => absurd hh h1, ?_, ?_⟩
    · have := Display.roundEven_near ((m.rows : ℚ) * scale)
      have e : (((Lut.roundEven ((m.rows : ℚ) * scale)).toNat : Nat) : ℚ) = ((Lut.roundEven ((m.rows : ℚ) * scale) : Int) : ℚ) := by
        have : (((Lut.roundEven ((m.rows : ℚ) * scale)).toNat : Nat) : Int) = Lut.roundEven ((m.rows : ℚ) * scale) := by
          apply Int.toNat_of_nonneg; omega
        exact_mod_cast this
      rw [e]; exact this
    · have := Display.roundEven_near ((m.cols : ℚ) * scale)
      have e : (((Lut.roundEven ((m.cols : ℚ) * scale)).toNat : Nat) : ℚ) = ((Lut.roundEven ((m.cols : ℚ) * scale) : Int) : ℚ) := by
        have : (((Lut.roundEven ((m.cols : ℚ) * scale)).toNat : Nat) : Int) = Lut.roundEven ((m.cols : ℚ) * scale) := by
          apply Int.toNat_of_nonneg; omega
        exact_mod_cast this
      rw [e]; exact this

theorem scaleSize_none (scale : ℚ) (m : Img) : scaleSize scale m = none ↔ Vanishes scale m := by
  unfold scaleSize Vanishes
  by_cases h1 : scale = 1
  · simp [h1]
  · rw [if_neg h1]
    dsimp only
    rw [← roundEven_pos_iff, ← roundEven_pos_iff]
    split_ifs with h2
    · rw [Nat.mul_eq_zero] at h2
      simp only [true_iff]
      refine ⟨h1, ?_⟩
      omega
    · rw [Nat.mul_eq_zero] at h2
      simp only [false_iff]
      rintro ⟨_, h3⟩
      omega

theorem declare_some (scale : ℚ) (align : Bool) (m : Img) (i : Info) (hm : ¬ NoPixels m.rows m.cols) (h : declare scale align m = some i) :
    DeclaredFor scale align m i := by
  unfold declare at h
  cases hs : scaleSize scale m with
  | none => rw [hs] at h; simp at h
  | some s =>
    obtain ⟨r, c⟩ := s
    rw [hs] at h
    simp only [Option.bind_eq_bind, Option.bind_some] at h
    obtain rfl := (Option.some.inj h).symm
    obtain ⟨h1, h2, h3, h4⟩ := scaleSize_some scale m r c hm hs
    exact ⟨rfl, rfl, h1, h2, h3, h4⟩

theorem declare_none (scale : ℚ) (align : Bool) (m : Img) : declare scale align m = none ↔ Vanishes scale m := by
  rw [← scaleSize_none]
  unfold declare
  cases scaleSize scale m <;> simp

/-- The information is the same for all pairs of neighbours, starting from `last`. -/
theorem parseLoop_spec {φ : Type} (disk : φ → Img) (scale : ℚ) (align : Bool) : ∀ (k : Nat) (good suf : List φ) (infos : List Info) (cst : Bool)
    (last : Info), suf.length < k →
    (∀ p ∈ good, (disk p).empty = false) → List.Forall₂ (fun p i => declare scale align (disk p) = some i) good infos →
    (cst = true ↔ ∀ i ∈ infos, ∀ j ∈ infos, i = j) →
    ((infos = [] ∧ last.empty = true) ∨ (last.empty = false ∧ last ∈ infos)) →
    match parseLoop disk scale align k good.length ⟨good ++ suf, infos, cst⟩ last with
    | none => ∃ p ∈ suf, (disk p).empty = false ∧ declare scale align (disk p) = none
    | some st => st.paths = good ++ suf.filter (fun p => !(disk p).empty) ∧
        List.Forall₂ (fun p i => declare scale align (disk p) = some i) st.paths st.infos ∧
        (st.const = true ↔ ∀ i ∈ st.infos, ∀ j ∈ st.infos, i = j) := by
  intro k
  induction k with
  | zero => intro good suf infos cst last h; omega
  | succ k ih =>
    intro good suf infos cst last hk hg hf hc hl
    rw [parseLoop]
    dsimp only
    by_cases hn : good.length < (good ++ suf).length
    · rw [if_pos hn]
      rcases dropBad_spec disk (good ++ suf).length good suf (by simp) with ⟨bad, p, rest, h1, h2, h3, h4⟩ | ⟨h1, h2⟩
      · rw [h4]
        dsimp only
        cases hd : declare scale align (disk p) with
        | none =>
          simp only [Option.bind_eq_bind, Option.bind_none]
          exact ⟨p, by rw [h1]; simp, h3, hd⟩
        | some i =>
          simp only [Option.bind_eq_bind, Option.bind_some]
          have hi : i.empty = false := by
            have := (declare_some scale align (disk p) i ((empty_false _).1 h3) hd).2.2.1
            cases hie : i.empty with
            | false => rfl
            | true => exact absurd ((infoEmpty_iff i).1 hie) this
          have key := ih (good ++ [p]) rest (infos ++ [i]) (if last.empty = false ∧ last ≠ i then false else cst) i
            (by rw [h1] at hk; simp at hk; omega)
            (by
              intro q hq
              rcases List.mem_append.1 hq with hq | hq
              · exact hg q hq
              · rw [List.mem_singleton.1 hq]; exact h3)
            (List.rel_append hf (List.Forall₂.cons hd List.Forall₂.nil))
            (by
              rcases hl with ⟨h5, h6⟩ | ⟨h5, h6⟩
              · subst h5
                rw [if_neg (by simp [h6]), hc]
                simp
              · by_cases hli : last = i
                · rw [if_neg (by simp [hli]), hc]
                  subst hli
                  constructor
                  · intro hh a ha b hb
                    have ha' : a ∈ infos := by
                      rcases List.mem_append.1 ha with ha | ha
                      · exact ha
                      · rw [List.mem_singleton.1 ha]; exact h6
                    have hb' : b ∈ infos := by
                      rcases List.mem_append.1 hb with hb | hb
                      · exact hb
                      · rw [List.mem_singleton.1 hb]; exact h6
                    exact hh a ha' b hb'
                  · intro hh a ha b hb
                    exact hh a (List.mem_append_left _ ha) b (List.mem_append_left _ hb)
                · rw [if_pos ⟨h5, hli⟩]
                  simp only [Bool.false_eq_true, false_iff]
                  intro hh
                  exact hli (hh last (List.mem_append_left _ h6) i (by simp)))
            (Or.inr ⟨hi, by simp⟩)
          have el : (good ++ [p]).length = good.length + 1 := by simp
          have ea : good ++ [p] ++ rest = good ++ p :: rest := by simp
          rw [el, ea] at key
          revert key
          cases parseLoop disk scale align k (good.length + 1) ⟨good ++ p :: rest, infos ++ [i], if last.empty = false ∧ last ≠ i then false else cst⟩ i with
          | none =>
            rintro ⟨q, hq, hq2⟩
            exact ⟨q, by rw [h1]; simp [hq], hq2⟩
          | some st =>
            rintro ⟨k1, k2, k3⟩
            refine ⟨?_, k2, k3⟩
            rw [k1, h1, List.filter_append, List.filter_cons, h3]
            have : bad.filter (fun p => !(disk p).empty) = [] := by
              rw [List.filter_eq_nil_iff]
              intro q hq
              rw [h2 q hq]; simp
            rw [this]
            simp
      · rw [h2]
        dsimp only
        have : suf.filter (fun p => !(disk p).empty) = [] := by
          rw [List.filter_eq_nil_iff]
          intro q hq
          rw [h1 q hq]; simp
        rw [this]
        exact ⟨by simp, hf, hc⟩
    · rw [if_neg hn]
      have : suf = [] := by
        rw [List.length_append] at hn
        exact List.length_eq_zero_iff.1 (by omega)
      subst this
      dsimp only
      simp only [List.append_nil, List.filter_nil]
      exact ⟨trivial, hf, hc⟩

/-! ### Videos -/

/-- What is known between reads: the reader is at the expected frame, or both are beyond the end. -/
def InStep (fs : List Img) (r : Reader) (expected : Nat) : Prop :=
  r.frames = fs ∧ (r.pos = expected ∨ (fs.length ≤ r.pos ∧ fs.length ≤ expected))

theorem read_step (fs : List Img) (r : Reader) (n : Nat) (h : InStep fs r n) :
    r.read.1 = (fs[n]?).getD Img.none ∧ InStep fs r.read.2 (n + 1) := by
  obtain ⟨rfl, h⟩ := h
  have hp : r.frames[r.pos]? = r.frames[n]? := by
    rcases h with h | ⟨h1, h2⟩
    · rw [h]
    · rw [List.getElem?_eq_none h1, List.getElem?_eq_none h2]
  unfold Reader.read
  rw [hp]
  cases hn : r.frames[n]? with
  | none =>
    dsimp only
    have h2 : r.frames.length ≤ n := by simpa using hn
    rw [hn] at hp
    have h1 : r.frames.length ≤ r.pos := by simpa using hp
    refine ⟨by simp, rfl, Or.inr ⟨h1, by omega⟩⟩
  | some f =>
    dsimp only
    refine ⟨by simp, rfl, ?_⟩
    have h2 : n < r.frames.length := by
      by_contra hh
      rw [List.getElem?_eq_none (by omega)] at hn
      simp at hn
    rcases h with h | h
    · left; show r.pos + 1 = n + 1; rw [h]
    · omega

theorem seek_step (fs : List Img) (r : Reader) (n : Nat) (h : r.frames = fs) : InStep fs (r.seek n) n := by
  refine ⟨h, ?_⟩
  show min n r.frames.length = n ∨ fs.length ≤ min n r.frames.length ∧ fs.length ≤ n
  rw [h]
  omega

end Litiv.Loader
