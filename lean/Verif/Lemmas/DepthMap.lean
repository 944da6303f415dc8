import Verif.Spec.DepthMap
import Mathlib.Tactic.Linarith
import Mathlib.Tactic.NormNum
import Mathlib.Tactic.Positivity

/-!
# Lemmas on remapped depth images
-/

namespace Litiv.DepthMap

theorem cround_nonneg {q : ℚ} (h : 0 ≤ q) : 0 ≤ cround q := by
  rw [cround, if_pos h]; exact Int.floor_nonneg.2 (by linarith)

theorem cround_bounds {q : ℚ} (h : 0 ≤ q) : (cround q : ℚ) - 1 / 2 ≤ q ∧ q < cround q + 1 / 2 := by
  rw [cround, if_pos h]
  have h1 := Int.floor_le (q + 1 / 2)
  have h2 := Int.lt_floor_add_one (q + 1 / 2)
  constructor <;> linarith

theorem cround_lt {q : ℚ} (h : 0 ≤ q) (n : Nat) : cround q < n ↔ q < (n : ℚ) - 1 / 2 := by
  rw [cround, if_pos h, Int.floor_lt]
  push_cast
  constructor <;> intro h <;> linarith

theorem cround_unique {q : ℚ} (h : 0 ≤ q) {n : Nat} (h1 : (n : ℚ) - 1 / 2 ≤ q) (h2 : q < n + 1 / 2) : cround q = n := by
  rw [cround, if_pos h, Int.floor_eq_iff]
  push_cast
  constructor <;> linarith

theorem lookup_outside {rows cols : Nat} {p : Pt} (h : ¬ Inside rows cols p) (raw : Img) : lookup rows cols raw p = some 0 := by
  rcases p with ⟨_ | x, _ | y⟩ <;> try rfl
  have : ¬ (x ≥ 0 ∧ x < cols ∧ y ≥ 0 ∧ y < rows) := fun hc => h ⟨x, y, rfl, hc.1, hc.2.1, hc.2.2.1, hc.2.2.2⟩
  rw [lookup, if_neg this]

theorem lookup_edge {rows cols : Nat} {p : Pt} (h : PastEdge rows cols p) (raw : Img) : lookup rows cols raw p = none := by
  obtain ⟨x, y, rfl, ⟨x', y', he, hx, hxw, hy, hyh⟩, hp⟩ := h
  cases he
  rw [lookup, if_pos ⟨hx, hxw, hy, hyh⟩, read, if_neg]
  rintro ⟨-, h1, -, h2⟩
  rw [cround_lt hy] at h1
  rw [cround_lt hx] at h2
  rcases hp with hp | hp <;> linarith

theorem lookup_inside {rows cols : Nat} {p : Pt} (h : Inside rows cols p) (he : ¬ PastEdge rows cols p) (raw : Img) :
    ∃ v, lookup rows cols raw p = some v ∧ Closest rows cols raw p v := by
  obtain ⟨x, y, rfl, hx, hxw, hy, hyh⟩ := h
  have h1 : x < (cols : ℚ) - 1 / 2 := by
    by_contra hc
    exact he ⟨x, y, rfl, ⟨x, y, rfl, hx, hxw, hy, hyh⟩, .inl (by linarith)⟩
  have h2 : y < (rows : ℚ) - 1 / 2 := by
    by_contra hc
    exact he ⟨x, y, rfl, ⟨x, y, rfl, hx, hxw, hy, hyh⟩, .inr (by linarith)⟩
  have h3 := (cround_lt hx cols).2 h1
  have h4 := (cround_lt hy rows).2 h2
  have h5 := cround_nonneg hx
  have h6 := cround_nonneg hy
  refine ⟨raw (cround y).toNat (cround x).toNat, ?_, x, y, rfl, (cround y).toNat, by omega, (cround x).toNat, by omega, ?_⟩
  · rw [lookup, if_pos ⟨hx, hxw, hy, hyh⟩, read, if_pos ⟨h6, h4, h5, h3⟩]
  · obtain ⟨a, b⟩ := cround_bounds hx
    obtain ⟨c, d⟩ := cround_bounds hy
    have ex : (((cround x).toNat : ℤ) : ℚ) = (cround x : ℚ) := by rw [Int.toNat_of_nonneg h5]
    have ey : (((cround y).toNat : ℤ) : ℚ) = (cround y : ℚ) := by rw [Int.toNat_of_nonneg h6]
    rw [Int.cast_natCast] at ex ey
    rw [ex, ey]
    exact ⟨c, d, a, b, rfl⟩

theorem closest_unique {rows cols : Nat} {raw : Img} {p : Pt} {v v' : Nat} (hi : Inside rows cols p)
    (h : Closest rows cols raw p v) (h' : Closest rows cols raw p v') : v = v' := by
  obtain ⟨x, y, rfl, hx, -, hy, -⟩ := hi
  obtain ⟨_, _, he, r, -, k, -, a, b, c, d, rfl⟩ := h
  cases he
  obtain ⟨_, _, he, r', -, k', -, a', b', c', d', rfl⟩ := h'
  cases he
  have e1 : r = r' := by have := (cround_unique hy a b).symm.trans (cround_unique hy a' b'); exact_mod_cast this
  have e2 : k = k' := by have := (cround_unique hx c d).symm.trans (cround_unique hx c' d'); exact_mod_cast this
  rw [e1, e2]

theorem mapM_some {α β : Type} (f : α → Option β) (l : List α) (h : ∀ a ∈ l, (f a).isSome) : ∃ o, l.mapM f = some o := by
  induction l with
  | nil => exact ⟨[], rfl⟩
  | cons a l ih =>
    obtain ⟨b, hb⟩ := Option.isSome_iff_exists.1 (h a (by simp))
    obtain ⟨o, ho⟩ := ih fun a ha => h a (by simp [ha])
    exact ⟨b :: o, by simp [List.mapM_cons, hb, ho]⟩

theorem mapM_get {α β : Type} (f : α → Option β) (l : List α) (o : List β) (h : l.mapM f = some o) :
    o.length = l.length ∧ ∀ i (hi : i < l.length), o[i]? = f l[i] := by
  induction l generalizing o with
  | nil => simp at h; subst h; simp
  | cons a l ih =>
    rw [List.mapM_cons] at h
    cases hb : f a with
    | none => rw [hb] at h; simp at h
    | some b =>
      cases ho : l.mapM f with
      | none => rw [hb, ho] at h; simp at h
      | some o' =>
        rw [hb, ho] at h
        simp at h
        subst h
        obtain ⟨h1, h2⟩ := ih o' ho
        refine ⟨by simp [h1], ?_⟩
        intro i hi
        cases i with
        | zero => simp [hb]
        | succ i => simpa using h2 i (by simpa using hi)

theorem remap_get {rows cols : Nat} {raw : Img} {area : Nat} {map : Nat → Pt} {o : List Nat}
    (h : remap rows cols raw area map = some o) : o.length = area ∧ ∀ n < area, o[n]? = lookup rows cols raw (map n) := by
  obtain ⟨h1, h2⟩ := mapM_get _ _ _ h
  refine ⟨by simpa using h1, fun n hn => ?_⟩
  have := h2 n (by simpa using hn)
  rwa [List.getElem_range] at this

theorem remap_isSome (rows cols : Nat) (raw : Img) (area : Nat) (map : Nat → Pt) :
    (remap rows cols raw area map).isSome ↔ ∀ n < area, ¬ PastEdge rows cols (map n) := by
  constructor
  · intro h n hn he
    obtain ⟨o, ho⟩ := Option.isSome_iff_exists.1 h
    obtain ⟨h1, h2⟩ := remap_get ho
    have := h2 n hn
    rw [lookup_edge he, List.getElem?_eq_getElem (by omega)] at this
    exact absurd this (by simp)
  · intro h
    rw [Option.isSome_iff_exists]
    apply mapM_some
    intro n hn
    have hn : n < area := by simpa using hn
    by_cases hi : Inside rows cols (map n)
    · obtain ⟨v, hv, _⟩ := lookup_inside hi (h n hn) raw
      rw [hv]; rfl
    · rw [lookup_outside hi]; rfl

theorem index_lt {w h r k : Nat} (hr : r < h) (hk : k < w) : r * w + k < h * w := by
  calc r * w + k < r * w + w := by omega
    _ = (r + 1) * w := by rw [Nat.add_mul, Nat.one_mul]
    _ ≤ h * w := Nat.mul_le_mul_right _ hr

theorem flipImg_get {w h : Nat} {img : List Nat} (hl : img.length = h * w) {r k : Nat} (hr : r < h) (hk : k < w) :
    (flipImg w h img)[r * w + k]? = img[r * w + (w - 1 - k)]? := by
  have hw : 0 < w := by omega
  have e1 : (r * w + k) / w = r := by
    rw [Nat.mul_comm, Nat.mul_add_div hw, Nat.div_eq_of_lt hk, Nat.add_zero]
  have e2 : (r * w + k) % w = k := by
    rw [Nat.mul_comm, Nat.mul_add_mod, Nat.mod_eq_of_lt hk]
  have hi : r * w + (w - 1 - k) < img.length := by rw [hl]; exact index_lt hr (by omega)
  rw [flipImg, List.getElem?_map, List.getElem?_range (index_lt hr hk), Option.map_some, e1, e2,
    List.getElem?_eq_getElem hi, List.getD_eq_getElem?_getD, List.getElem?_eq_getElem hi, Option.getD_some]

end Litiv.DepthMap
