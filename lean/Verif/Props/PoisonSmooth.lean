import Verif.Spec.Poison
import Verif.Lemmas.Poison
import Verif.Lemmas.Items
import Verif.Props.ShapeSmooth
/-!
# A NaN price spoils the recursive averages for good
-/

namespace Traquer
open FloatLit
variable {F : Type} [FloatOps F]

/-- Everything from position `i`, which exists, on is NaN. -/
structure Spoiled (i : Nat) (l : List F) : Prop where
  lt : i < l.length
  nan : ∀ j y, i ≤ j → l[j]? = some y → isNaN y = true

/-- Position `i` is NaN. -/
def Bad (i : Nat) (l : List F) : Prop := ∃ x, l[i]? = some x ∧ isNaN x = true

theorem Spoiled.bad {i : Nat} {l : List F} (h : Spoiled i l) : Bad i l :=
  ⟨l[i]'h.lt, List.getElem?_eq_getElem h.lt, h.nan i _ (Nat.le_refl _) (List.getElem?_eq_getElem h.lt)⟩

theorem Bad.lt {i : Nat} {l : List F} (h : Bad i l) : i < l.length := by
  obtain ⟨x, hx, -⟩ := h
  exact (List.getElem?_eq_some_iff.1 hx).1

theorem Bad.mem {i : Nat} {l : List F} (h : Bad i l) : ∃ x ∈ l, isNaN x = true := by
  obtain ⟨x, hx, h⟩ := h
  exact ⟨x, List.mem_of_getElem? hx, h⟩

theorem Spoiled.drop {i k : Nat} {l : List F} (h : Spoiled i l) (hk : k < l.length) : Spoiled (i - k) (l.drop k) :=
  ⟨by have := h.lt; simp; omega, fun j y hj hy => h.nan (k + j) y (by omega) (by simpa using hy)⟩

theorem Bad.drop {i k : Nat} {l : List F} (h : Bad i l) (hk : k ≤ i) : Bad (i - k) (l.drop k) := by
  obtain ⟨x, hx, h⟩ := h
  exact ⟨x, by rw [List.getElem?_drop, show k + (i - k) = i by omega, hx], h⟩

theorem zip_at {α β : Type} {l : List α} {m : List β} {i : Nat} {a : α} {b : β} (h : l[i]? = some a) (h' : m[i]? = some b) :
    (l.zip m)[i]? = some (a, b) := List.getElem?_zip_eq_some.2 ⟨h, h'⟩

variable [NaNLaws F]

theorem isNaN_nans {k j : Nat} {y : F} (h : (nans k : List F)[j]? = some y) : isNaN y = true := by
  rw [nans, List.getElem?_replicate] at h
  split at h <;> simp at h
  subst h
  exact NaNLaws.nan_isNaN

theorem Spoiled.nans {i k : Nat} {l : List F} (h : Spoiled (i - k) l) (hi : k ≤ i) : Spoiled i (nans k ++ l) :=
  ⟨by have := h.lt; simp; omega, fun j y hj hy => h.nan (j - k) y (by omega) (by
    rwa [List.getElem?_append_right (by simp; omega), nans_length] at hy)⟩

/-- The padding is NaN already. -/
theorem Spoiled.nans_le {i k : Nat} {l : List F} (h : Spoiled (i - k) l) : ∀ j y, i ≤ j → (Traquer.nans k ++ l)[j]? = some y → isNaN y = true := by
  intro j y hj hy
  rcases Nat.lt_or_ge j k with hk | hk
  · rw [List.getElem?_append_left (by simpa using hk)] at hy
    exact isNaN_nans hy
  · rw [List.getElem?_append_right (by simpa using hk), nans_length] at hy
    exact h.nan _ y (by omega) hy

theorem isNaN_powi {x : F} (h : isNaN x = true) : isNaN (powi x 2) = true := by
  have : powi x 2 = 1 * (x * x) := by simp [powi, powiLoop]
  rw [this]
  nanp

theorem isNaN_fsum_bad {i : Nat} {l : List F} (h : Bad i l) : isNaN (fsum l) = true := fsum_isNaN h.mem

end Traquer

namespace Traquer.Smooth
open FloatLit
variable {F : Type} [FloatOps F] [NaNLaws F]

theorem ewma_spoiled {l o : List F} {w i : Nat} (h : Bad i l) (ho : ewma l w = some o) : Spoiled i o := by
  have hi := h.lt
  simp only [ewma] at ho
  unslice ho
  obtain ⟨hn, hw, -, ho⟩ := ho
  cases ho
  obtain ⟨x, hx, hN⟩ := h
  refine ⟨by simp; omega, fun j y hj hy => ?_⟩
  have keep : ∀ (s z : F), isNaN s = true → isNaN (z * (2 / flt (w + 1)) + s * (1 - 2 / flt (w + 1))) = true := fun s z h => by nanp
  rcases Nat.lt_or_ge j (w - 1) with hk | hk
  · rw [List.getElem?_append_left (by simpa using hk)] at hy
    exact isNaN_nans hy
  rw [List.getElem?_append_right (by simpa using hk), nans_length] at hy
  rcases Nat.lt_or_ge i w with hiw | hiw
  · have h0 : isNaN (fsum (l.take w) / flt w : F) = true := by
      have : isNaN (fsum (l.take w)) = true := isNaN_fsum_bad (i := i) ⟨x, by rw [List.getElem?_take_of_lt hiw, hx], hN⟩
      nanp
    have := scanS_keep (P := fun s : F => isNaN s = true) keep h0 (l := l.drop w)
    rcases List.mem_cons.1 (List.mem_of_getElem? hy) with rfl | hm
    · exact h0
    · exact this y hm
  · have hx' : (l.drop w)[i - w]? = some x := by rw [List.getElem?_drop, show w + (i - w) = i by omega, hx]
    obtain ⟨m, hm⟩ : ∃ m, j - (w - 1) = m + 1 := ⟨j - w, by omega⟩
    rw [hm, List.getElem?_cons_succ] at hy
    exact scanS_poison (P := fun s : F => isNaN s = true) keep (fun s => by nanp) hx' _ m y (by omega) hy

/-- A NaN price spoils the exponential average from that bar on. -/
theorem ewma_poisoned (w : Nat) : PoisonedBy 0 IsNaN fun l : List F => ewma l w :=
  fun _ _ x _ hx hN _ ho => (ewma_spoiled ⟨x, hx, hN⟩ ho).nan

example (a b c x y : F) (out : List F) (h : ewma [a, nan, b, c, x, y] 2 = some out) : ∀ j y, 1 ≤ j → out[j]? = some y → isNaN y = true :=
  ewma_poisoned 2 _ 1 nan (by decide) rfl NaNLaws.nan_isNaN out h

/-- Wilder's average, for two or more bars (with `window = 1` the input is returned). -/
theorem wilder_spoiled {l o : List F} {w i : Nat} (hw : 2 ≤ w) (h : Bad i l) (ho : wilder l w = some o) : Spoiled i o := by
  have hi := h.lt
  simp only [wilder, if_neg (show ¬ w = 1 by omega)] at ho
  unslice ho
  obtain ⟨-, hn, -, ho⟩ := ho
  cases ho
  obtain ⟨x, hx, hN⟩ := h
  have keep : ∀ (s z : F), isNaN s = true → isNaN ((s * flt (w - 1) + z) / flt w) = true := fun s z h => by nanp
  refine ⟨by simp; omega, fun j y hj hy => ?_⟩
  rcases Nat.lt_or_ge j (w - 1) with hk | hk
  · rw [List.getElem?_append_left (by simpa using hk)] at hy
    exact isNaN_nans hy
  rw [List.getElem?_append_right (by simpa using hk), nans_length] at hy
  rcases Nat.lt_or_ge i (w - 1) with hiw | hiw
  · have h0 : isNaN (fsum (l.take (w - 1)) / flt (w - 1) : F) = true := by
      have : isNaN (fsum (l.take (w - 1))) = true := isNaN_fsum_bad (i := i) ⟨x, by rw [List.getElem?_take_of_lt hiw, hx], hN⟩
      nanp
    exact scanS_keep (P := fun s : F => isNaN s = true) keep h0 y (List.mem_of_getElem? hy)
  · have hx' : (l.drop (w - 1))[i - (w - 1)]? = some x := by rw [List.getElem?_drop, show w - 1 + (i - (w - 1)) = i by omega, hx]
    exact scanS_poison (P := fun s : F => isNaN s = true) keep (fun s => by nanp) hx' _ _ y (by omega) hy

theorem wilder_poisoned {w : Nat} (hw : 2 ≤ w) : PoisonedBy 0 IsNaN fun l : List F => wilder l w :=
  fun _ _ x _ hx hN _ ho => (wilder_spoiled hw ⟨x, hx, hN⟩ ho).nan

example (a b c x y : F) (out : List F) (h : wilder [a, nan, b, c, x, y] 3 = some out) : ∀ j y, 1 ≤ j → out[j]? = some y → isNaN y = true :=
  wilder_poisoned (by decide) _ 1 nan (by decide) rfl NaNLaws.nan_isNaN out h

/-- With a window of one bar `wilder` returns its input: a NaN is not remembered. -/
theorem wilder_one_recovers (a : F) (ha : isNaN a = false) : ¬ PoisonedBy 0 IsNaN fun l : List F => wilder l 1 := fun h => by
  have := h [nan, a] 0 nan (by decide) rfl NaNLaws.nan_isNaN [nan, a] rfl 1 a (by decide) rfl
  rw [ha] at this
  cases this

omit [NaNLaws F] in
theorem ewma_length {l o : List F} {w : Nat} (ho : ewma l w = some o) : o.length = l.length ∧ 1 ≤ w ∧ w ≤ l.length := by
  simp only [ewma] at ho
  unslice ho
  obtain ⟨hn, hw, -, ho⟩ := ho
  cases ho
  simp
  omega

/-- A second average, over the reported part of a spoiled one. -/
theorem ewma_tail {l o : List F} {w i k : Nat} (h : Spoiled i l) (ho : ewma (l.drop k) w = some o) : Spoiled (i - k) o := by
  have := ewma_length ho
  simp at this
  exact ewma_spoiled (h.drop (by omega)).bad ho

theorem dema_poisoned (w : Nat) : PoisonedBy 0 IsNaN fun l : List F => dema l w := fun l i x _ hx hN o ho j y hj hy => by
  simp only [dema] at ho
  obtain ⟨ma, e1, ho⟩ := Option.bind_eq_some_iff.1 ho
  unslice ho
  obtain ⟨-, -, ho⟩ := ho
  obtain ⟨ma2, -, ho⟩ := Option.bind_eq_some_iff.1 ho
  cases ho
  have h := ewma_spoiled ⟨x, hx, hN⟩ e1
  simp only [List.getElem?_map, Option.map_eq_some_iff, List.getElem?_zip_eq_some] at hy
  obtain ⟨⟨p, q⟩, ⟨h1, -⟩, rfl⟩ := hy
  have := h.nan j p hj h1
  show isNaN (2 * p - q) = true
  nanp

example (a b c x y : F) (out : List F) (h : dema [a, nan, b, c, x, y] 2 = some out) : ∀ j y, 1 ≤ j → out[j]? = some y → isNaN y = true :=
  dema_poisoned 2 _ 1 nan (by decide) rfl NaNLaws.nan_isNaN out h

theorem tema_poisoned (w : Nat) : PoisonedBy 0 IsNaN fun l : List F => tema l w := fun l i x _ hx hN o ho j y hj hy => by
  simp only [tema] at ho
  obtain ⟨ma, e1, ho⟩ := Option.bind_eq_some_iff.1 ho
  unslice ho
  obtain ⟨-, -, ho⟩ := ho
  obtain ⟨ma2, -, ho⟩ := Option.bind_eq_some_iff.1 ho
  unslice ho
  obtain ⟨-, ho⟩ := ho
  obtain ⟨ma3, -, ho⟩ := Option.bind_eq_some_iff.1 ho
  cases ho
  have h := ewma_spoiled ⟨x, hx, hN⟩ e1
  simp only [zip3_eq, List.getElem?_map, Option.map_eq_some_iff, List.getElem?_zip_eq_some] at hy
  obtain ⟨⟨p, q, r⟩, ⟨h1, -⟩, rfl⟩ := hy
  have := h.nan j p hj h1
  show isNaN (3 * p - 3 * q + r) = true
  nanp

example (a b c x y : F) (out : List F) (h : tema [a, nan, b, c, x, y] 2 = some out) : ∀ j y, 1 ≤ j → out[j]? = some y → isNaN y = true :=
  tema_poisoned 2 _ 1 nan (by decide) rfl NaNLaws.nan_isNaN out h

theorem t3_poisoned (w : Nat) (f : Option F) : PoisonedBy 0 IsNaN fun l : List F => t3 l w f := fun l i x _ hx hN o ho j y hj hy => by
  simp only [t3] at ho
  obtain ⟨ma, e1, ho⟩ := Option.bind_eq_some_iff.1 ho
  unslice ho
  obtain ⟨-, -, ho⟩ := ho
  obtain ⟨ma2, e2, ho⟩ := Option.bind_eq_some_iff.1 ho
  unslice ho
  obtain ⟨-, ho⟩ := ho
  obtain ⟨ma3, e3, ho⟩ := Option.bind_eq_some_iff.1 ho
  unslice ho
  obtain ⟨-, ho⟩ := ho
  obtain ⟨ma4, -, ho⟩ := Option.bind_eq_some_iff.1 ho
  unslice ho
  obtain ⟨-, ho⟩ := ho
  obtain ⟨ma5, -, ho⟩ := Option.bind_eq_some_iff.1 ho
  unslice ho
  obtain ⟨-, ho⟩ := ho
  obtain ⟨ma6, -, ho⟩ := Option.bind_eq_some_iff.1 ho
  cases ho
  have h := ewma_tail (ewma_tail (ewma_spoiled ⟨x, hx, hN⟩ e1) e2) e3
  rcases Nat.lt_or_ge j ((w - 1) * 2) with hk | hk
  · rw [List.getElem?_append_left (by simpa using hk)] at hy
    exact isNaN_nans hy
  rw [List.getElem?_append_right (by simpa using hk), nans_length] at hy
  simp only [zip4_eq, List.getElem?_map, Option.map_eq_some_iff, List.getElem?_zip_eq_some] at hy
  obtain ⟨⟨p, q, r, s⟩, ⟨h1, -⟩, rfl⟩ := hy
  have := h.nan _ p (by omega) h1
  dsimp only
  apply NaNLaws.add_right
  nanp

example (a b c x y : F) (out : List F) (h : t3 [a, nan, b, c, x, y, a, b] 2 none = some out) :
    ∀ j y, 1 ≤ j → out[j]? = some y → isNaN y = true :=
  t3_poisoned 2 none _ 1 nan (by decide) rfl NaNLaws.nan_isNaN out h

theorem zlma_poisoned (w : Nat) : PoisonedBy 0 IsNaN fun l : List F => zlma l w := fun l i x _ hx hN o ho j y hj hy => by
  have hi := (List.getElem?_eq_some_iff.1 hx).1
  simp only [zlma] at ho
  unslice ho
  obtain ⟨hw, hl, ho⟩ := ho
  obtain ⟨r, e, ho⟩ := Option.bind_eq_some_iff.1 ho
  cases ho
  obtain ⟨lr, -, hn⟩ := ewma_length e
  simp at lr hn
  rcases Nat.lt_or_ge i ((w - 1) / 2) with hk | hk
  · have h : Spoiled i r := ewma_spoiled ⟨2 * l[(w - 1) / 2 + i]'(by omega) - x, by
      rw [List.getElem?_map, zip_at (b := l[(w - 1) / 2 + i]'(by omega)) hx (by
        rw [List.getElem?_drop, List.getElem?_eq_getElem])]; rfl, by nanp⟩ e
    rcases Nat.lt_or_ge j ((w - 1) / 2) with hj' | hj'
    · rw [List.getElem?_append_left (by simpa using hj')] at hy
      exact isNaN_nans hy
    rw [List.getElem?_append_right (by simpa using hj'), nans_length] at hy
    rcases Nat.lt_or_ge (j - (w - 1) / 2) i with hj2 | hj2
    · simp only [ewma] at e
      unslice e
      obtain ⟨-, -, -, e⟩ := e
      cases e
      rw [List.getElem?_append_left (by simp; omega)] at hy
      exact isNaN_nans hy
    · exact h.nan _ y hj2 hy
  · have hx2 : (l.drop ((w - 1) / 2))[i - (w - 1) / 2]? = some x := by rw [List.getElem?_drop, ← hx]; congr 1; omega
    have h : Spoiled (i - (w - 1) / 2) r := ewma_spoiled ⟨2 * x - l[i - (w - 1) / 2]'(by omega), by
      rw [List.getElem?_map, zip_at (a := l[i - (w - 1) / 2]'(by omega)) (List.getElem?_eq_getElem _) hx2]; rfl, by nanp⟩ e
    exact (h.nans hk).nan j y hj hy

example (a b c x y : F) (out : List F) (h : zlma [nan, a, b, c, x, y] 3 = some out) : ∀ j y, 0 ≤ j → out[j]? = some y → isNaN y = true :=
  zlma_poisoned 3 _ 0 nan (by decide) rfl NaNLaws.nan_isNaN out h

theorem mdma_poisoned (w : Nat) : PoisonedBy 0 IsNaN fun l : List F => mdma l w := fun l i x _ hx hN o ho j y hj hy => by
  have keep : ∀ (s z : F), isNaN s = true → isNaN (s + (z - s) / (0.6 * flt w * powi (z / s) 4)) = true := fun s z h => by nanp
  simp only [mdma] at ho
  obtain ⟨d0, e, ho⟩ := Option.bind_eq_some_iff.1 ho
  unslice ho
  obtain ⟨-, ho⟩ := ho
  cases ho
  cases i with
  | zero =>
    rw [hx] at e
    cases e
    rcases List.mem_cons.1 (List.mem_of_getElem? hy) with rfl | hm
    · exact hN
    · exact scanS_keep (P := fun s : F => isNaN s = true) keep hN y hm
  | succ i =>
    obtain ⟨m, rfl⟩ : ∃ m, j = m + 1 := ⟨j - 1, by omega⟩
    rw [List.getElem?_cons_succ] at hy
    have hN : isNaN x = true := hN
    exact scanS_poison (P := fun s : F => isNaN s = true) keep (fun s => by nanp) (x₀ := x) (i := i)
      (by rw [List.getElem?_drop, ← hx]; congr 1; omega) _ m y (by omega) hy

example (a b c x y : F) (out : List F) (h : mdma [a, nan, b, c, x, y] 2 = some out) : ∀ j y, 1 ≤ j → out[j]? = some y → isNaN y = true :=
  mdma_poisoned 2 _ 1 nan (by decide) rfl NaNLaws.nan_isNaN out h

theorem hwma_poisoned (a b c : Option F) : PoisonedBy 0 IsNaN fun l : List F => hwma l a b c := fun l i x _ hx hN o ho j y hj hy => by
  simp only [hwma] at ho
  obtain ⟨d0, e, ho⟩ := Option.bind_eq_some_iff.1 ho
  cases ho
  have hN : isNaN x = true := hN
  refine scan_poison (P := fun s : F × F × F => isNaN s.1 = true) (Q := fun y => isNaN y = true) (fun s z hs => ?_) (fun s => ?_) hx _ j y hj hy
  · have : isNaN s.1 = true := hs
    exact ⟨by dsimp only; nanp, by dsimp only; nanp⟩
  · exact ⟨by dsimp only; nanp, by dsimp only; nanp⟩

example (a b c x y : F) (out : List F) (h : hwma [a, nan, b, c, x, y] none none none = some out) :
    ∀ j y, 1 ≤ j → out[j]? = some y → isNaN y = true :=
  hwma_poisoned none none none _ 1 nan (by decide) rfl NaNLaws.nan_isNaN out h

/-- Two and three poles. The first bars are used as the state, and returned as NaN. -/
theorem ssf_poisoned (w : Nat) (tri : Option Bool) : PoisonedBy 0 IsNaN fun l : List F => ssf l w tri := fun l i x _ hx hN o ho j y hj hy => by
  have hN : isNaN x = true := hN
  simp only [ssf] at ho
  split at ho
  · unslice ho
    obtain ⟨-, ho⟩ := ho
    obtain ⟨d0, e0, ho⟩ := Option.bind_eq_some_iff.1 ho
    obtain ⟨d1, e1, ho⟩ := Option.bind_eq_some_iff.1 ho
    obtain ⟨d2, e2, ho⟩ := Option.bind_eq_some_iff.1 ho
    cases ho
    rcases Nat.lt_or_ge j 3 with hk | hk
    · rw [List.getElem?_append_left (by simpa using hk)] at hy
      exact isNaN_nans hy
    rw [List.getElem?_append_right (by simpa using hk), nans_length] at hy
    rcases Nat.lt_or_ge i 3 with hiw | hiw
    · refine scan_keep (P := fun s : F × F × F => isNaN s.1 = true ∨ isNaN s.2.1 = true ∨ isNaN s.2.2 = true) (Q := fun y => isNaN y = true)
        (fun s z hs => ?_) ?_ y (List.mem_of_getElem? hy)
      · refine ⟨.inr (.inr ?_), ?_⟩ <;> (rcases hs with hs | hs | hs <;> (dsimp only; nanp))
      · have : i = 0 ∨ i = 1 ∨ i = 2 := by omega
        rcases this with rfl | rfl | rfl
        · rw [hx] at e0; cases e0; exact .inl hN
        · rw [hx] at e1; cases e1; exact .inr (.inl hN)
        · rw [hx] at e2; cases e2; exact .inr (.inr hN)
    · refine scan_poison (P := fun s : F × F × F => isNaN s.2.2 = true) (Q := fun y => isNaN y = true) (fun s z hs => ?_) (fun s => ?_)
        (x₀ := x) (i := i - 3) (by rw [List.getElem?_drop, ← hx]; congr 1; omega) _ _ y (by omega) hy
      · have : isNaN s.2.2 = true := hs
        exact ⟨by dsimp only; nanp, by dsimp only; nanp⟩
      · exact ⟨by dsimp only; nanp, by dsimp only; nanp⟩
  · unslice ho
    obtain ⟨-, ho⟩ := ho
    obtain ⟨d0, e0, ho⟩ := Option.bind_eq_some_iff.1 ho
    obtain ⟨d1, e1, ho⟩ := Option.bind_eq_some_iff.1 ho
    cases ho
    rcases Nat.lt_or_ge j 2 with hk | hk
    · rw [List.getElem?_append_left (by simpa using hk)] at hy
      exact isNaN_nans hy
    rw [List.getElem?_append_right (by simpa using hk), nans_length] at hy
    rcases Nat.lt_or_ge i 2 with hiw | hiw
    · refine scan_keep (P := fun s : F × F => isNaN s.1 = true ∨ isNaN s.2 = true) (Q := fun y => isNaN y = true)
        (fun s z hs => ?_) ?_ y (List.mem_of_getElem? hy)
      · refine ⟨.inr ?_, ?_⟩ <;> (rcases hs with hs | hs <;> (dsimp only; nanp))
      · have : i = 0 ∨ i = 1 := by omega
        rcases this with rfl | rfl
        · rw [hx] at e0; cases e0; exact .inl hN
        · rw [hx] at e1; cases e1; exact .inr hN
    · refine scan_poison (P := fun s : F × F => isNaN s.2 = true) (Q := fun y => isNaN y = true) (fun s z hs => ?_) (fun s => ?_)
        (x₀ := x) (i := i - 2) (by rw [List.getElem?_drop, ← hx]; congr 1; omega) _ _ y (by omega) hy
      · have : isNaN s.2 = true := hs
        exact ⟨by dsimp only; nanp, by dsimp only; nanp⟩
      · exact ⟨by dsimp only; nanp, by dsimp only; nanp⟩

example (a b c x y : F) (out : List F) (h : ssf [a, nan, b, c, x, y] 5 none = some out) : ∀ j y, 1 ≤ j → out[j]? = some y → isNaN y = true :=
  ssf_poisoned 5 none _ 1 nan (by decide) rfl NaNLaws.nan_isNaN out h

end Traquer.Smooth
