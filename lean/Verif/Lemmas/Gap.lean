import Verif.Spec.Gap
import Verif.Spec.Poison
import Verif.Lemmas.Items
import Verif.Lemmas.Poison
import Verif.Props.PoisonSmooth
/-!
# How long a bad item is felt
-/

namespace Traquer
open FloatLit
variable {α β γ : Type}

/-- The items of the bars `i … i + W - 1`, as far as they exist, are all bad; the list starts at bar `k`. -/
def Gap (k : Nat) (bad : β → Prop) (i W : Nat) (l : List β) : Prop :=
  ∀ j y, i ≤ j + k → j + k < i + W → l[j]? = some y → bad y

/-- One of the items is bad. -/
def Has (bad : β → Prop) (v : List β) : Prop := ∃ x ∈ v, bad x

namespace Gap
variable {bad : α → Prop} {bad' : β → Prop} {i k W : Nat} {l : List α}

theorem one {x : α} (hx : l[i]? = some x) (h : bad x) : Gap 0 bad i 1 l := fun j y h1 h2 hy => by
  obtain rfl : j = i := by omega
  rw [hx] at hy
  cases hy
  exact h

theorem weaken {W' : Nat} (h : Gap k bad i W l) (hW : W' ≤ W) : Gap k bad i W' l := fun j y h1 h2 => h j y h1 (by omega)

theorem imp {bad' : α → Prop} (h : Gap k bad i W l) (hb : ∀ x, bad x → bad' x) : Gap k bad' i W l := fun j y h1 h2 hy => hb y (h j y h1 h2 hy)

theorem map {f : α → β} (h : Gap k bad i W l) (hf : ∀ x, bad x → bad' (f x)) : Gap k bad' i W (l.map f) := fun j y h1 h2 hy => by
  rw [List.getElem?_map, Option.map_eq_some_iff] at hy
  obtain ⟨x, hx, rfl⟩ := hy
  exact hf x (h j x h1 h2 hx)

theorem mapP {f : α → Option β} {o : List β} (h : Gap k bad i W l) (ho : Traquer.mapP f l = some o)
    (hf : ∀ x y, bad x → f x = some y → bad' y) : Gap k bad' i W o := fun j y h1 h2 hy => by
  rw [mapP_getElem? ho] at hy
  obtain ⟨x, hx, hxy⟩ := Option.bind_eq_some_iff.1 hy
  exact hf x y (h j x h1 h2 hx) hxy

theorem zip_left {m : List β} (h : Gap k bad i W l) : Gap k (fun p : α × β => bad p.1) i W (l.zip m) := fun j y h1 h2 hy =>
  h j y.1 h1 h2 (List.getElem?_zip_eq_some.1 (show _ = some (y.1, y.2) from hy)).1

theorem zip_right {m : List β} {bad : β → Prop} (h : Gap k bad i W m) : Gap k (fun p : α × β => bad p.2) i W (l.zip m) :=
  fun j y h1 h2 hy => h j y.2 h1 h2 (List.getElem?_zip_eq_some.1 (show _ = some (y.1, y.2) from hy)).2

theorem drop (h : Gap k bad i W l) (m : Nat) : Gap (k + m) bad i W (l.drop m) := fun j y h1 h2 hy =>
  h (m + j) y (by omega) (by omega) (by rwa [List.getElem?_drop] at hy)

theorem pairs (h : Gap k bad i W l) (hW : 1 ≤ W) : Gap (k + 1) (fun p : α × α => bad p.1 ∨ bad p.2) i (W + 1) (pairs l) :=
  fun j y h1 h2 hy => by
  rw [pairs_eq_zip] at hy
  obtain ⟨ha, hb⟩ := List.getElem?_zip_eq_some.1 (show _ = some (y.1, y.2) from hy)
  rw [List.getElem?_tail] at hb
  rcases Nat.lt_or_ge (j + (k + 1)) (i + W) with hj | hj
  · exact Or.inr (h (j + 1) _ (by omega) (by omega) hb)
  · exact Or.inl (h j _ (by omega) (by omega) ha)

/-- A window of `w` items that meets a bad item has one: the bad item is felt `w - 1` bars longer. -/
theorem windowsOf (w : Nat) (h : Gap k bad i W l) (hW : 1 ≤ W) (hw : 1 ≤ w) :
    Gap (k + (w - 1)) (fun v => Has bad v ∧ v.length = w) i (W + (w - 1)) (Traquer.windowsOf w l) := by
  intro j v h1 h2 hv
  have hlen : j + (w - 1) < l.length := by
    have := (List.getElem?_eq_some_iff.1 hv).1
    rw [windowsOf_length] at this
    omega
  rw [windowsOf_getElem? (by omega)] at hv
  cases hv
  have ht : max (i - k) j < l.length := by omega
  refine ⟨⟨l[max (i - k) j], ?_, h (max (i - k) j) _ (by omega) (by omega) (List.getElem?_eq_getElem ht)⟩, by simp; omega⟩
  rw [List.mem_iff_getElem?]
  refine ⟨max (i - k) j - j, ?_⟩
  rw [List.getElem?_take_of_lt (by omega), List.getElem?_drop, ← List.getElem?_eq_getElem ht]
  congr 1
  omega

theorem pad {m : Nat} {p : List α} (h : Gap (k + m) bad i W l) (hl : p.length = m) (hp : ∀ y ∈ p, bad y) : Gap k bad i W (p ++ l) := by
  intro j y h1 h2 hy
  rcases Nat.lt_or_ge j m with hj | hj
  · rw [List.getElem?_append_left (by omega)] at hy
    exact hp y (List.mem_of_getElem? hy)
  · rw [List.getElem?_append_right (by omega), hl] at hy
    exact h _ y (by omega) (by omega) hy

end Gap

variable {F : Type} [FloatOps F]

/-- A windowed function over finitely many series shows the gap if its value list does. -/
theorem gapShows_of {bad : β → Prop} {f : List β → Option (List F)} {W : Nat}
    (h : ∀ bars i out, Gap 0 bad i 1 bars → f bars = some out → Gap 0 IsNaN i W out) : GapShows W bad f :=
  fun bars i _ hx hb out ho j y h1 h2 hy => h bars i out (Gap.one hx hb) ho j y (by omega) (by omega) hy

variable [NaNLaws F]

theorem Gap.nans {k m i W : Nat} {l : List F} (h : Gap (k + m) IsNaN i W l) : Gap k IsNaN i W (nans m ++ l) :=
  h.pad (nans_length m) fun y hy => by
    rw [Traquer.nans, List.mem_replicate] at hy
    rw [hy.2]
    exact NaNLaws.nan_isNaN

theorem Gap.cons {k i W : Nat} {l : List F} (h : Gap (k + 1) IsNaN i W l) : Gap k IsNaN i W (nan :: l) := h.nans (m := 1)

theorem has_fsum {v : List F} (h : Has IsNaN v) : isNaN (fsum v) = true := fsum_isNaN h

omit [NaNLaws F] in
theorem has_map {bad : β → Prop} {g : β → F} {v : List β} (h : Has bad v) (hg : ∀ x, bad x → isNaN (g x) = true) : Has IsNaN (v.map g) := by
  obtain ⟨x, hx, hb⟩ := h
  exact ⟨g x, List.mem_map_of_mem hx, hg x hb⟩

omit [FloatOps F] [NaNLaws F] in
theorem has_zip_left {bad : β → Prop} {v : List β} {m : List γ} (h : Has bad v) (hl : v.length ≤ m.length) :
    Has (fun p : β × γ => bad p.1) (v.zip m) := by
  obtain ⟨x, hx, hb⟩ := h
  obtain ⟨t, ht, rfl⟩ := List.mem_iff_getElem.1 hx
  exact ⟨(v[t], m[t]), List.mem_iff_getElem.2 ⟨t, by simp; omega, by simp⟩, hb⟩

omit [FloatOps F] [NaNLaws F] in
theorem has_zip_right {bad : γ → Prop} {v : List β} {m : List γ} (h : Has bad m) (hl : m.length ≤ v.length) :
    Has (fun p : β × γ => bad p.2) (v.zip m) := by
  obtain ⟨x, hx, hb⟩ := h
  obtain ⟨t, ht, rfl⟩ := List.mem_iff_getElem.1 hx
  exact ⟨(v[t], m[t]), List.mem_iff_getElem.2 ⟨t, by simp; omega, by simp⟩, hb⟩

/-- A running total over items one of which is bad. -/
theorem has_foldl {bad : β → Prop} {g : F → β → F} {v : List β} {a : F} (h : Has bad v) (keep : ∀ s x, isNaN s = true → isNaN (g s x) = true)
    (hit : ∀ s x, bad x → isNaN (g s x) = true) : isNaN (v.foldl g a) = true := by
  obtain ⟨x, hx, hb⟩ := h
  exact foldl_isNaN (q := bad) (p := fun s => isNaN s = true) keep hit (Or.inr ⟨x, hx, hb⟩)

end Traquer
