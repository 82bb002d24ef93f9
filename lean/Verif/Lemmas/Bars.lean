import Verif.Lemmas.Items
import Verif.Lemmas.RoundsTo
import Verif.Props.ShapeVolume
/-!
# Series of bars
-/

namespace Traquer
open FP FloatLit
variable {ρ : Rounding}

theorem vals_map_of {α : Type} {v : List α} {f : α → FP ρ} {r : List ℝ} (hl : v.length = r.length)
    (h : ∀ (j : ℕ) b, v[j]? = some b → ∃ y, r[j]? = some y ∧ f b ⇓ y) : Fins (v.map f) ∧ vals (v.map f) = r := by
  constructor
  · intro x hx
    obtain ⟨b, hb, rfl⟩ := List.mem_map.1 hx
    obtain ⟨j, hj⟩ := List.mem_iff_getElem?.1 hb
    obtain ⟨y, -, hy⟩ := h j b hj
    exact hy.1
  · apply List.ext_getElem?
    intro j
    rw [vals_getElem?, List.getElem?_map]
    cases ht : v[j]? with
    | none =>
      rw [List.getElem?_eq_none_iff] at ht
      rw [Option.map_none, Option.map_none, eq_comm, List.getElem?_eq_none_iff]
      omega
    | some b =>
      obtain ⟨y, h1, h2⟩ := h j b ht
      rw [h1, Option.map_some, Option.map_some, h2.2]


theorem pairs_getElem?_some {α : Type} {l : List α} {j : ℕ} {p : α × α} (h : (pairs l)[j]? = some p) :
    l[j]? = some p.1 ∧ l[j + 1]? = some p.2 := by
  rw [pairs_eq_zip] at h
  obtain ⟨h1, h2⟩ := List.getElem?_zip_eq_some.1 h
  rw [List.getElem?_tail] at h2
  exact ⟨h1, h2⟩

/-- A scan whose state only remembers the last item, started with the first item. -/
theorem scan_pairs {σ α β : Type} {f : σ → α → σ × β} {k : α → σ} (hk : ∀ s x, (f s x).1 = k x) (x : α) (l : List α) :
    scan f (k x) l = (pairs (x :: l)).map fun p => (f (k p.1) p.2).2 := by
  induction l generalizing x with
  | nil => rfl
  | cons y l ih => rw [scan, hk, ih]; rfl

/-- The numbers of a bar. -/
noncomputable def barVal (b : Volume.Bar (FP ρ)) : ℝ × ℝ × ℝ × ℝ := (b.1.val, b.2.1.val, b.2.2.1.val, b.2.2.2.val)

theorem zip4_vals (high low close volume : List (FP ρ)) :
    zip4 (vals high) (vals low) (vals close) (vals volume) = (zip4 high low close volume).map barVal := by
  simp only [vals]
  induction high generalizing low close volume with
  | nil => rfl
  | cons h t ih =>
    match low, close, volume with
    | [], _, _ => rfl
    | _ :: _, [], _ => rfl
    | _ :: _, _ :: _, [] => rfl
    | _ :: _, _ :: _, _ :: _ => simp [zip4, ih, barVal]

/-- Every number of every bar is finite. -/
theorem zip4_fins {high low close volume : List (FP ρ)} (hh : Fins high) (hl : Fins low) (hc : Fins close) (hv : Fins volume)
    {b : Volume.Bar (FP ρ)} (hb : b ∈ zip4 high low close volume) : b.1.Finite ∧ b.2.1.Finite ∧ b.2.2.1.Finite ∧ b.2.2.2.Finite := by
  obtain ⟨j, hj⟩ := List.mem_iff_getElem?.1 hb
  obtain ⟨b1, b2, b3, b4⟩ := b
  obtain ⟨h1, h2, h3, h4⟩ := zip4_getElem?.1 hj
  exact ⟨hh _ (List.mem_of_getElem? h1), hl _ (List.mem_of_getElem? h2), hc _ (List.mem_of_getElem? h3), hv _ (List.mem_of_getElem? h4)⟩

theorem tailBars_some {high low close volume : List (FP ρ)} {v : List (Volume.Bar (FP ρ))}
    (e : Volume.tailBars high low close volume = some v) : v = (zip4 high low close volume).tail := by
  obtain ⟨a, ea, e⟩ := Option.bind_eq_some_iff.1 e
  obtain ⟨-, rfl⟩ := sliceFrom_some ea
  obtain ⟨a, ea, e⟩ := Option.bind_eq_some_iff.1 e
  obtain ⟨-, rfl⟩ := sliceFrom_some ea
  obtain ⟨a, ea, e⟩ := Option.bind_eq_some_iff.1 e
  obtain ⟨-, rfl⟩ := sliceFrom_some ea
  obtain ⟨a, ea, e⟩ := Option.bind_eq_some_iff.1 e
  obtain ⟨-, rfl⟩ := sliceFrom_some ea
  cases e
  match high, low, close, volume with
  | [], _, _, _ => simp [zip4]
  | _ :: _, [], _, _ => simp [zip4_eq]
  | _ :: _, _ :: _, [], _ => simp [zip4_eq]
  | _ :: _, _ :: _, _ :: _, [] => simp [zip4_eq]
  | _ :: _, _ :: _, _ :: _, _ :: _ => rfl

end Traquer
