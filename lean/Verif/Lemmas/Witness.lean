import Verif.Lemmas.Range
/-!
# Concrete values, used to show that the theorems say something about concrete runs
-/

namespace Traquer
open FP

/-- The run does not panic and reports the number `a` at bar `i`. -/
def ValueAt (r : Option (List XF)) (i : ℕ) (a : ℝ) : Prop := ∃ out y, r = some out ∧ out[i]? = some y ∧ y ⇓ a

theorem Reports.value {n k : ℕ} {v : ℕ → ℝ} {r : Option (List XF)} (h : Reports n k v r) (i : ℕ) (hk : k ≤ i) (hn : i < n) {a : ℝ}
    (e : v i = a) : ValueAt r i a := by
  obtain ⟨out, eo, -, -, h⟩ := h
  obtain ⟨y, ey, hy⟩ := h i hk hn
  exact ⟨out, y, eo, ey, hy.congr e⟩

theorem ReportsP.quot {n k : ℕ} {v u : ℕ → ℝ} {r : Option (List XF)} (h : ReportsP n k (fun i => QuotIs (v i) (u i)) r) (i : ℕ)
    (hk : k ≤ i) (hn : i < n) {a : ℝ} (h0 : u i ≠ 0) (e : v i / u i = a) : ValueAt r i a := by
  obtain ⟨out, eo, -, -, h⟩ := h
  obtain ⟨y, ey, hy⟩ := h i hk hn
  exact ⟨out, y, eo, ey, (hy.1 h0).congr e⟩

/-- Numbers that are all different from zero. -/
theorem nonzero_map_fin {xs : List ℝ} (h : ∀ x ∈ xs, x ≠ 0) : ∀ x ∈ xs.map (fin : ℝ → XF), ¬ x ⇓ 0 := by
  intro x hx h0
  obtain ⟨r, hr, rfl⟩ := List.mem_map.1 hx
  exact h r hr h0.2

end Traquer
