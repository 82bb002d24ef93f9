import Verif.Lemmas.Rounded
/-!
# The order of floats including infinities
-/

namespace Traquer.FP
variable {ρ : Rounding} {x y z : FP ρ}

theorem le_iff : (x <=. y) = true ↔ x ≠ nan ∧ y ≠ nan ∧ x.toE ≤ y.toE := by
  cases x <;> cases y <;> simp [le_def, le, isNaN, -EReal.coe_le_coe_iff]

theorem lt_iff : (x <. y) = true ↔ x ≠ nan ∧ y ≠ nan ∧ x.toE < y.toE := by
  cases x <;> cases y <;> simp [lt_def, lt, isNaN, -EReal.coe_lt_coe_iff]

theorem le_rfl' (h : x ≠ nan) : (x <=. x) = true := le_iff.2 ⟨h, h, le_rfl⟩

theorem le_trans' (h1 : (x <=. y) = true) (h2 : (y <=. z) = true) : (x <=. z) = true := by
  rw [le_iff] at *; exact ⟨h1.1, h2.2.1, h1.2.2.trans h2.2.2⟩

theorem le_of_not_lt (hx : x ≠ nan) (hy : y ≠ nan) (h : (x <. y) = false) : (y <=. x) = true := by
  refine le_iff.2 ⟨hy, hx, not_lt.1 fun hl => ?_⟩
  rw [lt_iff.2 ⟨hx, hy, hl⟩] at h; cases h

theorem le_of_lt' (h : (x <. y) = true) : (x <=. y) = true := by
  rw [lt_iff] at h; exact le_iff.2 ⟨h.1, h.2.1, h.2.2.le⟩

theorem is_le_iff {a b : ℝ} (hx : x ⇓ a) (hy : y ⇓ b) : (x <=. y) = true ↔ a ≤ b := by rw [is_le hx hy, decide_eq_true_iff]

theorem fmax_spec (hx : x ≠ nan) : (x <=. fmax x y) = true ∧ fmax x y ≠ nan := by
  have h1 : ¬Traquer.isNaN x = true := fun h => hx (isNaN_iff.1 h)
  simp only [fmax, if_neg h1]
  split
  · exact ⟨le_rfl' hx, hx⟩
  · rename_i hy
    have hy : y ≠ nan := fun h => hy (isNaN_iff.2 h)
    split
    · rename_i h; exact ⟨le_of_lt' h, hy⟩
    · exact ⟨le_rfl' hx, hx⟩

theorem fmax_spec_right (hy : y ≠ nan) : (y <=. fmax x y) = true ∧ fmax x y ≠ nan := by
  have h1 : ¬Traquer.isNaN y = true := fun h => hy (isNaN_iff.1 h)
  simp only [fmax, if_neg h1]
  split
  · exact ⟨le_rfl' hy, hy⟩
  · rename_i hx
    have hx : x ≠ nan := fun h => hx (isNaN_iff.2 h)
    split
    · exact ⟨le_rfl' hy, hy⟩
    · rename_i h; exact ⟨le_of_not_lt hx hy (by simpa using h), hx⟩

theorem fmin_spec (hx : x ≠ nan) : (fmin x y <=. x) = true ∧ fmin x y ≠ nan := by
  have h1 : ¬Traquer.isNaN x = true := fun h => hx (isNaN_iff.1 h)
  simp only [fmin, if_neg h1]
  split
  · exact ⟨le_rfl' hx, hx⟩
  · rename_i hy
    have hy : y ≠ nan := fun h => hy (isNaN_iff.2 h)
    split
    · rename_i h; exact ⟨le_of_lt' h, hy⟩
    · exact ⟨le_rfl' hx, hx⟩

theorem fmin_spec_right (hy : y ≠ nan) : (fmin x y <=. y) = true ∧ fmin x y ≠ nan := by
  have h1 : ¬Traquer.isNaN y = true := fun h => hy (isNaN_iff.1 h)
  simp only [fmin, if_neg h1]
  split
  · exact ⟨le_rfl' hy, hy⟩
  · rename_i hx
    have hx : x ≠ nan := fun h => hx (isNaN_iff.2 h)
    split
    · exact ⟨le_rfl' hy, hy⟩
    · rename_i h; exact ⟨le_of_not_lt hy hx (by simpa using h), hx⟩

theorem fmin_inf (hx : x ≠ nan) : fmin (inf false) x = x ∨ x = inf false := by
  cases x with
  | nan => exact absurd rfl hx
  | inf b => cases b <;> simp [fmin, isNaN_def, isNaN, lt_def, lt, toE]
  | negz => left; simp [fmin, isNaN_def, isNaN, lt_def, lt, toE]
  | fin r => left; simp [fmin, isNaN_def, isNaN, lt_def, lt, toE]

end Traquer.FP
