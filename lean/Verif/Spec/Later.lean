import Verif.Spec.Real
import Verif.Spec.Basic
/-!
# Specification: a series that starts later

`r` is the answer for the whole series, `r'` the answer for the series without its first `k` bars. Bar `i` of the shorter series is bar
`i + k` of the whole one.
-/

namespace Traquer
variable {ρ : Rounding}

/-- From bar `w` of the shorter series on, the whole series reports the same plus a constant. -/
def LaterAdds (k w : ℕ) (r r' : Option (List (FP ρ))) : Prop :=
  ∃ out out' c, r = some out ∧ r' = some out' ∧ out'.length + k = out.length ∧
    ∀ i, w ≤ i → i < out'.length → ∃ x y a, out[i + k]? = some x ∧ out'[i]? = some y ∧ x ⇓ a + c ∧ y ⇓ a

/-- From bar `w` of the shorter series on, the whole series reports the same times a constant. -/
def LaterScales (k w : ℕ) (r r' : Option (List (FP ρ))) : Prop :=
  ∃ out out' c, r = some out ∧ r' = some out' ∧ out'.length + k = out.length ∧
    ∀ i, w ≤ i → i < out'.length → ∃ x y a, out[i + k]? = some x ∧ out'[i]? = some y ∧ x ⇓ c * a ∧ y ⇓ a

/-- The whole series reports the mean of a value per bar: its first `k` bars contribute the fixed total `c`, the others what the shorter series
reports. -/
def LaterAverages (k : ℕ) (r r' : Option (List (FP ρ))) : Prop :=
  ∃ out out' c, r = some out ∧ r' = some out' ∧ out'.length + k = out.length ∧
    ∀ i, i < out'.length → ∃ x y a b, out[i + k]? = some x ∧ out'[i]? = some y ∧ x ⇓ a ∧ y ⇓ b ∧
      ((i + k + 1 : ℕ) : ℝ) * a = c + ((i + 1 : ℕ) : ℝ) * b

end Traquer
