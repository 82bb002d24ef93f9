import Verif.Spec.Real
import Verif.Spec.Basic
/-!
# Specification: what one more bar does
-/

namespace Traquer
variable {ρ : Rounding}

/-- The call does not panic and returns `n` values. From bar `k` on they are finite, and the readings `a` and `b` at two consecutive bars
`i - 1` and `i` satisfy `P i a b`. -/
def Moves (n k : ℕ) (P : ℕ → ℝ → ℝ → Prop) (r : Option (List (FP ρ))) : Prop :=
  ∃ out, r = some out ∧ out.length = n ∧ ∀ i, k < i → i < n → ∃ x y a b, out[i - 1]? = some x ∧ out[i]? = some y ∧ x ⇓ a ∧ y ⇓ b ∧ P i a b

/-- `b` lies between `a` and `p`. -/
def Between (a b p : ℝ) : Prop := a ≤ b ∧ b ≤ p ∨ p ≤ b ∧ b ≤ a

end Traquer
