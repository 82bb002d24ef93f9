import Verif.Spec.Real
/-!
# Specification: reading a chart backwards
-/

namespace Traquer
variable {ρ : Rounding}

/-- `r` is the answer for a series of `n` bars and `r'` the answer for the same bars in reverse order. Both are finite from bar `k` on, and
the two readings `a` and `a'` over the same `k + 1` bars (which end at bar `i` of the one chart and at bar `n - 1 - (i - k)` of the other)
satisfy `P a a'`. -/
def Backwards (n k : ℕ) (P : ℝ → ℝ → Prop) (r r' : Option (List (FP ρ))) : Prop :=
  ∃ v v', Reports n k v r ∧ Reports n k v' r' ∧ ∀ i, k ≤ i → i < n → P (v i) (v' (n - 1 + k - i))

end Traquer
