import Verif.Spec.Real
/-!
# Specification: two assets held together
-/

namespace Traquer
variable {ρ : Rounding}

/-- The value of one unit of each of two assets, bar by bar. -/
noncomputable def holding (x y : List (FP ρ)) : List (FP ρ) := (x.zip y).map fun p => p.1 + p.2

/-- A measure of risk: the readings `a` and `b` of two assets and the reading `c` of both held together are finite from bar `k` on, and the
two risks can at most add up and at best cancel. -/
def Diversifies (n k : ℕ) (rx ry rz : Option (List (FP ρ))) : Prop :=
  ∃ a b c, Reports n k a rx ∧ Reports n k b ry ∧ Reports n k c rz ∧ ∀ i, k ≤ i → i < n → |a i - b i| ≤ c i ∧ c i ≤ a i + b i

end Traquer
