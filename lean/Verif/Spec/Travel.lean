import Verif.Spec.Flow
import Verif.Spec.Real
import Mathlib.Algebra.BigOperators.Intervals
/-!
# Specification: how far a line travels

The distance a line travels between two bars is the sum of the sizes of its moves in between. A wiggly line travels far, and a line
that smooths should travel less than what it smooths.
-/

namespace Traquer
open FP

/-- The distance the line `v` travels between the bars `a` and `b`. -/
noncomputable def journey (v : ℕ → ℝ) (a b : ℕ) : ℝ := ∑ i ∈ Finset.Ico a b, |v (i + 1) - v i|

/-- From its first reading at bar `k` to any later bar the line travels at most `c` times as far as `x` does from its first bar. -/
def Travels {ρ : Rounding} (n k : ℕ) (c : ℝ) (x : ℕ → ℝ) (r : Option (List (FP ρ))) : Prop :=
  ∃ v, Reports n k v r ∧ ∀ b, k ≤ b → b < n → journey v k b ≤ c * journey x 0 b

/-- Between any two of its readings the line travels at most as far as `x` does, plus how far from `x` it was at the first of the
two bars, less how far from `x` it is at the second. -/
def Chases {ρ : Rounding} (n k : ℕ) (x : ℕ → ℝ) (r : Option (List (FP ρ))) : Prop :=
  ∃ out, r = some out ∧ out.length = n ∧ ∀ a b, k ≤ a → a < b → b < n →
    ∃ v : ℕ → ℝ, (∀ i, a ≤ i → i ≤ b → ∃ y, out[i]? = some y ∧ y ⇓ v i) ∧ journey v a b ≤ journey x a b + |x a - v a| - |x b - v b|

end Traquer
