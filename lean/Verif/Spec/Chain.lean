import Verif.Spec.Basic
import Verif.Rust
/-!
# Specification: feeding the output of one indicator to another
-/

namespace Traquer
variable {F : Type} [FloatOps F]

/-- The output of an indicator starts with `k` NaNs. Fed to `g` as it is, the result is what `g` makes of the values alone, shifted by `k` bars:
NaN for the first `k` bars and then bar by bar the same value (where both are NaN, some NaN). `W` values are enough for `g` to answer. -/
def Chains (W : Nat) (g : List F → Option (List F)) : Prop :=
  ∀ (k : Nat) (d : List F), W ≤ d.length → ∃ out out', g (nans k ++ d) = some out ∧ g d = some out' ∧ out.length = k + d.length ∧
    out'.length = d.length ∧ (∀ j y, j < k → out[j]? = some y → isNaN y = true) ∧
    ∀ i y y', out[k + i]? = some y → out'[i]? = some y' → y = y' ∨ (isNaN y = true ∧ isNaN y' = true)

/-- Fed with a series that starts with at least one NaN, `g` reports nothing but NaN, whatever follows. -/
def NeverChains (g : List F → Option (List F)) : Prop :=
  ∀ (k : Nat) (d : List F), 1 ≤ k → ∀ out, g (nans k ++ d) = some out → ∀ y ∈ out, isNaN y = true

end Traquer
