import Verif.Spec.Basic
import Verif.Spec.Order
/-!
# Specification: series that repeat

Nothing here mentions the model.
-/

namespace Traquer

/-- The series repeats every `p` bars. -/
def Cycles {β : Type} (p : ℕ) (s : List β) : Prop := ∀ j, j + p < s.length → s[j + p]? = s[j]?

/-- Whenever the data repeat every `p` bars, so does the answer, from the `W`-th bar on (whatever `p` is). -/
def KeepsCycle {β γ : Type} (W : ℕ) (f : List β → Option (List γ)) : Prop :=
  ∀ p a out, Cycles p a → f a = some out → ∀ i, W ≤ i + 1 → i + p < a.length → out[i + p]? = out[i]?

/-- The call does not panic, and from bar `k` on it reports one and the same value. -/
def Level {ρ : Rounding} (k : ℕ) (r : Option (List (FP ρ))) : Prop :=
  ∃ out, r = some out ∧ ∀ i j y z, k ≤ i → k ≤ j → out[i]? = some y → out[j]? = some z → SameValue y z

end Traquer
