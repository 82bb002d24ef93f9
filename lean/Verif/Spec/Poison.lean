import Verif.Spec.Basic
/-!
# Specification: a bad bar that is never forgotten
-/

namespace Traquer
variable {F β : Type} [FloatOps F]

/-- A `bad` bar (at position `n₀` or later) spoils everything: the value reported at that bar and at every later one is NaN, whatever the
other bars are. -/
def PoisonedBy (n₀ : Nat) (bad : β → Prop) (f : List β → Option (List F)) : Prop :=
  ∀ bars i x, n₀ ≤ i → bars[i]? = some x → bad x → ∀ out, f bars = some out → ∀ j y, i ≤ j → out[j]? = some y → isNaN y = true

/-- The price is NaN. -/
def IsNaN (x : F) : Prop := isNaN x = true

end Traquer
