import Verif.Spec.Basic
/-!
# Specification: a gap in the data is never papered over
-/

namespace Traquer
variable {F β : Type} [FloatOps F]

/-- A `bad` bar shows for as long as it is one of the last `W` bars: each value reported at that bar and at the `W - 1` bars after it is NaN,
whatever the other bars are. -/
def GapShows (W : Nat) (bad : β → Prop) (f : List β → Option (List F)) : Prop :=
  ∀ bars i x, bars[i]? = some x → bad x → ∀ out, f bars = some out → ∀ j y, i ≤ j → j < i + W → out[j]? = some y → isNaN y = true

end Traquer
