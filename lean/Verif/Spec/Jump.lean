import Verif.Spec.Flow
import Verif.Spec.Real
/-!
# Specification: a price that jumps once

The simplest thing a smoothed line can be asked: the price has been `a` up to bar `T` and is `b` from the next bar on.
-/

namespace Traquer

/-- The price is `a` up to bar `T` and `b` afterwards. -/
def Jumps (a b : ℝ) (T : ℕ) (l : List ℝ) : Prop := ∀ i, i < l.length → bar l i = if i ≤ T then a else b

end Traquer
