import Verif.Spec.Real
import Mathlib.Order.Filter.AtTopBot.Basic
import Mathlib.Topology.Instances.Real.Lemmas
/-!
# Specification of what happens in the long run (C104)
-/

namespace Traquer
open FP Filter Topology

/-- The first `n` bars of an endless series. -/
noncomputable def upTo (s : ℕ → ℝ) (n : ℕ) : List XF := (List.range n).map fun i => fin (s i)

/-- `r n` is the answer on the first `n` bars. From some bar on it is a series of `n` values whose last one is a finite number, and these
latest values tend to `T` as the series grows. -/
def Settles (r : ℕ → Option (List XF)) (T : ℝ) : Prop :=
  ∃ u : ℕ → ℝ, Tendsto u atTop (𝓝 T) ∧ ∀ᶠ n in atTop, ∃ out y, r n = some out ∧ out.length = n ∧ out.getLast? = some y ∧ y ⇓ u n

end Traquer
