import Verif.Spec.Cycle
import Verif.Spec.Real
/-!
# Specification: settling into a cycle

Nothing here mentions the model.
-/

namespace Traquer

/-- On data that satisfy `P` and repeat every `p` bars the answer comes to repeat as well: at bar `W + j` it is a number that differs from the
one reported a whole number of cycles later by at most `B j`. -/
def NearsCycle {β : Type} (P : List β → Prop) (W : ℕ) (B : ℕ → ℝ) (f : List β → Option (List XF)) : Prop :=
  ∀ p a, Cycles p a → P a → W ≤ a.length → ∃ out, f a = some out ∧ ∀ j m, W + j + m * p < a.length → ∃ y z ry rz, out[W + j]? = some y ∧
    out[W + j + m * p]? = some z ∧ FP.Is y ry ∧ FP.Is z rz ∧ |rz - ry| ≤ B j

end Traquer
