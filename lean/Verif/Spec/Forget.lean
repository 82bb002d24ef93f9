import Verif.Spec.Averages
/-!
# Specification of forgetting

Nothing here mentions the model of a particular indicator.
-/

namespace Traquer

/-- Two runs whose last `n` bars are the same, starting at bar `p` of the first and at bar `p'` of the second: both return, both
report a finite number at every common bar, and at the `j`-th common bar the two numbers differ by at most `B j`. -/
def Agree (p p' n : ℕ) (B : ℕ → ℝ) (r r' : Option (List XF)) : Prop :=
  ∃ o o', r = some o ∧ r' = some o' ∧ ∀ j, j < n → ∃ y y' a a', o[p + j]? = some y ∧ o'[p' + j]? = some y' ∧ FP.Is y a ∧ FP.Is y' a' ∧
    |a - a'| ≤ B j

end Traquer
