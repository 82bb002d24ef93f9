import Verif.Spec.Flow
import Verif.Spec.Real
/-!
# Specification: which indicators determine the chart

Someone who has the readings of an indicator, and the prices of the bars before the first reading, has all the prices.
-/

namespace Traquer
open FP

/-- Two answers show a number at the same bars, and the same number. -/
def SameReadings (n : ℕ) (r s : Option (List XF)) : Prop :=
  ∃ a b, r = some a ∧ s = some b ∧ a.length = n ∧ b.length = n ∧ ∀ (i : ℕ) (v : ℝ), (∃ x, a[i]? = some x ∧ x ⇓ v) ↔ ∃ y, b[i]? = some y ∧ y ⇓ v

/-- Two finite series of the same length `n` with `ok n` that start with the same `k` prices and have the same readings are the same
series. -/
def Determines (ok : ℕ → Prop) (k : ℕ) (f : List XF → Option (List XF)) : Prop :=
  ∀ x y : List XF, Fins x → Fins y → x.length = y.length → ok x.length → (vals x).take k = (vals y).take k →
    SameReadings x.length (f x) (f y) → vals x = vals y

end Traquer
