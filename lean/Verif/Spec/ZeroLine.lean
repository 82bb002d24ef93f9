import Verif.Spec.Trend
import Verif.Spec.Real
/-!
# Which side of zero an indicator is on (C114, C115)
-/

namespace Traquer
open FP

/-- The call does not panic, yields `n` values, the first `k` of them NaN, and from then on every value is a number above zero. -/
def AboveZero (n k : ℕ) (r : Option (List XF)) : Prop := ReportsP n k (fun _ y => ∃ v : ℝ, y ⇓ v ∧ 0 < v) r

/-- The call does not panic, yields `n` values, the first `k` of them NaN, and from then on every value is a number below zero. -/
def BelowZero (n k : ℕ) (r : Option (List XF)) : Prop := ReportsP n k (fun _ y => ∃ v : ℝ, y ⇓ v ∧ v < 0) r

/-- Every value of the list is above zero. -/
def Positive (l : List ℝ) : Prop := ∀ x ∈ l, 0 < x

/-- At every bar the first series is above the second. -/
def Over (a b : List ℝ) : Prop := ∀ i, i < a.length → bar b i < bar a i

end Traquer
