import Verif.Arith.Binary64
import Verif.Spec.Averages
/-!
# Specification of rounding errors
-/

namespace Traquer

/-- The numbers the code computes with: binary64 with round to nearest, ties to even, overflow and gradual underflow. -/
abbrev F64 := FP Rounding.binary64

/-- The computed number `x` is finite and at most `e` away from the real number `a`. -/
def Approx {ρ : Rounding} (x : FP ρ) (a e : ℝ) : Prop := ∃ r, FP.Is x r ∧ |r - a| ≤ e

/-- Every number of the series is finite and at most `M` in magnitude. -/
def Bounded {ρ : Rounding} (M : ℝ) (l : List (FP ρ)) : Prop := ∀ x ∈ l, ∃ r, FP.Is x r ∧ |r| ≤ M

/-- Half the distance between 1 and the next binary64 number: the relative error of one rounding. -/
noncomputable def unit64 : ℝ := 2⁻¹ ^ 53

/-- The smallest normal binary64 number. -/
noncomputable def tiny64 : ℝ := 2⁻¹ ^ 1022

end Traquer
