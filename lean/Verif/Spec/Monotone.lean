import Verif.Arith.Val
import Verif.Spec.Scale
/-!
# Specification: monotone indicators

An average is monotone if raising some of the prices never lowers any of its values.
-/

namespace Traquer
open FP

/-- `x` is not greater than `y` (as in IEEE 754, NaN is neither greater nor smaller than anything). -/
def NotAbove {ρ : Rounding} (x y : FP ρ) : Prop := (y <. x) = false

end Traquer
