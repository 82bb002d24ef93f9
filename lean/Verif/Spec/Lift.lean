import Verif.Arith.Val
import Verif.Spec.Scale
/-!
# Specification: all prices raised by the same amount

`Raised t x y`: the number `y` is `x + t`; NaN and the infinities stay what they are. `-0` is not a price (no related value is `-0`).
Real arithmetic only: in `f64` adding a constant to prices changes how they round.
-/

namespace Traquer
open FP

/-- `y` is `x` raised by `t`. -/
def Raised (t : ℝ) (x y : XF) : Prop :=
  (∃ r, x = fin r ∧ y = fin (r + t)) ∨ (x = FP.nan ∧ y = FP.nan) ∨ ∃ b, x = inf b ∧ y = inf b

/-- `y` is `x` raised by `t`, where a zero may have either sign. -/
def RaisedZ (t : ℝ) (x y : XF) : Prop :=
  (∃ r, x ⇓ r ∧ y ⇓ r + t) ∨ (x = FP.nan ∧ y = FP.nan) ∨ ∃ b, x = inf b ∧ y = inf b

/-- `y` is `x` raised `n` times by `c`: a price (`n = 1`), a sum of two prices (`n = 2`), a number that does not depend on the level of
prices (`n = 0`, then `y` is `x`). -/
def Lifted (c : ℝ) (n : ℤ) (x y : XF) : Prop := Raised (n * c) x y ∨ (n = 0 ∧ x = y)

end Traquer
