import Verif.Spec.Scale
import Verif.Model.Smooth
/-!
# Specification: the mirror image of a chart

A chart turned upside down has the opposite prices, and its highs are the opposites of the lows.
-/

namespace Traquer
open FP

/-- The opposite prices. -/
noncomputable def mirror {ρ : Rounding} (l : List (FP ρ)) : List (FP ρ) := l.map fun x => -x

/-- The same number, up to the sign of a zero: both are NaN, or they compare equal. -/
def SameNumber {ρ : Rounding} (x y : FP ρ) : Prop := (x = FP.nan ∧ y = FP.nan) ∨ (x ==. y) = true

/-- Opposite numbers, up to the sign of a zero. -/
def Opposite {ρ : Rounding} (x y : FP ρ) : Prop := SameNumber (-x) y

/-- How an output for a chart relates to the output for its mirror image. -/
inductive Parity
  /-- identical -/
  | eq
  /-- identical up to the sign of a zero -/
  | same
  /-- opposite up to the sign of a zero -/
  | odd

/-- `x` is an output for a chart, `y` the output for its mirror image. -/
def Par {ρ : Rounding} : Parity → FP ρ → FP ρ → Prop
  | .eq => Eq
  | .same => SameNumber
  | .odd => Opposite

end Traquer
