import Verif.Model.Smooth
/-!
# `alligator` of `/repo/src/trend.rs`

Separate from `Verif.Model.Trend` only because `momentum.rs` and `trend.rs` import each other.
-/

namespace Traquer.Trend
open FloatLit
variable {F : Type} [FloatOps F]

/-- One line of alligator: offset NaNs, the smoothed series, NaN up to the common length,
trend.rs:973-976, 977-980, 981-984 -/
def alligatorLine (data : List F) (win offset maxOffset : Nat) : Option (List F) := do
  let w ← Smooth.wilder data win
  let t ← usub maxOffset offset
  some (nans offset ++ w ++ nans t)

/-- trend.rs:963-986. Items are `(jaw, teeth, lips)`. -/
def alligator (data : List F) (jawWin jawOffset teethWin teethOffset lipsWin lipsOffset : Nat) :
    Option (List (F × F × F)) := do
  let maxOffset := max (max jawOffset teethOffset) lipsOffset
  let jaw ← alligatorLine data jawWin jawOffset maxOffset
  let teeth ← alligatorLine data teethWin teethOffset maxOffset
  let lips ← alligatorLine data lipsWin lipsOffset maxOffset
  some (zip3 jaw teeth lips)

end Traquer.Trend
