import Verif.Spec.Real
import Verif.Spec.Basic
import Mathlib.Algebra.BigOperators.Intervals
/-!
# Specification of the accumulating indicators
-/

namespace Traquer
open scoped BigOperators

/-- The call yields `n` values, the first `k` of them NaN, and from then on the value at bar `i` is the sum of the terms of the bars `k`
to `i`. -/
def Accumulates {ρ : Rounding} (n k : ℕ) (t : ℕ → ℝ) (r : Option (List (FP ρ))) : Prop :=
  Reports n k (fun i => ∑ j ∈ Finset.Ico k (i + 1), t j) r

/-- The value of a series at a bar. -/
def bar (l : List ℝ) (j : ℕ) : ℝ := l.getD j 0

/-- What `obv` adds at bar `j`: the volume, negated if the close fell. -/
noncomputable def obvTerm (close volume : List ℝ) (j : ℕ) : ℝ := if bar close j < bar close (j - 1) then -bar volume j else bar volume j

/-- What `vpt` adds at bar `j`: the volume times the relative change. -/
noncomputable def vptTerm (close volume : List ℝ) (j : ℕ) : ℝ := bar volume j * (bar close j - bar close (j - 1)) / bar close (j - 1)

/-- What `ad` adds at bar `j`: the volume times the position of the close in the bar, from -1 at the low to 1 at the high. -/
noncomputable def adTerm (high low close volume : List ℝ) (j : ℕ) : ℝ :=
  ((bar close j - bar low j) - (bar high j - bar close j)) / (bar high j - bar low j) * bar volume j

/-- What Williams' `ad` adds at bar `j`: the volume times the distance of the close from the true low after a rise, from the true high
otherwise. -/
noncomputable def adWilliamsTerm (high low close volume : List ℝ) (j : ℕ) : ℝ :=
  (if bar close (j - 1) < bar close j then bar close j - min (bar low j) (bar close (j - 1))
    else bar close j - max (bar high j) (bar close (j - 1))) * bar volume j

/-- The direction at bar `j`: up or down after a move of more than the tick, otherwise as before, at the start up. -/
noncomputable def tickUp (close : List ℝ) (tick : ℝ) : ℕ → Bool
  | 0 => true
  | j + 1 =>
    if tick < bar close (j + 1) - bar close j then true
    else if tick < bar close j - bar close (j + 1) then false
    else tickUp close tick j

/-- What `tvi` adds at bar `j`: the volume, negated while the direction is down. -/
noncomputable def tviTerm (close volume : List ℝ) (tick : ℝ) (j : ℕ) : ℝ := if tickUp close tick j then bar volume j else -bar volume j

/-- What `pvi` and `nvi` start with. -/
noncomputable def indexStart : ℝ := 100

/-- The factor of `pvi` at bar `j`: the relative price change if the volume rose, 1 otherwise. -/
noncomputable def pviFactor (close volume : List ℝ) (j : ℕ) : ℝ :=
  if bar volume (j - 1) < bar volume j then bar close j / bar close (j - 1) else 1

/-- The factor of `nvi` at bar `j`: the relative price change if the volume fell, 1 otherwise. -/
noncomputable def nviFactor (close volume : List ℝ) (j : ℕ) : ℝ :=
  if bar volume j < bar volume (j - 1) then bar close j / bar close (j - 1) else 1

/-- The last reset index that is not after bar `i`, 0 if there is none. -/
def lastReset (resets : List ℕ) (i : ℕ) : ℕ := (resets.filter fun r => decide (r ≤ i)).foldl max 0

/-- The bars since the last reset, up to bar `i`. -/
def session {α : Type} (bars : List α) (resets : List ℕ) (i : ℕ) : List α := recent bars (i + 1 - lastReset resets i) i

end Traquer
