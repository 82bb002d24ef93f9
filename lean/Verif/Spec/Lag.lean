import Verif.Spec.Real
/-!
# Specification: a straight line of prices
-/

namespace Traquer
open FP

/-- `n` prices on the straight line that starts at `c` and rises by `m` per bar. -/
noncomputable def line (c m : ℝ) (n : ℕ) : List XF := (List.range n).map fun i : ℕ => fin (c + m * i)

/-- On every straight line of prices of length `n` with `ok n` the answer is, from bar `k` on, the price `lag` bars ago (a fraction of a bar
counts as that fraction of the way; a negative lag looks that far ahead along the line). -/
def Lags (ok : ℕ → Prop) (k : ℕ) (lag : ℝ) (f : List XF → Option (List XF)) : Prop :=
  ∀ (c m : ℝ) (n : ℕ), ok n → Reports n k (fun i => c + m * (i - lag)) (f (line c m n))

end Traquer
