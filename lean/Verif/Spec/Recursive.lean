import Verif.Spec.Averages
import Mathlib.Analysis.SpecialFunctions.Trigonometric.Basic
import Mathlib.Analysis.SpecialFunctions.Log.Basic
/-!
# Specification of the recursive averages
-/

namespace Traquer

/-- McGinley's dynamic average: each bar moves it by the distance to the price over `0.6 * w * (price / previous) ^ 4`. -/
noncomputable def mcginley (w : ℕ) (x : ℕ → ℝ) : ℕ → ℝ
  | 0 => x 0
  | i + 1 => mcginley w x i + (x (i + 1) - mcginley w x i) / (0.6 * w * (x (i + 1) / mcginley w x i) ^ 4)

/-- Level, trend and acceleration of the Holt-Winters average after bar `i`. -/
noncomputable def holtWinters (a b g : ℝ) (x : ℕ → ℝ) : ℕ → ℝ × ℝ × ℝ
  | 0 => holtStep a b g (x 0, 0, 0) (x 0)
  | i + 1 => holtStep a b g (holtWinters a b g x i) (x (i + 1))
where
  /-- One bar: each of the three moves by its factor from its extrapolation to what the bar says. -/
  holtStep (a b g : ℝ) (s : ℝ × ℝ × ℝ) (x : ℝ) : ℝ × ℝ × ℝ :=
    let level := (1 - a) * (s.1 + s.2.1 + s.2.2 / 2) + a * x
    let trend := (1 - b) * (s.2.1 + s.2.2) + b * (level - s.1)
    (level, trend, (1 - g) * s.2.2 + g * (trend - s.2.1))

/-- Ehlers' two pole super smoother, started with the first two values. -/
noncomputable def smoother2 (w : ℕ) (x : ℕ → ℝ) : ℕ → ℝ
  | 0 => x 0
  | 1 => x 1
  | i + 2 =>
    let r := Real.exp (-(Real.pi * √2 / w))
    let b := 2 * r * Real.cos (Real.pi * √2 / w)
    let c := -r ^ 2
    (1 - b - c) * x (i + 2) + b * smoother2 w x (i + 1) + c * smoother2 w x i

/-- Ehlers' three pole super smoother, started with the first three values. -/
noncomputable def smoother3 (w : ℕ) (x : ℕ → ℝ) : ℕ → ℝ
  | 0 => x 0
  | 1 => x 1
  | 2 => x 2
  | i + 3 =>
    let r := Real.exp (-(Real.pi / w))
    let z := 2 * r * Real.cos (√3 * (Real.pi / w))
    let b := r ^ 2 + z
    let c := -r ^ 2 * (1 + z)
    let d := r ^ 4
    (1 - b - c - d) * x (i + 3) + b * smoother3 w x (i + 2) + c * smoother3 w x (i + 1) + d * smoother3 w x i

/-- The distance between the largest and the smallest value. -/
noncomputable def rangeOf (l : List ℝ) : ℝ := maxOf l - minOf l

/-- The fractal dimension of a window of even length: how much longer the ranges of the two halves are, per bar, than that of the whole. -/
noncomputable def fractalDim (l : List ℝ) : ℝ :=
  let h := l.length / 2
  (Real.log (rangeOf (l.take h) / h + rangeOf (l.drop h) / h) - Real.log (rangeOf l / l.length)) / Real.log 2

/-- The gain of the fractal adaptive average: `exp (-4.6 * (dimension - 1))` between 0.01 and 1, and 1 if both halves are flat. -/
noncomputable def fractalGain (l : List ℝ) : ℝ :=
  if rangeOf (l.take (l.length / 2)) = 0 ∧ rangeOf (l.drop (l.length / 2)) = 0 then 1
  else max 0.01 (min (Real.exp (-4.6 * (fractalDim l - 1))) 1)

end Traquer
