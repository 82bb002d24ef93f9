import Verif.Spec.Flow
/-!
# Specification of averages of series that start late
-/

namespace Traquer

/-- The exponential average, with smoothing factor `2 / (w + 1)`, of a series `v` whose first value is at bar `k`. It starts at bar
`k + w - 1` from the mean of the first `w` values (earlier values mean nothing). -/
noncomputable def ewmaFrom (k w : ℕ) (v : ℕ → ℝ) : ℕ → ℝ
  | 0 => mean (lastOf v w (k + w - 1))
  | i + 1 => if i + 1 < k + w then mean (lastOf v w (k + w - 1))
    else v (i + 1) * (2 / (w + 1)) + ewmaFrom k w v i * (1 - 2 / (w + 1))

/-- Wilder's average of a series `v` whose first value is at bar `k`. -/
noncomputable def wilderFrom (k w : ℕ) (v : ℕ → ℝ) : ℕ → ℝ
  | 0 => mean (lastOf v w (k + w - 1))
  | i + 1 => if i + 1 < k + w then mean (lastOf v w (k + w - 1)) else (wilderFrom k w v i * (w - 1) + v (i + 1)) / w

/-- An average whose gain varies from bar to bar: 0 before bar `k`, then each bar moves it by `gain` of the way to the new value. -/
noncomputable def adaptive (k : ℕ) (gain x : ℕ → ℝ) : ℕ → ℝ
  | 0 => 0
  | i + 1 => if i + 1 < k then 0 else gain (i + 1) * (x (i + 1) - adaptive k gain x i) + adaptive k gain x i

/-- Kaufman's efficiency ratio: the distance between the first and the last value over the distance travelled. -/
noncomputable def efficiency (l : List ℝ) : ℝ := |bar l (l.length - 1) - bar l 0| / ((changes l).map fun c => |c|).sum

end Traquer
