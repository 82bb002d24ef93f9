import Verif.Spec.Real
/-!
# Kendall's rank correlation

Nothing here mentions the model.
-/

namespace Traquer

/-- All unordered pairs of entries at different positions, the earlier entry first. -/
def pairsOf {α : Type} : List α → List (α × α)
  | [] => []
  | x :: l => l.map (fun y => (x, y)) ++ pairsOf l

open Classical in
/-- The number of pairs of points `((x, y), (x', y'))` of the two series with property `P x x' y y'`. -/
noncomputable def numPairs (P : ℝ → ℝ → ℝ → ℝ → Prop) (xs ys : List ℝ) : ℕ :=
  (pairsOf (xs.zip ys)).countP fun q => decide (P q.1.1 q.2.1 q.1.2 q.2.2)

/-- The number of pairs of points on which the two series move in the same direction. -/
noncomputable def concordant : List ℝ → List ℝ → ℕ := numPairs fun x x' y y' => 0 < (x - x') * (y - y')

/-- The number of pairs of points on which the two series move in opposite directions. -/
noncomputable def discordant : List ℝ → List ℝ → ℕ := numPairs fun x x' y y' => (x - x') * (y - y') < 0

/-- The number of pairs of points on which the first series does not move. -/
noncomputable def tiesX : List ℝ → List ℝ → ℕ := numPairs fun x x' _ _ => x = x'

/-- The number of pairs of points on which the second series does not move. -/
noncomputable def tiesY : List ℝ → List ℝ → ℕ := numPairs fun _ _ y y' => y = y'

/-- The denominator of Kendall's tau-b: `√((n₀ - n₁) (n₀ - n₂))` with `n₀` the number of pairs and `n₁`, `n₂` the
numbers of ties. -/
noncomputable def kendallDen (xs ys : List ℝ) : ℝ :=
  Real.sqrt (((xs.length * (xs.length - 1) : ℝ) / 2 - tiesX xs ys) * ((xs.length * (xs.length - 1) : ℝ) / 2 - tiesY xs ys))

/-- `y` is Kendall's tau-b of the two series: concordant minus discordant pairs over `kendallDen`. -/
def KendallIs {ρ : Rounding} (xs ys : List ℝ) (y : FP ρ) : Prop :=
  QuotIs ((concordant xs ys : ℝ) - discordant xs ys) (kendallDen xs ys) y

end Traquer
