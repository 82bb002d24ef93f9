import Verif.Spec.Real
/-!
# Specification of Hoeffding's measure of dependence
-/

namespace Traquer

/-- 1 if `a` is below `b`, one half if they are equal. -/
noncomputable def halfBelow (a b : ℝ) : ℝ := if a < b then 1 else if a = b then 1 / 2 else 0

/-- The rank of a value of the series, tied values sharing the mean of their ranks. -/
noncomputable def midRank (xs : List ℝ) (x : ℝ) : ℝ := 1 / 2 + (xs.map fun a => halfBelow a x).sum

/-- The bivariate rank of one of the points: one more than the number of points below it in both coordinates, a tie in a coordinate
counting one half (the point itself, tied in both, does not count). -/
noncomputable def jointRank (ps : List (ℝ × ℝ)) (p : ℝ × ℝ) : ℝ := 1 + (ps.map fun q => halfBelow q.1 p.1 * halfBelow q.2 p.2).sum - 1 / 4

/-- Hoeffding's D, scaled by 30, from a function giving the three ranks of each of `n` points. -/
noncomputable def hoeffdingOf {α : Type} (n : ℝ) (ps : List α) (q r s : α → ℝ) : ℝ :=
  30 * ((n - 2) * (n - 3) * (ps.map fun p => (q p - 1) * (q p - 2)).sum
    + (ps.map fun p => (r p - 1) * (r p - 2) * (s p - 1) * (s p - 2)).sum
    - 2 * (n - 2) * (ps.map fun p => (r p - 2) * (s p - 2) * (q p - 1)).sum) /
    (n * (n - 1) * (n - 2) * (n - 3) * (n - 4))

/-- Hoeffding's D of a list of points. -/
noncomputable def hoeffdingD (ps : List (ℝ × ℝ)) : ℝ :=
  hoeffdingOf ps.length ps (jointRank ps) (fun p => midRank (ps.map Prod.fst) p.1) (fun p => midRank (ps.map Prod.snd) p.2)

end Traquer
