import Verif.Spec.Real
import Mathlib.Analysis.SpecialFunctions.Log.Base
/-!
# Mutual information

Nothing here mentions the model.
-/

namespace Traquer

/-- The relative frequency of a label. -/
noncomputable def freq {α : Type} [BEq α] (l : List α) (a : α) : ℝ := (l.count a : ℝ) / l.length

/-- The mutual information, in bits, of two series of labels. -/
noncomputable def mutualInformation (x y : List ℕ) : ℝ :=
  ∑ p ∈ (x.zip y).toFinset, freq (x.zip y) p * Real.logb 2 (freq (x.zip y) p / (freq x p.1 * freq y p.2))

open Classical in
/-- The labels of the values when their range is cut into `k` bins of equal width (the last one closed); all 0 if the range
is a point. -/
noncomputable def equalWidthBins (k : ℕ) (l : List ℝ) : List ℕ :=
  l.map fun v => if maxOf l = minOf l then 0 else min ⌊(v - minOf l) / ((maxOf l - minOf l) / k)⌋₊ (k - 1)

/-- The mutual information of the two series on an `i` by `j` grid, relative to its greatest possible value. -/
noncomputable def gridInformation (i j : ℕ) (xs ys : List ℝ) : ℝ :=
  mutualInformation (equalWidthBins i xs) (equalWidthBins j ys) / Real.logb 2 (min i j)

/-- The maximal information coefficient: the greatest relative mutual information on a grid with at least two rows, at least two
columns and at most `b` cells. -/
noncomputable def maximalInformation (b : ℕ) (xs ys : List ℝ) : ℝ :=
  sSup {v | ∃ i j : ℕ, 2 ≤ i ∧ 2 ≤ j ∧ i * j ≤ b ∧ v = gridInformation i j xs ys}

end Traquer
