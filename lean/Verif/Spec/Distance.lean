import Verif.Spec.Real
/-!
# Distance correlation (Székely, Rizzo and Bakirov)

Nothing here mentions the model.
-/

namespace Traquer
open Finset

/-- The distance of the `i`-th and the `j`-th value. -/
noncomputable def distOf (xs : List ℝ) (i j : ℕ) : ℝ := |xs.getD i 0 - xs.getD j 0|

/-- The distance minus the means of its row and of its column, plus the mean of all distances. -/
noncomputable def centredDist (xs : List ℝ) (i j : ℕ) : ℝ :=
  distOf xs i j - (∑ b ∈ range xs.length, distOf xs i b) / xs.length - (∑ a ∈ range xs.length, distOf xs a j) / xs.length
    + (∑ a ∈ range xs.length, ∑ b ∈ range xs.length, distOf xs a b) / (xs.length : ℝ) ^ 2

/-- The square of the distance covariance: the mean of the products of the centred distances. -/
noncomputable def distCov2 (xs ys : List ℝ) : ℝ :=
  (∑ i ∈ range xs.length, ∑ j ∈ range xs.length, centredDist xs i j * centredDist ys i j) / (xs.length : ℝ) ^ 2

/-- Distance correlation: distance covariance over the root of the product of the distance standard deviations. -/
noncomputable def distCor (xs ys : List ℝ) : ℝ :=
  Real.sqrt (distCov2 xs ys) / Real.sqrt (Real.sqrt (distCov2 xs xs) * Real.sqrt (distCov2 ys ys))

/-- `y` is the distance correlation of the two series, NaN if one of them is constant. -/
def DistCorIs {ρ : Rounding} (xs ys : List ℝ) (y : FP ρ) : Prop :=
  (¬ Flat xs → ¬ Flat ys → y ⇓ distCor xs ys) ∧ (Flat xs ∨ Flat ys → y = FP.nan)

end Traquer
