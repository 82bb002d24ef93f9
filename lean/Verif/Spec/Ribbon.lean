import Verif.Spec.Trend
/-!
# C135: what it means that a moving average follows a trend
-/

namespace Traquer
open FP

/-- The call reports one reading per price, the first `k` of them NaN. If the prices rise at every bar, so do the readings, and each lies below
its price; if the prices fall at every bar, so do the readings, and each lies above its price. -/
def FollowsTrend (k : ℕ) (prices : List ℝ) (r : Option (List XF)) : Prop :=
  ∃ a : ℕ → ℝ, Reports prices.length k a r ∧
    (Rising prices → (∀ i, k ≤ i → i + 1 < prices.length → a i < a (i + 1)) ∧ ∀ i, k ≤ i → i < prices.length → a i < bar prices i) ∧
    (Falling prices → (∀ i, k ≤ i → i + 1 < prices.length → a (i + 1) < a i) ∧ ∀ i, k ≤ i → i < prices.length → bar prices i < a i)

/-- Two calls report one reading per price, the first `kf` and `ks` of them NaN. Where both report, the fast one is above the slow one if the
prices rise at every bar, and below it if they fall at every bar. -/
def FastLeads (kf ks : ℕ) (prices : List ℝ) (fast slow : Option (List XF)) : Prop :=
  ∃ a b : ℕ → ℝ, Reports prices.length kf a fast ∧ Reports prices.length ks b slow ∧
    (Rising prices → ∀ i, kf ≤ i → ks ≤ i → i < prices.length → b i < a i) ∧
    (Falling prices → ∀ i, kf ≤ i → ks ≤ i → i < prices.length → a i < b i)

end Traquer
