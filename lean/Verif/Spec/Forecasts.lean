import Verif.Spec.Superpose
/-!
# Specification: several forecasts of one series
-/

namespace Traquer

/-- `r1` and `r2` are the errors of two forecasts and `rb` is the error of the forecast that blends them in the shares `s` and `t`: at every bar
it is at most the blend of the errors. -/
def BlendHelps (n : ℕ) (s t : ℝ) (r1 r2 rb : Option (List XF)) : Prop :=
  ∃ a b c, Reports n 0 a r1 ∧ Reports n 0 b r2 ∧ Reports n 0 c rb ∧ ∀ i < n, c i ≤ s * a i + t * b i

/-- An error behaves like a distance: it is the same in both directions (`r` and `r'`), and the way over a third series (`r1`, then `r2`) is no
shorter. -/
def LikeDistance (n : ℕ) (r r' r1 r2 : Option (List XF)) : Prop :=
  ∃ c a b, Reports n 0 c r ∧ Reports n 0 c r' ∧ Reports n 0 a r1 ∧ Reports n 0 b r2 ∧ ∀ i < n, c i ≤ a i + b i

end Traquer
