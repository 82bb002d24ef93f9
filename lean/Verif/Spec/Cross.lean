import Verif.Spec.Real
/-!
# Specification: how often a series crosses a level or turns
-/

namespace Traquer
variable {ρ : Rounding}

/-- Between bars `lo` and `hi - 1` the series `v` goes from one side of the level `L` to the other at least `m` times: there are `m + 1`
bars, one after the other, at which it is strictly above and strictly below in turns (starting above if `s = 1`, below if `s = -1`). -/
def Crosses (v : ℕ → ℝ) (L : ℝ) (lo hi m : ℕ) : Prop :=
  ∃ (s : ℝ) (t : ℕ → ℕ), (s = 1 ∨ s = -1) ∧ (∀ j < m, t j < t (j + 1)) ∧
    ∀ j ≤ m, lo ≤ t j ∧ t j < hi ∧ 0 < s * (-1) ^ j * (v (t j) - L)

/-- Between bars `lo` and `hi - 1` the series turns (from rising to falling or from falling to rising) at least `m` times: its changes
cross zero. -/
def Turns (v : ℕ → ℝ) (lo hi m : ℕ) : Prop := Crosses (fun i => v i - v (i - 1)) 0 (lo + 1) hi m

/-- The call returns `n` values, from bar `k` on finite, and they cross no level more often than the series `x` does. -/
def CrossesNoMore (n k : ℕ) (x : ℕ → ℝ) (r : Option (List (FP ρ))) : Prop :=
  ∃ v, Reports n k v r ∧ ∀ L m, Crosses v L k n m → Crosses x L 0 n m

/-- The call returns `n` values, from bar `k` on finite, and they cross a level at most once more often than the series `x` does from then
on. (For averages that do not start at the price.) -/
def CrossesOnceMore (n k : ℕ) (x : ℕ → ℝ) (r : Option (List (FP ρ))) : Prop :=
  ∃ v, Reports n k v r ∧ ∀ L m, Crosses v L k n (m + 1) → Crosses x L (k + 1) n m

/-- The call returns `n` values, from bar `k` on finite, and they turn no more often than the series `x` does. -/
def TurnsNoMore (n k : ℕ) (x : ℕ → ℝ) (r : Option (List (FP ρ))) : Prop :=
  ∃ v, Reports n k v r ∧ ∀ m, Turns v k n m → Turns x 0 n m

/-- The call returns `n` values, from bar `k` on finite, and they cross zero no more often than the series `x` turns. -/
def SignalsNoMore (n k : ℕ) (x : ℕ → ℝ) (r : Option (List (FP ρ))) : Prop :=
  ∃ v, Reports n k v r ∧ ∀ m, Crosses v 0 k n m → Turns x 0 n m

/-- The call returns `n` values, from bar `k` on finite, and they cross zero at most once more often than the series `x` turns. -/
def SignalsOnceMore (n k : ℕ) (x : ℕ → ℝ) (r : Option (List (FP ρ))) : Prop :=
  ∃ v, Reports n k v r ∧ ∀ m, Crosses v 0 k n (m + 1) → Turns x 0 n m

end Traquer
