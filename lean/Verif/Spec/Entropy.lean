import Verif.Spec.Flow
import Mathlib.Analysis.SpecialFunctions.Log.Basic
/-!
# Specification of the two entropies
-/

namespace Traquer
open scoped BigOperators

/-- The stretches of `m` values from position `i` and from position `j` differ by at most `tol` everywhere. -/
def Near (ts : List ℝ) (m : ℕ) (tol : ℝ) (i j : ℕ) : Prop := ∀ k, k < m → |bar ts (i + k) - bar ts (j + k)| ≤ tol

/-- The number of stretches of `m` values there are. -/
def stretches (ts : List ℝ) (m : ℕ) : ℕ := ts.length - m + 1

open Classical in
/-- How many stretches are near the one at `i`, itself included. -/
noncomputable def matchesOf (ts : List ℝ) (m : ℕ) (tol : ℝ) (i : ℕ) : ℕ :=
  ((Finset.range (stretches ts m)).filter (Near ts m tol i)).card

open Classical in
/-- How many pairs of different stretches are near each other. -/
noncomputable def pairMatches (ts : List ℝ) (m : ℕ) (tol : ℝ) : ℕ :=
  ((Finset.range (stretches ts m) ×ˢ Finset.range (stretches ts m)).filter fun p => p.1 < p.2 ∧ Near ts m tol p.1 p.2).card

/-- The mean over all stretches of the log of the share of stretches near it. -/
noncomputable def phiOf (ts : List ℝ) (m : ℕ) (tol : ℝ) : ℝ :=
  mean ((List.range (stretches ts m)).map fun i => Real.log (matchesOf ts m tol i / stretches ts m))

/-- The number of near pairs, doubled, plus the spacing of doubles at 1. -/
noncomputable def pairScore (ts : List ℝ) (m : ℕ) (tol : ℝ) : ℝ := 2 * pairMatches ts m tol + 2 ^ (-52 : ℤ)

/-- The tolerance used: the one given, or a fifth of the standard deviation of the whole series. -/
noncomputable def toleranceOf (data : List ℝ) : Option ℝ → ℝ
  | some t => t
  | none => stdDev data / 5

end Traquer
