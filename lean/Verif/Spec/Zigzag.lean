import Verif.Spec.Flow
/-!
# Pivots of a zigzag over the reals
-/

namespace Traquer

/-- A rise (`up`) or a fall of at least `d` percent of its lower end. -/
def Leg (d : ℝ) (up : Bool) (x y : ℝ) : Prop := if up then d / 100 * x ≤ y - x else d / 100 * y ≤ x - y

/-- A list of pivots, the newest first, each given by its bar and its price: it goes back to bar 0, tops (highs of their bars) and
bottoms (lows of their bars) alternate, and each leg between two of them is at least `d` percent. `top` says whether the newest one is
a top. -/
def Pivots (high low : List ℝ) (d : ℝ) : Bool → List (ℕ × ℝ) → Prop
  | _, [] => False
  | top, [(i, x)] => i = 0 ∧ x = if top then bar high 0 else bar low 0
  | top, (j, y) :: (i, x) :: rest =>
    i < j ∧ (y = if top then bar high j else bar low j) ∧ Leg d top x y ∧ Pivots high low d (!top) ((i, x) :: rest)

/-- What is reported at bar `i`: the price of the pivot at that bar, NaN if there is none. -/
def Marks {ρ : Rounding} (P : List (ℕ × ℝ)) (i : ℕ) (y : FP ρ) : Prop :=
  match P.lookup i with
  | some v => y ⇓ v
  | none => y = FP.nan

end Traquer
