import Verif.Spec.Real
/-!
# Specification of stability under errors in the data (C99)
-/

namespace Traquer
open FP

/-- Both values are finite numbers and they differ by at most `e`. -/
def Apart {ρ : Rounding} (e : ℝ) (x y : FP ρ) : Prop := ∃ r s, x ⇓ r ∧ y ⇓ s ∧ |r - s| ≤ e

/-- Two finite series of the same length that differ by at most `e` at every bar. -/
def Off {ρ : Rounding} (e : ℝ) (x y : List (FP ρ)) : Prop := List.Forall₂ (Apart e) x y

/-- Two answers of the same length that are NaN at the same bars and differ by at most `e` at every other bar. -/
def OffN {ρ : Rounding} (e : ℝ) (x y : List (FP ρ)) : Prop := List.Forall₂ (fun a b => (a = nan ∧ b = nan) ∨ Apart e a b) x y

/-- An error of at most `e` at every bar of the data changes no value of the answer by more than `L * e`
(for series whose length satisfies `ok`). -/
def Stable (L : ℝ) (ok : ℕ → Prop) (f : List XF → Option (List XF)) : Prop :=
  ∀ (e : ℝ) (x y : List XF), Off e x y → ok x.length → ∃ a b, f x = some a ∧ f y = some b ∧ OffN (L * e) a b

/-- The same for an indicator of three series, each with an error of at most `e` at every bar. -/
def Stable₃ (L : ℝ) (ok : ℕ → Prop) (f : List XF → List XF → List XF → Option (List XF)) : Prop :=
  ∀ (e : ℝ) (x y z x' y' z' : List XF), Off e x x' → Off e y y' → Off e z z' → y.length = x.length → z.length = x.length → ok x.length →
    ∃ a b, f x y z = some a ∧ f x' y' z' = some b ∧ OffN (L * e) a b

end Traquer
