import Verif.Spec.Mirror
import Verif.Spec.Real
/-!
# Specification: superposition of two charts

Blending two series before averaging them, or averaging them first and blending the averages, is the same.
-/

namespace Traquer
open FP

/-- The series `s * x + t * y`, bar by bar. -/
noncomputable def blend (s t : ℝ) (x y : List XF) : List XF := List.zipWith (fun a b => fin s * a + fin t * b) x y

/-- For finite series of equal length `n` with `ok n`, the answer to a blend is the blend of the answers, bar by bar (NaN at the same bars). -/
def Superposes (ok : ℕ → Prop) (f : List XF → Option (List XF)) : Prop :=
  ∀ (s t : ℝ) (x y : List XF), Fins x → Fins y → x.length = y.length → ok x.length →
    ∃ a b c, f x = some a ∧ f y = some b ∧ f (blend s t x y) = some c ∧ List.Forall₂ SameNumber c (blend s t a b)

/-- The same for an indicator of two series, blended with the same factors. -/
def Superposes₂ (ok : ℕ → Prop) (f : List XF → List XF → Option (List XF)) : Prop :=
  ∀ (s t : ℝ) (x x' y y' : List XF), Fins x → Fins x' → Fins y → Fins y' → x'.length = x.length → y.length = x.length →
    y'.length = x.length → ok x.length →
    ∃ a b c, f x x' = some a ∧ f y y' = some b ∧ f (blend s t x y) (blend s t x' y') = some c ∧ List.Forall₂ SameNumber c (blend s t a b)

end Traquer
