import Verif.Spec.Monotone
/-!
# Specification: signs and order of outputs
-/

namespace Traquer
open FP FloatLit

/-- Every item of the answer, if there is one, satisfies `P`. -/
def Every {α : Type} (P : α → Prop) (r : Option (List α)) : Prop := ∀ out, r = some out → ∀ y ∈ out, P y

/-- Not below zero (as in IEEE 754, NaN is not below zero). -/
def NotNegative {ρ : Rounding} (x : FP ρ) : Prop := (x <. 0) = false

end Traquer
