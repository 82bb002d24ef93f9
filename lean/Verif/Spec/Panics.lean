import Verif.Rust
/-!
# Specification: exactly when a call panics
-/

namespace Traquer

/-- The call answers exactly if `c` holds, with `n` values; otherwise it panics. -/
def AnswersIff {α : Type} (c : Prop) (n : Nat) (r : Option (List α)) : Prop :=
  (c → ∃ out, r = some out ∧ out.length = n) ∧ (¬ c → r = none)

end Traquer
