import Verif.Spec.Basic
/-!
# Specification: values that depend on the last bars only
-/

namespace Traquer

/-- The value reported at a bar is a function of the last `W` bars alone: two histories, of whatever lengths, whose last `W` bars up to bar `i`
and up to bar `j` are the same get the same value there, whatever came before (or comes after). -/
def DependsOnLast {β γ : Type} (W : Nat) (f : List β → Option (List γ)) : Prop :=
  ∀ a b i j out out', f a = some out → f b = some out' → W ≤ i + 1 → W ≤ j + 1 → i < a.length → j < b.length →
    recent a W i = recent b W j → out[i]? = out'[j]?

/-- `f` answers on both histories and reports the same at the last bar of each (used for the examples: both answer, the property applies). -/
def SameAtEnd {β γ : Type} (f : List β → Option (List γ)) (a b : List β) : Prop :=
  ∃ out out', f a = some out ∧ f b = some out' ∧ out[a.length - 1]? = out'[b.length - 1]?

end Traquer
