import Verif.Spec.Real
/-!
# Specification: what does not depend on the order of the bars of the window

Nothing here mentions the model.
-/

namespace Traquer
open FP

/-- Both are NaN, or the same number, or the same infinity. -/
def SameValue {ρ : Rounding} (y y' : FP ρ) : Prop := y = y' ∨ ∃ r, y ⇓ r ∧ y' ⇓ r

/-- Neither call panics, and both report the same value at bar `i`. -/
def SameAt {ρ : Rounding} (i : ℕ) (r r' : Option (List (FP ρ))) : Prop :=
  ∃ out out' y y', r = some out ∧ r' = some out' ∧ out[i]? = some y ∧ out'[i]? = some y' ∧ SameValue y y'

/-- The last `w` values of the two series up to bar `i` are the same values in some other order; both series are finite and reach bar `i`. -/
structure Shuffled {ρ : Rounding} (w i : ℕ) (s s' : List (FP ρ)) : Prop where
  fins : Fins s
  fins' : Fins s'
  bar : i < s.length
  bar' : i < s'.length
  perm : (recent (vals s) w i).Perm (recent (vals s') w i)

/-- The last `w` points `(s, t)` up to bar `i` are the same as the last `w` points `(s', t')` in some other order; the series are finite,
paired and reach bar `i`. -/
structure Shuffled2 {ρ : Rounding} (w i : ℕ) (s t s' t' : List (FP ρ)) : Prop where
  fins : Fins s ∧ Fins t
  fins' : Fins s' ∧ Fins t'
  len : t.length = s.length
  len' : t'.length = s'.length
  bar : i < s.length
  bar' : i < s'.length
  perm : ((recent (vals s) w i).zip (recent (vals t) w i)).Perm ((recent (vals s') w i).zip (recent (vals t') w i))

end Traquer
