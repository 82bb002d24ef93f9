import Verif.Rust
/-!
# What the structural properties say

Nothing here mentions the model of a particular indicator.
-/

namespace Traquer
variable {F : Type} [FloatOps F]

/-- The IEEE-754 rule that an operation with a NaN operand yields a NaN, for the operations used by
the indicators. Holds for `f64` and for the arithmetic `FP ρ` of `Verif.Arith`. -/
class NaNLaws (F : Type) [FloatOps F] : Prop where
  nan_isNaN : isNaN (nan : F) = true
  add_left : ∀ x y : F, isNaN x = true → isNaN (x + y) = true
  add_right : ∀ x y : F, isNaN y = true → isNaN (x + y) = true
  sub_left : ∀ x y : F, isNaN x = true → isNaN (x - y) = true
  sub_right : ∀ x y : F, isNaN y = true → isNaN (x - y) = true
  mul_left : ∀ x y : F, isNaN x = true → isNaN (x * y) = true
  mul_right : ∀ x y : F, isNaN y = true → isNaN (x * y) = true
  div_left : ∀ x y : F, isNaN x = true → isNaN (x / y) = true
  div_right : ∀ x y : F, isNaN y = true → isNaN (x / y) = true
  neg : ∀ x : F, isNaN x = true → isNaN (-x) = true
  abs : ∀ x : F, isNaN x = true → isNaN (fabs x) = true
  sqrt : ∀ x : F, isNaN x = true → isNaN (Traquer.sqrt x) = true
  signum : ∀ x : F, isNaN x = true → isNaN (Traquer.signum x) = true
  lt_left : ∀ x y : F, isNaN x = true → (x <. y) = false
  lt_right : ∀ x y : F, isNaN y = true → (x <. y) = false

/-- The first `k` values of a series are NaN. -/
def WarmUp (k : Nat) (l : List F) : Prop := ∀ x ∈ l.take k, isNaN x = true

/-- The call does not panic, yields one value for each of the `n` bars, and (in any arithmetic in which
NaN propagates) the first `k` of them, all within the series, are NaN. -/
def Aligned (n k : Nat) (r : Option (List F)) : Prop :=
  ∃ out, r = some out ∧ out.length = n ∧ k ≤ n ∧ (NaNLaws F → WarmUp k out)

/-- `Aligned` for an indicator with two lines, with warm-up `k₁` and `k₂`. -/
def Aligned2 (n k₁ k₂ : Nat) (r : Option (List (F × F))) : Prop :=
  ∃ out, r = some out ∧ out.length = n ∧ k₁ ≤ n ∧ k₂ ≤ n ∧
    (NaNLaws F → WarmUp k₁ (out.map fun x => x.1) ∧ WarmUp k₂ (out.map fun x => x.2))

/-- `Aligned` for an indicator with three lines. -/
def Aligned3 (n k₁ k₂ k₃ : Nat) (r : Option (List (F × F × F))) : Prop :=
  ∃ out, r = some out ∧ out.length = n ∧ k₁ ≤ n ∧ k₂ ≤ n ∧ k₃ ≤ n ∧
    (NaNLaws F → WarmUp k₁ (out.map fun x => x.1) ∧ WarmUp k₂ (out.map fun x => x.2.1) ∧
      WarmUp k₃ (out.map fun x => x.2.2))

/-- The call does not panic and yields exactly `n` items. -/
def Yields {β : Type} (n : Nat) (r : Option (List β)) : Prop := ∃ out, r = some out ∧ out.length = n

/-- One market bar, for the indicators that read several series. -/
structure Candle (F : Type) where
  openp : F
  high : F
  low : F
  close : F
  volume : F

/-- `f` maps a history (a list of bars) to its output. Appending a future to the history never changes
what `f` had already answered. -/
def Causal {β γ : Type} (f : List β → Option (List γ)) : Prop :=
  ∀ past future out out', f past = some out → f (past ++ future) = some out' → out <+: out'

/-- No look-ahead, for histories of at least `n₀` bars: `f` answers for the history and for every
continuation of it, one item per bar, and the answer for the history is a prefix of the answer for the
continuation. -/
def NoLookahead {β γ : Type} (n₀ : Nat) (f : List β → Option (List γ)) : Prop :=
  ∀ past future, n₀ ≤ past.length → ∃ out out', f past = some out ∧ f (past ++ future) = some out' ∧
    out.length = past.length ∧ out'.length = past.length + future.length ∧ out <+: out'

/-- The most recent `w` values of a series at bar `i`, oldest first (meaningful for `w ≤ i + 1`). -/
def recent {β : Type} (l : List β) (w i : Nat) : List β := (l.drop (i + 1 - w)).take w

end Traquer
