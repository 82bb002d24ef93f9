import Verif.Arith.Val
/-!
# Specification: a change of units

Quoting every price in another currency, or after a stock split, multiplies it by a number `k > 0`. `Scaled k n x y` says that `y` is `x`
in the new units if `x` is a quantity of degree `n`: a price (`n = 1`), a squared price (`n = 2`), a pure number (`n = 0`), a volume per
price (`n = -1`).
-/

namespace Traquer
open FP

/-- Multiplying by `k` commutes with the rounding `ρ` and never makes a number overflow or fit. True of real arithmetic and every `k > 0`
(`scales_exact`), and of 53-bit floating-point numbers with unbounded exponents and every power of two (`scales_float53`), hence of `f64`
as long as nothing over- or underflows. -/
class Rounding.Scales (ρ : Rounding) (k : ℝ) : Prop where
  pos : 0 < k
  rnd_mul : ∀ x, ρ.rnd (k * x) = k * ρ.rnd x
  fits_mul : ∀ x, ρ.fits (k * x) ↔ ρ.fits x

/-- A finite value times `c`; NaN, the infinities and `-0` stay what they are. -/
noncomputable def FP.scaled {ρ : Rounding} (c : ℝ) : FP ρ → FP ρ
  | fin r => fin (c * r)
  | x => x

/-- `y` is `x` times `k ^ n`. -/
def Scaled {ρ : Rounding} (k : ℝ) (n : ℤ) (x y : FP ρ) : Prop := y = x.scaled (k ^ n)

/-- Two pairs, component by component. -/
def Both {α β γ δ : Type} (P : α → γ → Prop) (Q : β → δ → Prop) (x : α × β) (y : γ × δ) : Prop := P x.1 y.1 ∧ Q x.2 y.2

/-- Two lists of the same length, entry by entry. -/
abbrev Each {α β : Type} (P : α → β → Prop) : List α → List β → Prop := List.Forall₂ P

/-- Two computations: both panic, or both answer and the answers are related. -/
inductive Alike {α β : Type} (P : α → β → Prop) : Option α → Option β → Prop
  | panic : Alike P none none
  | answer {a b} : P a b → Alike P (some a) (some b)

end Traquer
