import Verif.Spec.Basic
import Mathlib.Analysis.SpecialFunctions.Pow.Real
import Mathlib.Analysis.SpecialFunctions.Trigonometric.Arctan
import Mathlib.Analysis.SpecialFunctions.Log.Base
/-!
# Floating-point arithmetic over the reals with an arbitrary rounding

`FP ρ` has the values of an IEEE-754 format: NaN, the two infinities, the two zeros and finite numbers.
An operation computes the real result and rounds it with `ρ`. `Rounding.exact` does not round at all
(real arithmetic with IEEE special values); `Verif.Arith.Binary64` gives the round-to-nearest-even of
`f64`. A theorem for every `ρ` therefore covers `f64`, with the transcendental functions of libm taken
as correctly rounded.
-/

namespace Traquer
open Classical

/-- A rounding: what it does to a real number and which rounded numbers do not overflow. -/
structure Rounding where
  /-- the rounded value, with unbounded exponent -/
  rnd : ℝ → ℝ
  /-- the value does not overflow -/
  fits : ℝ → Prop
  mono : ∀ x y, x ≤ y → rnd x ≤ rnd y
  odd : ∀ x, rnd (-x) = -rnd x
  idem : ∀ x, rnd (rnd x) = rnd x
  nat : ∀ n : ℕ, n ≤ 2 ^ 53 → rnd n = n
  fits_mono : ∀ x y, |x| ≤ |y| → fits y → fits x
  fits_nat : ∀ n : ℕ, n ≤ 2 ^ 53 → fits n

/-- No rounding, no overflow: real arithmetic with IEEE special values. -/
def Rounding.exact : Rounding where
  rnd := id
  fits := fun _ => True
  mono := fun _ _ h => h
  odd := fun _ => rfl
  idem := fun _ => rfl
  nat := fun _ _ => rfl
  fits_mono := fun _ _ _ _ => trivial
  fits_nat := fun _ _ => trivial

/-- Floating-point values. `fin 0` is `+0.0`, `negz` is `-0.0`. -/
inductive FP (ρ : Rounding) : Type
  | nan
  | inf (neg : Bool)
  | negz
  | fin (r : ℝ)

namespace FP
variable {ρ : Rounding}

/-- The real value of a finite number (junk `0` for NaN and infinities). -/
noncomputable def val : FP ρ → ℝ
  | fin r => r
  | _ => 0

/-- The extended real value (junk `0` for NaN). -/
noncomputable def toE : FP ρ → EReal
  | fin r => r
  | inf true => ⊥
  | inf false => ⊤
  | _ => 0

/-- neither NaN nor infinite -/
def Finite : FP ρ → Prop
  | nan => False
  | inf _ => False
  | _ => True

/-- the sign bit (of NaN: clear) -/
noncomputable def sgn : FP ρ → Bool
  | nan => false
  | inf b => b
  | negz => true
  | fin r => decide (r < 0)

/-- Round a real result. `s` is the sign of an exact zero. -/
noncomputable def mk (s : Bool) (r : ℝ) : FP ρ :=
  if ρ.rnd r = 0 then if r < 0 ∨ (r = 0 ∧ s = true) then negz else fin 0
  else if ρ.fits (ρ.rnd r) then fin (ρ.rnd r) else inf (decide (r < 0))

noncomputable def neg : FP ρ → FP ρ
  | nan => nan
  | inf b => inf (!b)
  | negz => fin 0
  | fin r => if r = 0 then negz else fin (-r)

noncomputable def add : FP ρ → FP ρ → FP ρ
  | nan, _ => nan
  | _, nan => nan
  | inf a, inf b => if a = b then inf a else nan
  | inf a, _ => inf a
  | _, inf b => inf b
  | negz, negz => negz
  | negz, fin b => mk false b
  | fin a, negz => mk false a
  | fin a, fin b => mk false (a + b)

noncomputable def sub (x y : FP ρ) : FP ρ := add x (neg y)

noncomputable def mul : FP ρ → FP ρ → FP ρ
  | nan, _ => nan
  | _, nan => nan
  | inf a, y => if y = fin 0 ∨ y = negz then nan else inf (a != sgn y)
  | x, inf b => if x = fin 0 ∨ x = negz then nan else inf (sgn x != b)
  | x, y => mk (sgn x != sgn y) (val x * val y)

noncomputable def div : FP ρ → FP ρ → FP ρ
  | nan, _ => nan
  | _, nan => nan
  | inf _, inf _ => nan
  | inf a, y => inf (a != sgn y)
  | x, inf b => if sgn x != b then negz else fin 0
  | x, y =>
    if val y = 0 then if val x = 0 then nan else inf (sgn x != sgn y)
    else mk (sgn x != sgn y) (val x / val y)

noncomputable def abs : FP ρ → FP ρ
  | nan => nan
  | inf _ => inf false
  | negz => fin 0
  | fin r => fin |r|

noncomputable def sqrt : FP ρ → FP ρ
  | nan => nan
  | inf b => if b then nan else inf false
  | negz => negz
  | fin r => if r < 0 then nan else mk false (Real.sqrt r)

noncomputable def exp : FP ρ → FP ρ
  | nan => nan
  | inf b => if b then fin 0 else inf false
  | x => mk false (Real.exp (val x))

/-- A logarithm given by its real function on positive numbers. -/
noncomputable def logWith (f : ℝ → ℝ) : FP ρ → FP ρ
  | nan => nan
  | inf b => if b then nan else inf false
  | negz => inf true
  | fin r => if r = 0 then inf true else if r < 0 then nan else mk false (f r)

noncomputable def cos : FP ρ → FP ρ
  | nan => nan
  | inf _ => nan
  | x => mk false (Real.cos (val x))

noncomputable def atan : FP ρ → FP ρ
  | nan => nan
  | inf b => mk b (if b then -(Real.pi / 2) else Real.pi / 2)
  | negz => negz
  | fin r => mk false (Real.arctan r)

noncomputable def floor : FP ρ → FP ρ
  | fin r => mk false ⌊r⌋
  | x => x

noncomputable def ceil : FP ρ → FP ρ
  | fin r => mk (decide (r < 0)) ⌈r⌉
  | x => x

/-- `x - x.trunc()` -/
noncomputable def fract : FP ρ → FP ρ
  | nan => nan
  | inf _ => nan
  | negz => fin 0
  | fin r => mk false (r - if 0 ≤ r then ⌊r⌋ else ⌈r⌉)

noncomputable def signum : FP ρ → FP ρ
  | nan => nan
  | x => if sgn x then fin (-1) else fin 1

/-- `f64::powf` as in C's `pow`. -/
noncomputable def powf (x y : FP ρ) : FP ρ :=
  if y = fin 0 ∨ y = negz ∨ x = fin 1 then fin 1
  else match x, y with
  | nan, _ => nan
  | _, nan => nan
  | inf _, inf s => if s then fin 0 else inf false
  | x, inf s =>
    if |val x| = 1 then fin 1
    else if (s = true ∧ 1 < |val x|) ∨ (s = false ∧ |val x| < 1) then fin 0 else inf false
  | inf b, fin e =>
    let odd := ∃ n : ℤ, e = 2 * n + 1
    if e < 0 then (if b = true ∧ odd then negz else fin 0) else inf (b && decide odd)
  | x, fin e =>
    let odd := ∃ n : ℤ, e = 2 * n + 1
    if val x = 0 then
      if e < 0 then inf (sgn x && decide odd) else if sgn x = true ∧ odd then negz else fin 0
    else if 0 < val x then mk false (val x ^ e)
    else if ∃ n : ℤ, e = n then
      if odd then mk true (-((-val x) ^ e)) else mk false ((-val x) ^ e)
    else nan
  | _, negz => fin 1

/-- `x as usize` on a 64-bit target -/
noncomputable def toUsize : FP ρ → ℕ
  | nan => 0
  | inf b => if b then 0 else 2 ^ 64 - 1
  | negz => 0
  | fin r => min ⌊r⌋₊ (2 ^ 64 - 1)

def isNaN : FP ρ → Bool
  | nan => true
  | _ => false

noncomputable def lt (x y : FP ρ) : Bool := !isNaN x && !isNaN y && decide (toE x < toE y)
noncomputable def le (x y : FP ρ) : Bool := !isNaN x && !isNaN y && decide (toE x ≤ toE y)
noncomputable def feq (x y : FP ρ) : Bool := !isNaN x && !isNaN y && decide (toE x = toE y)

noncomputable instance : FloatOps (FP ρ) where
  add := add
  sub := sub
  mul := mul
  div := div
  neg := neg
  nan := nan
  ofNat n := mk false n
  ofSci m s e := mk false (OfScientific.ofScientific m s e : ℝ)
  pi := mk false Real.pi
  maxValue := mk false ((2 - 2 ^ (-52 : ℤ)) * 2 ^ (1023 : ℤ))
  minPositive := mk false (2 ^ (-1022 : ℤ))
  epsilon := mk false (2 ^ (-52 : ℤ))
  abs := abs
  sqrt := sqrt
  exp := exp
  ln := logWith Real.log
  log10 := logWith (Real.logb 10)
  log2 := logWith (Real.logb 2)
  cos := cos
  atan := atan
  floor := floor
  ceil := ceil
  fract := fract
  signum := signum
  powf := powf
  lt := lt
  le := le
  feq := feq
  isNaN := isNaN
  toUsize := toUsize

theorem add_def (x y : FP ρ) : x + y = add x y := rfl
theorem sub_def (x y : FP ρ) : x - y = add x (neg y) := rfl
theorem mul_def (x y : FP ρ) : x * y = mul x y := rfl
theorem div_def (x y : FP ρ) : x / y = div x y := rfl
theorem neg_def (x : FP ρ) : -x = neg x := rfl
theorem abs_def (x : FP ρ) : fabs x = abs x := rfl
theorem sqrt_def (x : FP ρ) : Traquer.sqrt x = sqrt x := rfl
theorem nan_def : (Traquer.nan : FP ρ) = nan := rfl
theorem isNaN_def (x : FP ρ) : Traquer.isNaN x = isNaN x := rfl
theorem lt_def (x y : FP ρ) : (x <. y) = lt x y := rfl
theorem le_def (x y : FP ρ) : (x <=. y) = le x y := rfl
theorem feq_def (x y : FP ρ) : (x ==. y) = feq x y := rfl
theorem ofNat_def (n : ℕ) : (flt n : FP ρ) = mk false n := rfl

@[simp] theorem isNaN_iff {x : FP ρ} : Traquer.isNaN x = true ↔ x = nan := by
  cases x <;> simp [isNaN_def, isNaN]

instance : NaNLaws (FP ρ) where
  nan_isNaN := rfl
  add_left x y h := by rw [isNaN_iff] at *; subst h; rfl
  add_right x y h := by rw [isNaN_iff] at *; subst h; cases x <;> rfl
  sub_left x y h := by rw [isNaN_iff] at *; subst h; rfl
  sub_right x y h := by rw [isNaN_iff] at *; subst h; cases x <;> rfl
  mul_left x y h := by rw [isNaN_iff] at *; subst h; rfl
  mul_right x y h := by rw [isNaN_iff] at *; subst h; cases x <;> rfl
  div_left x y h := by rw [isNaN_iff] at *; subst h; rfl
  div_right x y h := by rw [isNaN_iff] at *; subst h; cases x <;> rfl
  neg x h := by rw [isNaN_iff] at *; subst h; rfl
  abs x h := by rw [isNaN_iff] at *; subst h; rfl
  sqrt x h := by rw [isNaN_iff] at *; subst h; rfl
  signum x h := by rw [isNaN_iff] at *; subst h; rfl
  lt_left x y h := by rw [isNaN_iff] at h; subst h; rfl
  lt_right x y h := by rw [isNaN_iff] at h; subst h; cases x <;> rfl

end FP
end Traquer
