/-!
# The floating-point interface

`FloatOps F` lists the `f64` operations that traquer uses.  The model of traquer is
polymorphic in `F`, and the class contains **no laws**: whatever is proved for an
arbitrary `F` holds in particular for the machine's IEEE-754 `f64`.
-/

namespace Traquer

/-- The `f64` operations used anywhere in `/repo/src` (std's `f64` methods and operators). -/
class FloatOps (F : Type) extends Add F, Sub F, Mul F, Div F, Neg F where
  /-- `f64::NAN` -/
  nan : F
  /-- `n as f64` for an unsigned integer, and integral literals -/
  ofNat : Nat → F
  /-- a decimal literal `m * 10^(±e)` (`true` is the negative exponent), as in `OfScientific` -/
  ofSci : Nat → Bool → Nat → F
  /-- `std::f64::consts::PI` -/
  pi : F
  /-- `f64::MAX` (`f64::MIN` is its negation) -/
  maxValue : F
  /-- `f64::MIN_POSITIVE` -/
  minPositive : F
  /-- `f64::EPSILON` -/
  epsilon : F
  abs : F → F
  sqrt : F → F
  exp : F → F
  ln : F → F
  log10 : F → F
  log2 : F → F
  cos : F → F
  atan : F → F
  floor : F → F
  ceil : F → F
  /-- fractional part `x - x.trunc()` -/
  fract : F → F
  /-- Rust's `signum`: `1` for `+0.0` and positive numbers, `-1` for `-0.0` and negative ones, NaN for NaN -/
  signum : F → F
  powf : F → F → F
  /-- `x < y` (false if either is NaN) -/
  lt : F → F → Bool
  /-- `x <= y` -/
  le : F → F → Bool
  /-- `x == y` -/
  feq : F → F → Bool
  isNaN : F → Bool
  /-- `x as usize` (saturating, NaN goes to 0) -/
  toUsize : F → Nat

export FloatOps (nan maxValue minPositive epsilon sqrt exp ln log10 log2 cos atan floor ceil
  fract signum powf toUsize isNaN)

variable {F : Type} [FloatOps F]

/-- `f64::abs` -/
abbrev fabs (x : F) : F := FloatOps.abs x

/-- `n as f64` -/
abbrev flt (n : Nat) : F := FloatOps.ofNat n

namespace FloatLit
/-- Integral literals such as `100.0`. -/
scoped instance (priority := low) instOfNatF (n : Nat) : OfNat F n := ⟨FloatOps.ofNat n⟩
/-- Decimal literals such as `0.0962`. -/
scoped instance (priority := low) instOfSciF : OfScientific F := ⟨FloatOps.ofSci⟩
end FloatLit

@[inherit_doc FloatOps.lt] infix:50 " <. " => FloatOps.lt
@[inherit_doc FloatOps.le] infix:50 " <=. " => FloatOps.le
@[inherit_doc FloatOps.feq] infix:50 " ==. " => FloatOps.feq
/-- `x > y` on floats -/
infix:50 " >. " => fun x y => FloatOps.lt y x
/-- `x >= y` on floats -/
infix:50 " >=. " => fun x y => FloatOps.le y x

/-- `f64::max`: the larger argument, ignoring a NaN argument (std documentation of `f64::max`).
Between `+0.0` and `-0.0` the first one is returned (std leaves this open). -/
def fmax (x y : F) : F :=
  if isNaN x then y else if isNaN y then x else if x <. y then y else x

/-- `f64::min`, see `fmax`. -/
def fmin (x y : F) : F :=
  if isNaN x then y else if isNaN y then x else if y <. x then y else x

/-- The body of `f64::clamp` without its assertion (used where the bounds are literals, for
which the assertion `min <= max` holds). -/
def clampLit (x lo hi : F) : F :=
  if x <. lo then lo else if hi <. x then hi else x

/-- `f64::clamp(x, lo, hi)`: panics (`none`) unless `lo <= hi` (so also if a bound is NaN). -/
def fclamp (x lo hi : F) : Option F :=
  if lo <=. hi then some (clampLit x lo hi) else none

/-- The loop of compiler-rt's `__powidf2` for a non-negative exponent: `r` accumulates, `a` is
squared, the exponent is halved. -/
def powiLoop (r a : F) (n : Nat) : F :=
  if _h : n = 0 then r
  else
    let r' := if n % 2 = 1 then r * a else r
    if n / 2 = 0 then r' else powiLoop r' (a * a) (n / 2)
termination_by n
decreasing_by omega

open FloatLit in
/-- `f64::powi` for the non-negative exponents used (2, 3, 4). -/
def powi (x : F) (n : Nat) : F := powiLoop 1 x n

open FloatLit in
/-- `Iterator::sum::<f64>()`. Simplification: starts at `+0.0`. -/
def fsum (l : List F) : F := l.foldl (· + ·) 0

/-- `b as u8 as f64` -/
def boolF (b : Bool) : F := FloatOps.ofNat (if b then 1 else 0)

end Traquer
