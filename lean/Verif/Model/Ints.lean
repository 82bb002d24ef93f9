import Verif.Arith.FP
import Verif.Model.Correlation
/-!
# Data of an integer type

`quantile`, `median`, `rank`, `srcc` and `hoeffd` take `T: ToPrimitive + PartialOrd + Clone`: they compare values of the caller's
type with that type's own `<` and `!=` and convert with `to_f64` only afterwards. Here `T` is a machine integer. Integers are Lean's
`ℤ`: the functions do no arithmetic on them, so the width of the type does not enter.
-/

namespace Traquer
variable {ρ : Rounding}

/-- `to_f64` of an integer (num_traits, `self as f64`), used by every function in `/repo/src` that takes `T: ToPrimitive`, for instance
distribution.rs:422: the nearest double; zero is `+0.0`. -/
noncomputable def intToF64 (z : ℤ) : FP ρ := FP.mk false z

namespace Distribution
open FloatLit

/-- distribution.rs:412-437 at an integer type -/
noncomputable def quantileInt (data : List ℤ) (window : ℕ) (q : FP ρ) : Option (List (FP ρ)) :=
  quantileT (fun x y => decide (x < y)) intToF64 data window q

/-- distribution.rs:393-398 at an integer type -/
noncomputable def medianInt (data : List ℤ) (window : ℕ) : Option (List (FP ρ)) := quantileInt data window 50

/-- distribution.rs:510-579 at an integer type, with a given sorting routine. `partial_cmp` of integers never fails, so the sort does
not panic (distribution.rs:474). -/
def rankInt {F : Type} [FloatOps F] (srt : List ℤ → List ℕ) (data : List ℤ) (mode : Option RankMode) : Option (List F) :=
  rankWith (fun x y => decide (x ≠ y)) data mode (srt data)

end Distribution

namespace Correlation
open Distribution FloatLit

/-- correlation.rs:271-288 at an integer type -/
def srccInt {F : Type} [FloatOps F] (srt : List ℤ → List ℕ) (series1 series2 : List ℤ) (window : ℕ) : Option (List F) := do
  let k ← usub window 1
  let xs ← windows window series1
  let ys ← windows window series2
  let r ← mapP (fun ((xw, yw) : List ℤ × List ℤ) => do
    let rx ← rankInt (F := F) srt xw none
    let ry ← rankInt srt yw none
    let (covXY, stdX, stdY) ← cov_stdev rx ry
    some (covXY / (stdX * stdY))) (xs.zip ys)
  some (nans k ++ r)

/-- The closure of hoeffd, correlation.rs:388-414, at an integer type. As in `hoeffdWin`, the product of line 413 is checked for
overflow; that of line 411 is not larger. -/
def hoeffdWinInt {F : Type} [FloatOps F] (srt : List ℤ → List ℕ) (window : ℕ) (xw yw : List ℤ) : Option F := do
  let rx ← rankInt (F := F) srt xw (some .average)
  let ry ← rankInt srt yw (some .average)
  let q := (rx.zip ry).map fun (x, y) => hoeffdQ rx ry x y
  let d1 := q.foldl (fun acc x => acc + (x - 1) * (x - 2)) 0
  let d2 := (rx.zip ry).foldl (fun acc ((x, y) : F × F) =>
    acc + (x - 1) * (x - 2) * (y - 1) * (y - 2)) 0
  let d3 := (zip3 q rx ry).foldl (fun acc ((q, x, y) : F × F × F) =>
    acc + (x - 2) * (y - 2) * (q - 1)) 0
  let w1 ← usub window 1
  let w2 ← usub window 2
  let w3 ← usub window 3
  let w4 ← usub window 4
  let p1 ← umul window w1
  let p2 ← umul p1 w2
  let p3 ← umul p2 w3
  let p4 ← umul p3 w4
  some (30 * (flt (w2 * w3) * d1 + d2 - 2 * flt w2 * d3) / flt p4)

/-- correlation.rs:379-416 at an integer type -/
def hoeffdInt {F : Type} [FloatOps F] (srt : List ℤ → List ℕ) (series1 series2 : List ℤ) (window : ℕ) : Option (List F) := do
  let k ← usub window 1
  let xs ← windows window series1
  let ys ← windows window series2
  let r ← mapP (fun ((xw, yw) : List ℤ × List ℤ) => hoeffdWinInt srt window xw yw) (xs.zip ys)
  some (nans k ++ r)

end Correlation
end Traquer
