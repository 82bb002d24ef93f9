import Verif.Model.Correlation
/-!
# The iterators of the functions that can panic on the values of a window

The functions of `Model/Distribution` and `Model/Correlation` report the drained iterator. Here the iterator itself is modelled: one entry
per item, `none` when the call of `next()` that should produce the item panics; the whole
is `none` if the call itself panics. The iterator is `Windows` under `Map`, which has moved on when
the closure runs, so the entries after a `none` are what a caller who catches the panic sees next.
-/

namespace Traquer

/-- The first `k` items of an iterator such as that of distribution.rs:338-354, as by `iterator.take(k).collect()`; `none` if one of them, or the call, panics. -/
def pull {F : Type} (k : Nat) (it : Option (List (Option F))) : Option (List F) := do
  let items ← it
  mapP id (items.take k)

/-- All items of an iterator such as that of distribution.rs:338-354, as by `iterator.collect()`. -/
def drain {F : Type} (it : Option (List (Option F))) : Option (List F) := do
  let items ← it
  mapP id items

end Traquer

namespace Traquer.Distribution
open FloatLit
variable {F : Type} [FloatOps F]

/-- The iterator of skew, distribution.rs:338-354 -/
def skewIter (data : List F) (window : Nat) : Option (List (Option F)) := do
  let k ← usub window 1
  let ws ← windows window data
  some ((nans k).map some ++ ws.map fun w => do
    let mean := winMean w window
    let m3 := powDev w mean 3 / flt window
    let m2 := powf (powDev w mean 2 / flt window) (3 / 2)
    let w2 ← usub window 2
    some (sqrt (flt (window * (window - 1))) / flt w2 * m3 / m2))

/-- The iterator of approx_entropy, distribution.rs:189-222: the tolerance is determined by the call. -/
def approx_entropyIter (data : List F) (window : Nat) (runLength : Option Nat) (tolerance : Option F) : Option (List (Option F)) := do
  let m := runLength.getD 2
  let tol ← tolOr data tolerance
  let k ← usub window 1
  let ws ← windows window data
  some ((nans k).map some ++ ws.map fun w => do
    let a ← phi w (m + 1) tol
    let b ← phi w m tol
    some (fabs (a - b)))

/-- The iterator of sample_entropy, distribution.rs:242-272: the tolerance is determined by the call. -/
def sample_entropyIter (data : List F) (window : Nat) (runLength : Option Nat) (tolerance : Option F) : Option (List (Option F)) := do
  let m := runLength.getD 2
  let tol ← tolOr data tolerance
  let k ← usub window 1
  let ws ← windows window data
  some ((nans k).map some ++ ws.map fun w => do
    let a ← matchCount w (m + 1) tol
    let b ← matchCount w m tol
    some (-(ln (a / b))))

end Traquer.Distribution

namespace Traquer.Correlation
open FloatLit
open Traquer.Distribution (rank cov_stdev RankMode Sorter)
variable {F : Type} [FloatOps F]

/-- The iterator of srcc, correlation.rs:271-288 -/
def srccIter (srt : Sorter F) (series1 series2 : List F) (window : Nat) : Option (List (Option F)) := do
  let k ← usub window 1
  let xs ← windows window series1
  let ys ← windows window series2
  some ((nans k).map some ++ (xs.zip ys).map fun ((xw, yw) : List F × List F) => do
    let rx ← rank srt xw none
    let ry ← rank srt yw none
    let (covXY, stdX, stdY) ← cov_stdev rx ry
    some (covXY / (stdX * stdY)))

/-- The iterator of hoeffd, correlation.rs:379-416 -/
def hoeffdIter (srt : Sorter F) (series1 series2 : List F) (window : Nat) : Option (List (Option F)) := do
  let k ← usub window 1
  let xs ← windows window series1
  let ys ← windows window series2
  some ((nans k).map some ++ (xs.zip ys).map fun ((xw, yw) : List F × List F) => hoeffdWin srt window xw yw)

end Traquer.Correlation
