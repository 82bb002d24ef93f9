import Verif.Model.Checked
/-!
The functions whose integer arithmetic can leave the range of `usize` for arguments that no other check refuses, as a build without overflow
checks (`cargo build --release`) computes them: on a 64-bit target every `+ - *` of machine integers is taken modulo `2^64`. Windows and lengths are
below `2^64`. (The same for the `u8` counters of the entropies: `countWrap`.)
-/

namespace Traquer
open FloatOps FloatLit Distribution
variable {F : Type} [FloatOps F]

/-- `a + b` of two `usize` in a build without overflow checks, e.g. smooth.rs:224 -/
def wadd (a b : Nat) : Nat := (a + b) % 2 ^ 64

/-- `a - b` of two `usize` in a build without overflow checks, e.g. smooth.rs:227 -/
def wsub (a b : Nat) : Nat := (a + (2 ^ 64 - b)) % 2 ^ 64

/-- `a * b` of two `usize` in a build without overflow checks, e.g. smooth.rs:222 -/
def wmul (a b : Nat) : Nat := a * b % 2 ^ 64

/-- One iteration of the row loop of pwma, smooth.rs:220-225, as `Smooth.pascalStep` but wrapping. -/
def Smooth.pascalStepRelease (n : Nat) (st : List Nat × Nat) (i : Nat) : List Nat × Nat :=
  let k := i - 1
  let v := wmul (st.1.getD k 0) (n - k) / (k + 1)
  ((st.1.set i v).set (n - i) v, wadd st.2 (wmul v 2))

/-- The row and its denominator, smooth.rs:217-228, for `window ≥ 1`, wrapping. -/
def Smooth.pascalRowRelease (window : Nat) : List Nat × Nat :=
  let n := window - 1
  let st := (List.range' 1 (n / 2)).foldl (pascalStepRelease n) (List.replicate window 1, 2)
  if window % 2 = 1 then (st.1, wsub st.2 (st.1.getD (n / 2) 0)) else st

/-- smooth.rs:216-238, wrapping. Window 0 still panics: `row` is empty and `row[1]` is read. -/
def Smooth.pwmaRelease (data : List F) (window : Nat) : Option (List F) :=
  if window = 0 then none
  else do
    let r := pascalRowRelease window
    let weights : List F := r.1.map fun i => flt i / flt r.2
    let ws ← windows window data
    some (nans (window - 1) ++ ws.map (dot weights))

/-- distribution.rs:294-309, wrapping. Window 0 still panics in `windows(0)`. -/
def Distribution.kurtosisRelease (data : List F) (window : Nat) : Option (List F) := do
  let w1 := wsub window 1
  let w2 := wsub window 2
  let w3 := wsub window 3
  let adj1 : F := flt (wmul (wmul (wadd window 1) window) w1) / flt (wmul w2 w3)
  let adj2 : F := 3 * flt (wmul w1 w1) / flt (wmul w2 w3)
  let ws ← windows window data
  some (nans w1 ++ ws.map fun w =>
    let mean := winMean w window
    let k4 := powDev w mean 4
    let k2 := powDev w mean 2
    adj1 * k4 / (k2 * k2) - adj2)

/-- distribution.rs:338-354, wrapping. Window 0 still panics in `windows(0)`. -/
def Distribution.skewRelease (data : List F) (window : Nat) : Option (List F) := do
  let ws ← windows window data
  some (nans (wsub window 1) ++ ws.map fun w =>
    let mean := winMean w window
    let m3 := powDev w mean 3 / flt window
    let m2 := powf (powDev w mean 2 / flt window) (3 / 2)
    sqrt (flt (wmul window (wsub window 1))) / flt (wsub window 2) * m3 / m2)

/-- The closure of hoeffd, correlation.rs:388-414, wrapping -/
def Correlation.hoeffdWinRelease (srt : Sorter F) (window : Nat) (xw yw : List F) : Option F := do
  let rx ← Distribution.rank srt xw (some .average)
  let ry ← Distribution.rank srt yw (some .average)
  let q := (rx.zip ry).map fun (x, y) => hoeffdQ rx ry x y
  let d1 := q.foldl (fun acc x => acc + (x - 1) * (x - 2)) 0
  let d2 := (rx.zip ry).foldl (fun acc ((x, y) : F × F) =>
    acc + (x - 1) * (x - 2) * (y - 1) * (y - 2)) 0
  let d3 := (zip3 q rx ry).foldl (fun acc ((q, x, y) : F × F × F) =>
    acc + (x - 2) * (y - 2) * (q - 1)) 0
  let w2 := wsub window 2
  let w3 := wsub window 3
  some (30 * (flt (wmul w2 w3) * d1 + d2 - 2 * flt w2 * d3) /
    flt (wmul (wmul (wmul (wmul window (wsub window 1)) w2) w3) (wsub window 4)))

/-- correlation.rs:379-416, wrapping. Window 0 still panics in `windows(0)`. -/
def Correlation.hoeffdRelease (srt : Sorter F) (series1 series2 : List F) (window : Nat) : Option (List F) := do
  let xs ← windows window series1
  let ys ← windows window series2
  let r ← mapP (fun ((xw, yw) : List F × List F) => hoeffdWinRelease srt window xw yw) (xs.zip ys)
  some (nans (wsub window 1) ++ r)

/-- distribution.rs:201-206 and 253-258 with the slices `ts[i..i + m]` and `ts[j..j + m]` checked, as their ends can lie outside once the number of
stretches has wrapped -/
def Distribution.templMatchChecked (ts : List F) (m : Nat) (tol : F) (i j : Nat) : Option Bool :=
  if i + m ≤ ts.length ∧ j + m ≤ ts.length then some (templMatch ts m tol i j) else none

/-- `phi`, distribution.rs:195-213, wrapping -/
def Distribution.phiWrap (ts : List F) (m : Nat) (tol : F) : Option F := do
  let winLen := wadd (wsub ts.length m) 1
  let counts ← mapP (fun i => (mapP (templMatchChecked ts m tol i) (List.range winLen)).map countWrap) (List.range winLen)
  let cm := counts.foldl (fun (cm : F) c => cm + ln (flt c / flt winLen)) 0
  some (cm / flt winLen)

/-- distribution.rs:189-222, wrapping. Window 0 still panics in `windows(0)`. -/
def Distribution.approx_entropyWrap (data : List F) (window : Nat) (runLength : Option Nat) (tolerance : Option F) : Option (List F) := do
  let m := runLength.getD 2
  let tol ← tolOr data tolerance
  let ws ← windows window data
  let r ← mapP (fun w => do
    let a ← phiWrap w (wadd m 1) tol
    let b ← phiWrap w m tol
    some (fabs (a - b))) ws
  some (nans (wsub window 1) ++ r)

/-- `matches`, distribution.rs:248-263, wrapping -/
def Distribution.matchCountWrap (ts : List F) (m : Nat) (tol : F) : Option F := do
  let winLen := wadd (wsub ts.length m) 1
  let l ← mapP (fun (p : Nat × Nat) => templMatchChecked ts m tol p.1 p.2) (ltPairs winLen)
  some (2 * flt (countWrap l) + epsilon)

/-- distribution.rs:242-272, wrapping. Window 0 still panics in `windows(0)`. -/
def Distribution.sample_entropyWrap (data : List F) (window : Nat) (runLength : Option Nat) (tolerance : Option F) : Option (List F) := do
  let m := runLength.getD 2
  let tol ← tolOr data tolerance
  let ws ← windows window data
  let r ← mapP (fun w => do
    let a ← matchCountWrap w (wadd m 1) tol
    let b ← matchCountWrap w m tol
    some (-(ln (a / b)))) ws
  some (nans (wsub window 1) ++ r)

end Traquer
