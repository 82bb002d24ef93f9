import Verif.Model.Smooth
import Verif.Model.Distribution
import Verif.Model.Correlation
/-!
The functions whose window enters a product of machine integers, with those products checked as a build with overflow checks does. The
remaining steps are those of the model over `Nat`. (`hoeffd`, `pwma` and the counters of the entropies are checked in the model itself.)
-/

namespace Traquer
variable {F : Type} [FloatOps F]

/-- smooth.rs:185-186: `window.pow(2) + window`, evaluated when `wma` is called -/
def Smooth.wmaChecked (data : List F) (window : Nat) : Option (List F) := do
  let p ← umul window window
  let _ ← uadd p window
  Smooth.wma data window

/-- smooth.rs:398-400: `window * (window + 1)` and `2 * window + 1`, evaluated when `lrf` is called -/
def Smooth.lrfChecked (data : List F) (window : Nat) : Option (List F) := do
  let s ← uadd window 1
  let _ ← umul window s
  let d ← umul 2 window
  let _ ← uadd d 1
  Smooth.lrf data window

/-- distribution.rs:294-296: `(window + 1) * window * (window - 1)`, `(window - 2) * (window - 3)` and `(window - 1).pow(2)`, evaluated when
`kurtosis` is called -/
def Distribution.kurtosisChecked (data : List F) (window : Nat) : Option (List F) := do
  let s ← uadd window 1
  let p ← umul s window
  let w1 ← usub window 1
  let _ ← umul p w1
  let w2 ← usub window 2
  let w3 ← usub window 3
  let _ ← umul w2 w3
  let _ ← umul w1 w1
  Distribution.kurtosis data window

/-- distribution.rs:338-354: `window * (window - 1)`, evaluated for every window of the data -/
def Distribution.skewChecked (data : List F) (window : Nat) : Option (List F) := do
  let r ← Distribution.skew data window
  if window ≤ data.length then
    let w1 ← usub window 1
    let _ ← umul window w1
    some r
  else some r

/-- correlation.rs:317-351: `window * (window - 1)` on line 346, evaluated for every pair of windows -/
def Correlation.krccChecked (series1 series2 : List F) (window : Nat) : Option (List F) := do
  let r ← Correlation.krcc series1 series2 window
  if window ≤ series1.length ∧ window ≤ series2.length then
    let w1 ← usub window 1
    let _ ← umul window w1
    some r
  else some r

/-- correlation.rs:445-510: `n * n` and `window.pow(2)`, evaluated for every pair of windows (the indices `i * n + j` are smaller) -/
def Correlation.dcorChecked (series1 series2 : List F) (window : Nat) : Option (List F) := do
  let r ← Correlation.dcor series1 series2 window
  if window ≤ series1.length ∧ window ≤ series2.length then
    let _ ← umul window window
    some r
  else some r

end Traquer
