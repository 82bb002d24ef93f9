import Verif.Model.Release
import Verif.Model.Momentum
import Verif.Model.Volume
import Verif.Model.Volatility
/-!
The exponential and Wilder averages, and the functions that pair an exponential average with another series without storing it first, as a build
without overflow checks computes them. `wadd`, `wsub` of Model/Release are `usize` arithmetic modulo `2^64`. The warm-up of `ewma` is
`repeat(NAN).take(window - 1)`: for a window of 0 this is `2^64 - 1` values, here a list of that length of which a consumer reads as much as it
wants. (Functions that `collect` such a series cannot: the allocation is refused. They are not modelled here.)
-/

namespace Traquer
open FloatOps FloatLit
variable {F : Type} [FloatOps F]

/-- smooth.rs:79-94, wrapping. -/
def Smooth.ewmaRelease (data : List F) (window : Nat) : Option (List F) := do
  let head ← sliceTo data window
  let initial := fsum head / flt window
  let alpha := 2 / flt (wadd window 1)
  let rest ← sliceFrom data window
  some (nans (wsub window 1) ++ (initial :: scanS (fun state x => x * alpha + state * (1 - alpha)) initial rest))

/-- smooth.rs:254-271, wrapping. -/
def Smooth.wilderRelease (data : List F) (window : Nat) : Option (List F) :=
  if window = 1 then some data
  else do
    let k := wsub window 1
    let head ← sliceTo data k
    let initial := fsum head / flt k
    let rest ← sliceFrom data k
    some (nans k ++ scanS (fun state x => (state * flt k + x) / flt window) initial rest)

/-- momentum.rs:147-155, wrapping. -/
def Momentum.macdRelease (close : List F) (short long : Nat) : Option (List F) := do
  let s ← Smooth.ewmaRelease close short
  let l ← Smooth.ewmaRelease close long
  some ((s.zip l).map fun (x, y) => x - y)

/-- momentum.rs:335-343, wrapping. -/
def Momentum.ppoRelease (data : List F) (short long : Nat) : Option (List F) := do
  let s ← Smooth.ewmaRelease data short
  let l ← Smooth.ewmaRelease data long
  some ((s.zip l).map fun (x, y) => 100 * (x / y - 1))

/-- momentum.rs:367-375, wrapping. -/
def Momentum.apoRelease (data : List F) (short long : Nat) : Option (List F) := do
  let s ← Smooth.ewmaRelease data short
  let l ← Smooth.ewmaRelease data long
  some ((s.zip l).map fun (x, y) => x - y)

/-- momentum.rs:1159-1163, wrapping. -/
def Momentum.disparityRelease (data : List F) (window : Nat) : Option (List F) := do
  let m ← Smooth.ewmaRelease data window
  some ((data.zip m).map fun (x, ma) => 100 * (x - ma) / ma)

/-- momentum.rs:255-263, wrapping. -/
def Momentum.elder_rayRelease (high low close : List F) (window : Nat) : Option (List (F × F)) := do
  let m ← Smooth.ewmaRelease close window
  some ((zip3 high low m).map fun (h, l, c) => (h - c, l - c))

/-- volume.rs:105-127, wrapping. -/
def Volume.kvoRelease (high low close volume : List F) (short long : Nat) (alt : Option Bool) : Option (List F) := do
  let vf ← if alt.getD true then vforce_alt high low close volume else vforce high low close volume
  let shortMa ← Smooth.ewmaRelease vf short
  let longMa ← Smooth.ewmaRelease vf long
  some (nan :: (shortMa.zip longMa).map fun (x, y) => x - y)

/-- volatility.rs:209-219, wrapping. -/
def Volatility.atrRelease (high low close : List F) (window : Nat) : Option (List F) := do
  let t ← trueRange high low close
  let w ← Smooth.wilderRelease t window
  some (nan :: w)

/-- volatility.rs:88-97, wrapping. -/
def Volatility.keltnerRelease (high low close : List F) (window : Nat) : Option (List (F × F × F)) := do
  let m ← Smooth.ewmaRelease close window
  let a ← atrRelease high low close window
  some ((m.zip a).map fun (middle, atr) => (middle, middle + 2 * atr, middle - 2 * atr))

end Traquer
