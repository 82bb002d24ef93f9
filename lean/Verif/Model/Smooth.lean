import Verif.Model.Distribution
/-!
# Model of `/repo/src/smooth.rs`
-/

namespace Traquer.Smooth
open FloatLit
open Traquer.Distribution (stdDevRaw)
variable {F : Type} [FloatOps F]

/-- smooth.rs:79-94 -/
def ewma (data : List F) (window : Nat) : Option (List F) := do
  let head ← sliceTo data window
  let initial := fsum head / flt window
  let alpha := 2 / flt (window + 1)
  let k ← usub window 1
  let rest ← sliceFrom data window
  some (nans k ++ (initial :: scanS (fun state x => x * alpha + state * (1 - alpha)) initial rest))

/-- smooth.rs:109-114 -/
def sma (data : List F) (window : Nat) : Option (List F) := do
  let k ← usub window 1
  let ws ← windows window data
  some (nans k ++ ws.map fun w => fsum w / flt window)

/-- smooth.rs:134-140 -/
def dema (data : List F) (window : Nat) : Option (List F) := do
  let ma ← ewma data window
  let k ← usub window 1
  let tail ← sliceFrom ma k
  let ma2 ← ewma tail window
  some ((ma.zip (nans k ++ ma2)).map fun (ma1, ma2) => 2 * ma1 - ma2)

/-- smooth.rs:160-170 -/
def tema (data : List F) (window : Nat) : Option (List F) := do
  let ma ← ewma data window
  let k ← usub window 1
  let t1 ← sliceFrom ma k
  let ma2 ← ewma t1 window
  let t2 ← sliceFrom ma2 k
  let ma3 ← ewma t2 window
  some ((zip3 ma (nans k ++ ma2) (nans (k * 2) ++ ma3)).map fun (ma1, ma2, ma3) =>
    3 * ma1 - 3 * ma2 + ma3)

/-- The weighted window sum shared by wma, pwma and fwma: smooth.rs:190-195, 232-237, 692-697. -/
def dot (weights w : List F) : F := fsum ((w.zip weights).map fun (value, weight) => value * weight)

/-- smooth.rs:186-187 -/
def wmaWeights (window : Nat) : List F :=
  let denom : F := flt (window ^ 2 + window) / 2
  (List.range' 1 window).map fun i => flt i / denom

/-- smooth.rs:185-196 -/
def wma (data : List F) (window : Nat) : Option (List F) := do
  let weights := wmaWeights (F := F) window
  let k ← usub window 1
  let ws ← windows window data
  some (nans k ++ ws.map (dot weights))

/-- One iteration of the row loop of pwma, smooth.rs:220-225, with `k = i - 1`. The indices `i` and
`n - i` are in bounds because `1 ≤ i ≤ n / 2`. -/
def pascalStep (n : Nat) (st : List Nat × Nat) (i : Nat) : Option (List Nat × Nat) := do
  let (row, denom) := st
  let k := i - 1
  let p ← umul (row.getD k 0) (n - k)
  let v := p / (k + 1)
  let row := (row.set i v).set (n - i) v
  let v2 ← umul v 2
  let denom ← uadd denom v2
  some (row, denom)

/-- The row and its denominator, smooth.rs:217-228, for `window ≥ 1`. -/
def pascalRow (window : Nat) : Option (List Nat × Nat) := do
  let n := window - 1
  let (row, denom) ← (List.range' 1 (n / 2)).foldlM (pascalStep n) (List.replicate window 1, 2)
  if window % 2 = 1 then do
    let d ← usub denom (row.getD (n / 2) 0)
    some (row, d)
  else some (row, denom)

/-- smooth.rs:216-238 -/
def pwma (data : List F) (window : Nat) : Option (List F) := do
  let n ← usub window 1
  let (row, denom) ← pascalRow window
  let weights : List F := row.map fun i => flt i / flt denom
  let ws ← windows window data
  some (nans n ++ ws.map (dot weights))

/-- smooth.rs:254-271 -/
def wilder (data : List F) (window : Nat) : Option (List F) :=
  if window = 1 then some data
  else do
    let k ← usub window 1
    let head ← sliceTo data k
    let initial := fsum head / flt k
    let rest ← sliceFrom data k
    some (nans k ++ scanS (fun state x => (state * flt k + x) / flt window) initial rest)

/-- smooth.rs:287-296 -/
def hull (data : List F) (window : Nat) : Option (List F) := do
  let ma ← wma data window
  let ma2 ← wma data (divCeil window 2)
  wma ((ma2.zip ma).map fun (x, y) => 2 * x - y) (toUsize (floor (sqrt (flt window : F))))

/-- smooth.rs:312-333 -/
def vidya (data : List F) (window : Nat) : Option (List F) := do
  let alpha : F := 2 / flt (window + 1)
  let std5 ← stdDevRaw data 5
  let std20 ← sma std5 20
  some (nans 23 ++
    scanS (fun state (s20, s5, d) => alpha * (s5 / s20) * (d - state) + state) 0
      (zip3 (std20.drop 19) (std5.drop 19) (data.drop 23)))

/-- Running totals of gains and losses, smooth.rs:336-344. -/
def gainLoss (data : List F) : List (F × F) :=
  (0, 0) :: scanS (fun (state : F × F) (p : F × F) =>
    (state.1 + fmax 0 (p.2 - p.1), state.2 + fmax 0 (p.1 - p.2))) (0, 0) (pairs data)

/-- `_cmo`, smooth.rs:335-353 -/
def cmoRaw (data : List F) (window : Nat) : Option (List F) := do
  let ws ← windows (window + 1) (gainLoss data)
  mapP (fun w => do
    let first ← w[0]?
    let last ← w[w.length - 1]?
    let gain := last.1 - first.1
    let loss := last.2 - first.2
    some ((gain - loss) / (gain + loss))) ws

/-- smooth.rs:368-380 -/
def vma (data : List F) (window : Nat) : Option (List F) := do
  let alpha : F := 2 / flt (window + 1)
  let vi ← cmoRaw data 9
  some (nans (max window 9) ++
    (scanS (fun state (vi, d) => alpha * fabs vi * (d - state) + state) 0
      (vi.zip (data.drop 9))).drop (max window 9 - 9))

/-- The closure of lrf, smooth.rs:404-416 -/
def lrfWin (window : Nat) (w : List F) : F :=
  let xSum : F := flt (window * (window + 1)) / 2
  let x2Sum : F := xSum * flt (2 * window + 1) / 3
  let divisor := flt window * x2Sum - xSum * xSum
  let indices : List F := (List.range' 1 window).map fun x => flt x
  let (ySum, xySum) := (indices.zip w).foldl
    (fun (st : F × F) (cv : F × F) => (st.1 + cv.2, st.2 + cv.1 * cv.2)) (0, 0)
  let m := (flt window * xySum - xSum * ySum) / divisor
  let b := (ySum * x2Sum - xSum * xySum) / divisor
  m * flt window + b

/-- smooth.rs:398-417 -/
def lrf (data : List F) (window : Nat) : Option (List F) := do
  let k ← usub window 1
  let ws ← windows window data
  some (nans k ++ ws.map (lrfWin window))

/-- smooth.rs:432-438 -/
def trima (data : List F) (window : Nat) : Option (List F) := do
  let win1 := divCeil window 2
  let win2 := if window % 2 = 0 then win1 + 1 else win1
  let m ← sma data win1
  sma m win2

/-- smooth.rs:456-469 -/
def zlma (data : List F) (window : Nat) : Option (List F) := do
  let k ← usub window 1
  let lag := k / 2
  let lagged ← sliceFrom data lag
  let r ← ewma ((data.zip lagged).map fun (prev, curr) => 2 * curr - prev) window
  some (nans lag ++ r)

/-- The weights of kernel, smooth.rs:495-499 (256 of them). -/
def kernelWeights (sigma : F) : List F :=
  let beta := 1 / (2 * sigma * sigma)
  (List.range 256).map fun x => exp ((-beta) * flt (x * x))

/-- The closure of kernel, smooth.rs:500-514: `past` is `data[..=i]` reversed. -/
def kernelAt (weights past : List F) : F :=
  let (sum, sumw) := (weights.zip (past.take (min past.length 255))).foldl
    (fun (st : F × F) (wv : F × F) => (st.1 + wv.1 * wv.2, st.2 + wv.1)) (0, 0)
  sum / sumw

/-- smooth.rs:494-515 -/
def kernel (data : List F) (sigma : F) : List F :=
  (List.range data.length).map fun i => kernelAt (kernelWeights sigma) (data.take (i + 1)).reverse

/-- The efficiency ratio of kama, smooth.rs:544-547 -/
def effRatio (x : List F) : Option F := do
  let last ← x[x.length - 1]?
  let first ← x[0]?
  some (fabs (last - first) / ((pairs x).foldl (fun acc p => acc + fabs (p.1 - p.2)) 0))

/-- smooth.rs:533-553 -/
def kama (data : List F) (window : Nat) (short long : Option Nat) : Option (List F) := do
  let short : F := 2 / flt (short.getD 2 + 1)
  let long : F := 2 / flt (long.getD 30 + 1)
  let k ← usub window 1
  let ws ← windows window data
  let r ← scanM (fun (state : F) x => do
    let er ← effRatio x
    let alpha := powi (er * (short - long) + long) 2
    let last ← x[x.length - 1]?
    let state := alpha * (last - state) + state
    some (state, state)) 0 ws
  some (nans k ++ r)

/-- The weights of alma, smooth.rs:577-580; `mu` is already scaled. -/
def almaWeights (window : Nat) (sigma mu : F) : List F :=
  (List.range window).map fun x =>
    exp ((-1 : F) * powi (flt x - mu) 2 / (2 * powi (flt window / sigma) 2))

/-- smooth.rs:571-592 -/
def alma (data : List F) (window : Nat) (sigma : F) (mu : Option F) : Option (List F) := do
  let k ← usub window 1
  let mu := mu.getD 0.85 * flt k
  let weights := almaWeights window sigma mu
  let r ← mapP (fun i => do
    let vals ← mapP (fun idx => do
      let p ← usub i idx
      data[p]?) (List.range weights.length)
    let (sum, sumw) := (weights.zip vals).foldl
      (fun (st : F × F) (wv : F × F) => (st.1 + wv.1 * wv.2, st.2 + wv.1)) (0, 0)
    some (sum / sumw)) ((List.range data.length).drop window)
  some (nans window ++ r)

/-- smooth.rs:610-620 -/
def mdma (data : List F) (window : Nat) : Option (List F) := do
  let d0 ← data[0]?
  let rest ← sliceFrom data 1
  some (d0 :: scanS (fun state x =>
    state + (x - state) / (0.6 * flt window * powi (x / state) 4)) d0 rest)

/-- smooth.rs:640-659 -/
def hwma (data : List F) (alpha beta gamma : Option F) : Option (List F) := do
  let alpha := clampLit (alpha.getD 0.2) 0 1
  let beta := clampLit (beta.getD 0.1) 0 1
  let gamma := clampLit (gamma.getD 0.1) 0 1
  let d0 ← data[0]?
  some (scan (fun (state : F × F × F) x =>
    let avg := (1 - alpha) * (state.1 + state.2.1 + 0.5 * state.2.2) + alpha * x
    let trend := (1 - beta) * (state.2.1 + state.2.2) + beta * (avg - state.1)
    let season := (1 - gamma) * state.2.2 + gamma * (trend - state.2.1)
    ((avg, trend, season), avg + trend + 0.5 * season)) (d0, 0, 0) data)

/-- The Fibonacci scan of fwma, smooth.rs:678-686: state `(a, b)`, running denominator. Yields the new
`b`s and the final denominator. -/
def fibScan : (n : Nat) → (a b denom : F) → List F × F
  | 0, _, _, denom => ([], denom)
  | n + 1, a, b, denom =>
    let b' := a + b
    let (l, d) := fibScan n b b' (denom + b')
    (b' :: l, d)

/-- smooth.rs:678-689, given `window - 2` -/
def fwmaWeights (w2 : Nat) : List F :=
  let (l, denom) := fibScan (F := F) w2 1 1 2
  ((1 : F) :: (1 : F) :: l).map fun i => i / denom

/-- smooth.rs:677-698 -/
def fwma (data : List F) (window : Nat) : Option (List F) := do
  let w2 ← usub window 2
  let weights := fwmaWeights (F := F) w2
  let k ← usub window 1
  let ws ← windows window data
  some (nans k ++ ws.map (dot weights))

/-- smooth.rs:717-761 -/
def ssf (data : List F) (window : Nat) (triPoles : Option Bool) : Option (List F) :=
  if triPoles.getD false then do
    let x : F := FloatOps.pi / flt window
    let y := exp (-x)
    let y2 := y * y
    let z := 2 * y * cos (sqrt 3 * x)
    let d := y2 * y2
    let c := (-y2) * (1 + z)
    let b := y2 + z
    let a := 1 - b - c - d
    let rest ← sliceFrom data 3
    let d0 ← data[0]?
    let d1 ← data[1]?
    let d2 ← data[2]?
    some (nans 3 ++ scan (fun (s : F × F × F) x =>
      let s' := (s.2.1, s.2.2, a * x + b * s.2.2 + c * s.2.1 + d * s.1)
      (s', s'.2.2)) (d0, d1, d2) rest)
  else do
    let x : F := FloatOps.pi * sqrt 2 / flt window
    let y := exp (-x)
    let c := (-y) * y
    let b := 2 * y * cos x
    let a := 1 - b - c
    let rest ← sliceFrom data 2
    let d0 ← data[0]?
    let d1 ← data[1]?
    some (nans 2 ++ scan (fun (s : F × F) x =>
      let s' := (s.2, a * x + b * s.2 + c * s.1)
      (s', s'.2)) (d0, d1) rest)

/-- The state of mama's scan, smooth.rs:799-808: the tuple
`(mama, fama, period, phase, re, im, i2, q2)` and the three queues (front first, 7 entries). -/
structure MamaState (F : Type) where
  mama : F
  fama : F
  pd : F
  phase : F
  re : F
  im : F
  i2 : F
  q2 : F
  dtrend : List F
  i1 : List F
  q1 : List F

/-- The initial state of mama's scan, smooth.rs:799-808. -/
def mamaInit : MamaState F :=
  { mama := 0, fama := 0, pd := 0, phase := 0, re := 0, im := 0, i2 := 0, q2 := 0,
    dtrend := List.replicate 7 0, i1 := List.replicate 7 0, q1 := List.replicate 7 0 }

/-- `pop_back` then `push_front`, smooth.rs:811-828. -/
def pushFront (q : List F) (x : F) : List F := x :: q.dropLast

/-- The Hilbert transform taps on entries 0, 2, 4, 6, smooth.rs:813-844. -/
def hilbert (a b c d tweak : F) : F :=
  (0.0962 * a + 0.5769 * b - 0.5769 * c - 0.0962 * d) * tweak

/-- `hilbert` on a queue, smooth.rs:822-836. -/
def hilbertQ (q : List F) (tweak : F) : Option F := do
  let a ← q[0]?
  let b ← q[2]?
  let c ← q[4]?
  let d ← q[6]?
  some (hilbert a b c d tweak)

/-- The weighted 4-bar smoothing, smooth.rs:789-797. -/
def mamaSmooth (data : List F) : List F :=
  List.replicate 3 0 ++ (windowsOf 4 data).map fun w =>
    match w with
    | [w0, w1, w2, w3] => (4 * w3 + 3 * w2 + 2 * w1 + w0) / 10
    | _ => nan -- unreachable: windows of length 4

/-- One step of mama's scan at index `i`, smooth.rs:808-877. -/
def mamaStep (fast slow : F) (sm data : List F) (st : MamaState F) (i : Nat) :
    Option (MamaState F × (F × F)) := do
  let tweak := 0.075 * st.pd + 0.54
  let s0 ← sm[i]?
  let s2 ← sm[i - 2]?
  let s4 ← sm[i - 4]?
  let s6 ← sm[i - 6]?
  let dtrend := pushFront st.dtrend (hilbert s0 s2 s4 s6 tweak)
  let q ← hilbertQ dtrend tweak
  let q1 := pushFront st.q1 q
  let d3 ← dtrend[3]?
  let i1 := pushFront st.i1 d3
  let ji ← hilbertQ i1 tweak
  let jq ← hilbertQ q1 tweak
  let i10 ← i1[0]?
  let q10 ← q1[0]?
  let i2 := 0.2 * (i10 - jq) + 0.8 * st.i2
  let q2 := 0.2 * (q10 + ji) + 0.8 * st.q2
  let re := 0.2 * (i2 * st.i2 + q2 * st.q2) + 0.8 * st.re
  let im := 0.2 * (i2 * st.q2 - q2 * st.i2) + 0.8 * st.im
  let pd0 := if !(im ==. 0) && !(re ==. 0) then 360 / atan (im / re) else 0
  let pd1 ← fclamp pd0 (0.67 * st.pd) (1.5 * st.pd)
  let pd2 := clampLit pd1 6 50
  let pd := 0.2 * pd2 + 0.8 * st.pd
  let phase := if !(i10 ==. 0) then atan (q10 / i10) else 0
  let deltaPhase := fmax (st.phase - phase) 1
  let alpha := fmax (fast / deltaPhase) slow
  let x ← data[i]?
  let mama := alpha * x + (1 - alpha) * st.mama
  let fama := 0.5 * alpha * mama + (1 - 0.5 * alpha) * st.fama
  some ({ mama, fama, pd, phase, re, im, i2, q2, dtrend, i1, q1 }, (mama, fama))

/-- smooth.rs:781-878 -/
def mama (data : List F) (fast slow : Option F) : Option (List (F × F)) := do
  let fast := fast.getD 0.5
  let slow := slow.getD 0.05
  let sm := mamaSmooth data
  let r ← scanM (mamaStep fast slow sm data) mamaInit ((List.range data.length).drop 6)
  some (List.replicate 6 (nan, nan) ++ r)

/-- smooth.rs:897-923 -/
def t3 (data : List F) (window : Nat) (factor : Option F) : Option (List F) := do
  let factor := clampLit (factor.getD 0.7) 0 1
  let ma ← ewma data window
  let k ← usub window 1
  let ma2 ← ewma (← sliceFrom ma k) window
  let ma3 ← ewma (← sliceFrom ma2 k) window
  let ma4 ← ewma (← sliceFrom ma3 k) window
  let ma5 ← ewma (← sliceFrom ma4 k) window
  let ma6 ← ewma (← sliceFrom ma5 k) window
  let c1 := -(powi factor 3)
  let c2 := 3 * powi factor 2 + 3 * powi factor 3
  let c3 := (-3 : F) * factor - 6 * powi factor 2 - 3 * powi factor 3
  let c4 := 1 + 3 * factor + 3 * powi factor 2 + powi factor 3
  some (nans (k * 2) ++
    (zip4 ma3 (nans k ++ ma4) (nans (k * 2) ++ ma5) (nans (k * 3) ++ ma6)).map
      fun (e3, e4, e5, e6) => c1 * e6 + c2 * e5 + c3 * e4 + c4 * e3)

/-- The gain of frama for one window, smooth.rs:957-973. -/
def framaAlpha (window mid : Nat) (w : List F) : F :=
  let (hh1, ll1, hh2, ll2) := ((w.take mid).zip (w.reverse.take mid)).foldl
    (fun (st : F × F × F × F) (x : F × F) =>
      (fmax st.1 x.1, fmin st.2.1 x.1, fmax st.2.2.1 x.2, fmin st.2.2.2 x.2))
    (-maxValue, maxValue, -maxValue, maxValue)
  let n1 := (hh1 - ll1) / flt mid
  let n2 := (hh2 - ll2) / flt mid
  let n3 := (fmax hh1 hh2 - fmin ll1 ll2) / flt window
  let d := (ln (n1 + n2) - ln n3) / ln 2
  clampLit (exp ((-4.6 : F) * (d - 1))) 0.01 1

/-- smooth.rs:947-977. `Except.error` is the returned `Err`. -/
def frama (data : List F) (window : Nat) : Option (Except String (List F)) :=
  if window % 2 ≠ 0 then some (.error "Window must be an even number")
  else do
    let mid := window / 2
    let k ← usub window 1
    let ws ← windows window data
    let r ← scanM (fun (state : F) w => do
      let alpha := framaAlpha window mid w
      let last ← w.getLast?
      let state := alpha * last + (1 - alpha) * state
      some (state, state)) 0 ws
    some (.ok (nans k ++ r))

/-- smooth.rs:17-32 -/
inductive MaMode
  | SMA | EWMA | DEMA | TEMA | WMA | Hull | LinReg | Pascal | Triangle | Variable | Vidya | Wilder
  | ZeroLag
  deriving DecidableEq, Repr

/-- smooth.rs:43-63 -/
def ma (data : List F) (window : Nat) (mode : MaMode) : Option (List F) :=
  match mode with
  | .SMA => sma data window
  | .EWMA => ewma data window
  | .DEMA => dema data window
  | .TEMA => tema data window
  | .WMA => wma data window
  | .Hull => hull data window
  | .LinReg => lrf data window
  | .Pascal => pwma data window
  | .Triangle => trima data window
  | .Variable => vma data window
  | .Vidya => vidya data window
  | .Wilder => wilder data window
  | .ZeroLag => zlma data window

end Traquer.Smooth
