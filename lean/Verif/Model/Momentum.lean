import Verif.Model.Volatility
import Verif.Model.TrendBase
/-!
# Model of `/repo/src/momentum.rs`
-/

namespace Traquer.Momentum
open FloatLit
open Traquer.Volatility (foldMax foldMin trueRange)
variable {F : Type} [FloatOps F]

/-- Gains and losses of rsi, momentum.rs:42-50 -/
def gains (data : List F) : List F := (pairs data).map fun (p0, p1) => fmax 0 (p1 - p0)
/-- Gains and losses of rsi, momentum.rs:42-50 -/
def losses (data : List F) : List F := (pairs data).map fun (p0, p1) => fabs (fmin 0 (p1 - p0))

/-- momentum.rs:41-57 -/
def rsi (data : List F) (window : Nat) : Option (List F) := do
  let g ← Smooth.wilder (gains data) window
  let l ← Smooth.wilder (losses data) window
  some (nan :: (g.zip l).map fun (g, l) => 100 * g / (g + l))

/-- The closure of crsi's scan: `(streak, return)`, momentum.rs:93-104 -/
def streakStep (state : F × F) (w : F × F) : F × F :=
  let (w0, w1) := w
  let streak :=
    if w1 ==. w0 then 0
    else if signum (w1 - w0) ==. signum state.2 then state.1 + signum (w1 - w0)
    else signum (w1 - w0)
  (streak, (w1 - w0) / w0)

/-- momentum.rs:84-121 -/
def crsi (data : List F) (rsiWin streakWin rankWin : Nat) : Option (List F) := do
  let rsiSeries ← rsi data rsiWin
  let sr := scanS streakStep ((0, 0) : F × F) (pairs data)
  let streakRsi ← rsi (sr.map (·.1)) streakWin
  let ws ← windows rankWin (sr.map (·.2))
  let rank ← mapP (fun (w : List F) => do
    let k ← usub rankWin 1
    let curr ← w[k]?
    let cnt := w.reverse.foldl (fun acc x => if x <. curr then acc + 1 else acc) 0
    some (flt cnt / flt k * 100)) ws
  some ((zip3 rsiSeries (nan :: streakRsi) (nans rankWin ++ rank)).map fun (x, y, z) =>
    (x + y + z) / 3)

/-- momentum.rs:147-155 -/
def macd (close : List F) (short long : Nat) : Option (List F) := do
  let s ← Smooth.ewma close short
  let l ← Smooth.ewma close long
  some ((s.zip l).map fun (x, y) => x - y)

/-- momentum.rs:184-188 -/
def cmo (data : List F) (window : Nat) : Option (List F) := do
  let c ← Smooth.cmoRaw data window
  some (nans window ++ c.map fun x => x * 100)

/-- momentum.rs:217-221 -/
def cfo (data : List F) (window : Nat) : Option (List F) := do
  let t ← Smooth.lrf data window
  some ((t.zip data).map fun (tsf, x) => 100 * (x - tsf) / x)

/-- momentum.rs:255-263 -/
def elder_ray (high low close : List F) (window : Nat) : Option (List (F × F)) := do
  let m ← Smooth.ewma close window
  some ((zip3 high low m).map fun (h, l, c) => (h - c, l - c))

/-- momentum.rs:292-314 -/
def wpr (high low close : List F) (window : Nat) : Option (List F) := do
  let k ← usub window 1
  let hs ← windows window high
  let ls ← windows window low
  let cs ← sliceFrom close k
  some (nans k ++ (zip3 hs ls cs).map fun (h, l, c) =>
    let hh := foldMax h
    let ll := foldMin l
    (-100) * ((hh - c) / (hh - ll)))

/-- momentum.rs:335-343 -/
def ppo (data : List F) (short long : Nat) : Option (List F) := do
  let s ← Smooth.ewma data short
  let l ← Smooth.ewma data long
  some ((s.zip l).map fun (x, y) => 100 * (x / y - 1))

/-- momentum.rs:367-375 -/
def apo (data : List F) (short long : Nat) : Option (List F) := do
  let s ← Smooth.ewma data short
  let l ← Smooth.ewma data long
  some ((s.zip l).map fun (x, y) => x - y)

/-- momentum.rs:399-416 -/
def pmo (data : List F) (win1 win2 : Nat) : Option (List F) := do
  let e1 ← Smooth.ewma ((pairs data).map fun (p0, p1) => 1000 * (p1 / p0 - 1)) win1
  let k ← usub win1 1
  let t ← sliceFrom e1 k
  let e2 ← Smooth.ewma t win2
  some (nans win1 ++ e2)

/-- `(buying pressure, true range)`, momentum.rs:451-469 -/
def bpTr (high low close : List F) : Option (List (F × F)) := do
  let h1 ← sliceFrom high 1
  let l1 ← sliceFrom low 1
  let n ← usub close.length 1
  let pc ← sliceTo close n
  let c1 ← sliceFrom close 1
  some ((zip4 h1 l1 pc c1).map fun (h, l, prevc, c) =>
    (c - fmin l prevc, fmax h prevc - fmin l prevc))

/-- `fold((0.0, 0.0), |acc, (bp, tr)| ...)`, momentum.rs:474-484 -/
def sumPair (w : List (F × F)) : F × F :=
  w.foldl (fun acc p => (acc.1 + p.1, acc.2 + p.2)) (0, 0)

/-- momentum.rs:443-490. `4.0 + 2.0 + 1.0` is kept as written. -/
def ultimate (high low close : List F) (win1 win2 win3 : Nat) : Option (List F) := do
  let v ← bpTr high low close
  let ws ← windows win3 v
  let r ← mapP (fun w => do
    let s1 ← usub win3 win1
    let (bp1, tr1) := sumPair (w.drop s1)
    let s2 ← usub win3 win2
    let (bp2, tr2) := sumPair (w.drop s2)
    let (bp3, tr3) := sumPair w
    some (100 * (bp1 / tr1 * 4 + bp2 / tr2 * 2 + bp3 / tr3) / (4 + 2 + 1 : F))) ws
  some (nans win3 ++ r)

/-- momentum.rs:517-530 -/
def pgo (high low close : List F) (window : Nat) : Option (List F) := do
  let t ← trueRange high low close
  let a ← Smooth.ewma t window
  let m ← Smooth.sma close window
  some ((zip3 close m (nan :: a)).map fun (c, cMa, trMa) => (c - cMa) / trMa)

/-- The closure of `_swing`, momentum.rs:547-572 -/
def swingTerm (limit prevo o h l prevc c : F) : F :=
  let r1 := fabs (h - prevc)
  let r2 := fabs (l - prevc)
  let r3 := h - l
  let r4 := fabs (prevc - prevo) / 4
  let maxR := fmax (fmax r1 r2) r3
  let r :=
    if r1 ==. maxR then r1 - r2 / 2 + r4
    else if r2 ==. maxR then r2 - r1 / 2 + r4
    else r3 + r4
  ((c - prevc + (c - o) / 2 + (prevc - prevo) / 4) / r) * 50 * fmax r1 r2 / limit

/-- `_swing`, momentum.rs:532-573 -/
def swing (openp high low close : List F) (limit : F) : Option (List F) := do
  let no ← usub openp.length 1
  let po ← sliceTo openp no
  let o1 ← sliceFrom openp 1
  let h1 ← sliceFrom high 1
  let l1 ← sliceFrom low 1
  let nc ← usub close.length 1
  let pc ← sliceTo close nc
  let c1 ← sliceFrom close 1
  some ((zip6 po o1 h1 l1 pc c1).map fun (prevo, o, h, l, prevc, c) =>
    swingTerm limit prevo o h l prevc c)

/-- momentum.rs:601-609 -/
def si (openp high low close : List F) (limit : F) : Option (List F) := do
  let s ← swing openp high low close limit
  some (nan :: s)

/-- momentum.rs:634-650 -/
def trix (close : List F) (window : Nat) : Option (List F) := do
  let e1 ← Smooth.ewma close window
  let k ← usub window 1
  let e2 ← Smooth.ewma (← sliceFrom e1 k) window
  let e3 ← Smooth.ewma (← sliceFrom e2 k) window
  let t ← sliceFrom e3 1
  some (nans (k * 2 + 1) ++ (e3.zip t).map fun (prev, curr) => 100 * (curr - prev) / prev)

/-- momentum.rs:674-696 -/
def tii (data : List F) (window : Nat) : Option (List F) := do
  let win := divCeil window 2
  let k ← usub win 1
  let m ← Smooth.sma data window
  let devs := (m.zip data).map fun (avg, actual) =>
    let dev := actual - avg
    (fmax dev 0, fabs (fmin dev 0))
  let ws ← windows win devs
  some (nans k ++ ws.map fun w =>
    let (sdPos, sdNeg) := sumPair w
    100 * sdPos / (sdPos + sdNeg))

/-- momentum.rs:698-731 -/
def stoch (high low close : List F) (window smoothWin : Nat) : Option (List (F × F)) := do
  let hs ← windows window high
  let ls ← windows window low
  let k ← usub window 1
  let cs ← sliceFrom close k
  let raw := (zip3 hs ls cs).map fun (h, l, c) =>
    let hh := foldMax h
    let ll := foldMin l
    100 * (c - ll) / (hh - ll)
  let fastK ← Smooth.sma raw smoothWin
  let s ← usub smoothWin 1
  let t ← sliceFrom fastK s
  let kk ← Smooth.sma t smoothWin
  some ((nans k ++ fastK).zip (nans (k + s) ++ kk))

/-- momentum.rs:758-765. Items are `(%K, %D)`. -/
def stochastic (high low close : List F) (window : Nat) : Option (List (F × F)) :=
  stoch high low close window 3

/-- `_stc`, momentum.rs:767-789 -/
def stcRaw (series : List F) (window smooth : Nat) : Option (List F) := do
  let ws ← windows window series
  let r ← mapP (fun (w : List F) => do
    let hh := foldMax w
    let ll := foldMin w
    let last ← w[w.length - 1]?
    some (100 * (last - ll) / (hh - ll))) ws
  Smooth.wilder r smooth

/-- momentum.rs:815-841 (`smooth = 2`) -/
def stc (close : List F) (window short long : Nat) : Option (List F) := do
  let l1 ← usub long 1
  let w1 ← usub window 1
  let m ← macd close short long
  let s1 ← stcRaw (m.drop l1) window 2
  let s2 ← stcRaw (s1.drop 1) window 2
  some (nans (l1 + w1 * 2 + 2) ++ s2.drop 1)

/-- `(w[3] + 2.0 * w[2] + 2.0 * w[1] + w[0]) / 6.0`, momentum.rs:887-894 -/
def vigorSmooth (l : List F) : List F :=
  (windowsOf 4 l).map fun w =>
    match w with
    | [w0, w1, w2, w3] => (w3 + 2 * w2 + 2 * w1 + w0) / 6
    | _ => nan -- unreachable: windows of length 4

/-- momentum.rs:869-901 -/
def relative_vigor (openp high low close : List F) (window : Nat) : Option (List F) := do
  let closeOpen := (openp.zip close).map fun (o, c) => c - o
  let highLow := (high.zip low).map fun (h, l) => h - l
  let n ← Smooth.sma (vigorSmooth closeOpen) window
  let d ← Smooth.sma (vigorSmooth highLow) window
  some (nans 3 ++ (n.zip d).map fun (n, d) => n / d)

/-- The closure of fisher, momentum.rs:939-953: state `(transform, result)`. -/
def fisherStep (window : Nat) (state : F × F) (w : List F) : Option ((F × F) × F) := do
  let hlMax := w.foldl fmax 0
  let hlMin := w.foldl fmin maxValue
  let last ← w[window - 1]?
  let transform := clampLit
    (0.66 * ((last - hlMin) / fmax (hlMax - hlMin) 0.000001 - 0.5) + 0.67 * state.1)
    (-0.999999) 0.999999
  let result := 0.5 * ln ((1 + transform) / (1 - transform)) + 0.5 * state.2
  some ((transform, result), result)

/-- momentum.rs:927-956 -/
def fisher (high low : List F) (window : Nat) : Option (List F) := do
  let hl2 := (high.zip low).map fun (h, l) => (h + l) / 2
  let k ← usub window 1
  let ws ← windows window hl2
  let r ← scanM (fisherStep window) (0, 0) ws
  some (nans k ++ r)

/-- The repeated averages of rainbow, momentum.rs:986-990: `n` further applications of `sma`. -/
def smaChain (window : Nat) : (n : Nat) → List F → Option (List (List F))
  | 0, _ => some []
  | n + 1, l => do
    let m ← Smooth.sma l window
    let rest ← smaChain window n m
    some (m :: rest)

/-- momentum.rs:981-1015. `.max(0)` on a `usize` is the identity. -/
def rainbow (data : List F) (window lookback : Nat) : Option (List (F × F)) := do
  let smas ← smaChain window 10 data
  let k ← usub window 1
  let r ← mapP (fun i => do
    let vals ← mapP (fun (sma : List F) => sma[i]?) smas
    let (total, hsma, lsma) := vals.foldl
      (fun (st : F × F × F) val => (st.1 + val, fmax st.2.1 val, fmin st.2.2 val))
      (0, -maxValue, maxValue)
    let lb ← usub lookback 1
    let start ← usub i lb
    let upto ← sliceTo data (i + 1)
    let (hlook, llook) := (upto.drop start).foldl
      (fun (st : F × F) val => (fmax st.1 val, fmin st.2 val)) (-maxValue, maxValue)
    let x ← data[i]?
    let osc := 100 * (x - total / 10) / fmax (hlook - llook) 0.000001
    let band := 100 * (hsma - lsma) / fmax (hlook - llook) 0.000001
    some (osc, band)) ((List.range data.length).drop (k * 10))
  some (List.replicate (k * 10) (nan, nan) ++ r)

/-- momentum.rs:1039-1059 -/
def coppock (data : List F) (window short long : Nat) : Option (List F) := do
  let r ← mapP (fun x => do
    let d ← data[x]?
    let i ← usub x short
    let ds ← data[i]?
    let j ← usub x long
    let dl ← data[j]?
    some (100 * (d / ds + d / dl - 2))) ((List.range data.length).drop long)
  let m ← Smooth.wma r window
  some (nans long ++ m)

/-- momentum.rs:1084-1089 -/
def roc (data : List F) (window : Nat) : Option (List F) := do
  let k ← usub window 1
  let ws ← windows window data
  let r ← mapP (fun (w : List F) => do
    let last ← w[w.length - 1]?
    let first ← w[0]?
    some (100 * (last / first - 1))) ws
  some (nans k ++ r)

/-- momentum.rs:1116-1134 -/
def bal_power (openp high low close : List F) (window : Nat) : Option (List F) :=
  Smooth.ewma ((zip4 openp high low close).map fun (o, h, l, c) => (c - o) / (h - l)) window

/-- momentum.rs:1159-1163 -/
def disparity (data : List F) (window : Nat) : Option (List F) := do
  let m ← Smooth.ewma data window
  some ((data.zip m).map fun (x, ma) => 100 * (x - ma) / ma)

/-- momentum.rs:1192-1203 -/
def qstick (openp close : List F) (window : Nat) : Option (List F) :=
  Smooth.ewma ((close.zip openp).map fun (c, o) => c - o) window

/-- momentum.rs:1227-1239 -/
def cog (data : List F) (window : Nat) : Option (List F) := do
  let weights : List F := (List.range' 1 window).map fun x => flt x
  let k ← usub window 1
  let ws ← windows window data
  some (nans k ++ ws.map fun w =>
    (-(fsum ((w.reverse.zip weights).map fun (e, i) => e * i))) / fsum w)

/-- momentum.rs:1269-1282 -/
def psych (data : List F) (window : Nat) : Option (List F) := do
  let ups := (pairs data).map fun (p0, p1) => fmax (signum (p1 - p0)) 0
  let ws ← windows window ups
  some (nans window ++ ws.map fun w => fsum w * 100 / flt window)

/-- momentum.rs:1307-1329 -/
def tsi (data : List F) (short long : Nat) : Option (List F) := do
  let diffs := (pairs data).map fun (p0, p1) => p1 - p0
  let k ← usub long 1
  let l1 ← Smooth.ewma diffs long
  let pcds ← Smooth.ewma (l1.drop k) short
  let l2 ← Smooth.ewma (diffs.map fabs) long
  let absPcds ← Smooth.ewma (l2.drop k) short
  some (nans long ++ (pcds.zip absPcds).map fun (pcd, apcd) => 100 * pcd / apcd)

/-- The rate of change used by prings, momentum.rs:1400-1403, with `roc_win = r + 1`. -/
def pringRoc (data : List F) (r : Nat) : Option (List F) :=
  mapP (fun (w : List F) => do
    let last ← w[r]?
    let first ← w[0]?
    some (100 * (last / first - 1))) (windowsOf (r + 1) data)

/-- `result[i] += v`, panics out of bounds; momentum.rs:1409. -/
def addAt (l : List F) (i : Nat) (v : F) : Option (List F) := do
  let x ← l[i]?
  some (l.set i (x + v))

/-- The body of the `for_each` of prings, momentum.rs:1398-1412 -/
def pringStep (data : List F) (roc0 period0 : Nat) (result : List F) (p : Nat × Nat × F) :
    Option (List F) := do
  let (rocWin, maWin, mult) := p
  let roc ← pringRoc data rocWin
  if roc.isEmpty then some result
  else do
    let m ← Smooth.sma roc maWin
    let k ← usub maWin 1
    let vals := m.drop k
    ((List.range vals.length).zip vals).foldlM (fun res ((c, val) : Nat × F) => do
      let a ← usub rocWin roc0
      let b ← usub maWin period0
      addAt res (c + a + b) (val * mult)) result

/-- momentum.rs:1391-1416 -/
def prings (data : List F) (rocs periods : List Nat) (multipliers : List F) : Option (List F) := do
  let roc0 ← rocs[0]?
  let period0 ← periods[0]?
  let a ← usub data.length roc0
  let p1 ← usub period0 1
  let n ← usub a p1
  let result ← (zip3 rocs periods multipliers).foldlM (pringStep data roc0 period0)
    (List.replicate n (0 : F))
  some (nans (roc0 + p1) ++ result)

/-- momentum.rs:1352-1357 -/
def special_k (data : List F) : Option (List F) :=
  prings data [10, 15, 20, 30, 50, 65, 75, 100, 195, 265, 390, 530]
    [10, 10, 10, 15, 50, 65, 75, 100, 130, 130, 130, 195] [1, 2, 3, 4, 1, 2, 3, 4, 1, 2, 3, 4]

/-- momentum.rs:1380-1389. The four-element arrays are 4-tuples. -/
def kst (data : List F) (rocs periods : Option (Nat × Nat × Nat × Nat)) : Option (List F) :=
  let (r1, r2, r3, r4) := rocs.getD (10, 15, 20, 30)
  let (p1, p2, p3, p4) := periods.getD (10, 10, 10, 15)
  prings data [r1, r2, r3, r4] [p1, p2, p3, p4] [1, 2, 3, 4]

/-- momentum.rs:1441-1461 -/
def derivative (data : List F) (win1 win2 signal : Nat) : Option (List F) := do
  let r ← rsi data win1
  let e1 ← Smooth.ewma (r.drop win1) win1
  let k ← usub win1 1
  let result ← Smooth.ewma (e1.drop k) win2
  let sig ← Smooth.sma result signal
  some (nans (win1 + k) ++ (sig.zip result).map fun (sig, val) => val - sig)

/-- momentum.rs:1487-1507 -/
def cci (high low close : List F) (window : Nat) : Option (List F) := do
  let k ← usub window 1
  let ws ← windows window ((zip3 high low close).map fun (h, l, c) => (h + l + c) / 3)
  let r ← mapP (fun (w : List F) => do
    let avg := fsum w / flt window
    let dev := w.foldl (fun acc x => acc + fabs (x - avg)) 0 / flt window
    let last ← w.getLast?
    some ((last - avg) / (0.015 * dev))) ws
  some (nans k ++ r)

/-- The closure of qqe's scan, momentum.rs:1566-1583 -/
def qqeStep (rsiMa dar : List F) (state : F) (x : Nat) : Option (F × F) := do
  let cur ← rsiMa[x]?
  let prev ← rsiMa[x - 1]?
  let d ← dar[x]?
  let state :=
    if cur >. state then
      if prev >. state then fmax state (cur - d) else cur - d
    else if cur <. state then
      if prev <. state then fmin state (cur + d) else cur + d
    else state
  some (state, state)

/-- momentum.rs:1534-1584 -/
def qqe (data : List F) (window smoothing : Nat) : Option (List F) := do
  let r ← rsi data window
  let e ← Smooth.ewma (r.drop window) smoothing
  let s ← usub smoothing 1
  let rsiMa := e.drop s
  let w1 ← Smooth.wilder ((pairs rsiMa).map fun (p0, p1) => fabs (p1 - p0)) window
  let k ← usub window 1
  let w2 ← Smooth.wilder (w1.drop k) window
  let dar := (w2.drop k).map fun x => x * 4.236
  let k2 ← usub (window * 2) 1
  let rsiMa := rsiMa.drop k2
  let out ← scanM (qqeStep rsiMa dar) 0 ((List.range dar.length).drop 1)
  some (nans (window * 3 + s) ++ out)

/-- momentum.rs:1611-1637 -/
def deli (high low : List F) (window : Nat) : Option (List F) := do
  let quotes := ((pairs high).zip (pairs low)).map fun (h, l) => (fmax h.1 h.2 + fmin l.1 l.2) / 2
  let a ← Smooth.ewma quotes window
  let b ← Smooth.ewma quotes (2 * window)
  let dsp := (a.zip b).map fun (ma1, ma2) => ma1 - ma2
  let k ← usub (2 * window) 1
  let t ← sliceFrom dsp k
  let ma3 ← Smooth.ewma t window
  some (nans (2 * window) ++ (t.zip ma3).map fun (x, y) => x - y)

/-- momentum.rs:1662-1681 -/
def gator (data : List F) (jawWin jawOffset teethWin teethOffset lipsWin lipsOffset : Nat) :
    Option (List (F × F)) := do
  let a ← Trend.alligator data jawWin jawOffset teethWin teethOffset lipsWin lipsOffset
  some (a.map fun (jaw, teeth, lips) => (fabs (jaw - teeth), fabs (teeth - lips)))

/-- momentum.rs:1710-1722. Items are `(k, d, j)`. -/
def kdj (high low close : List F) (kWin dWin : Nat) (kFactor dFactor : Option F) :
    Option (List (F × F × F)) := do
  let kf := kFactor.getD 3
  let df := dFactor.getD 2
  let s ← stoch high low close kWin dWin
  some (s.map fun (k, d) => (k, d, kf * k - df * d))

end Traquer.Momentum
