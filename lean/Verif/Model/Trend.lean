import Verif.Model.Momentum
/-!
# Model of `/repo/src/trend.rs`
-/

namespace Traquer.Trend
open FloatLit
open Traquer.Volatility (foldMax foldMin trueRange atr argBest)
variable {F : Type} [FloatOps F]

/-- trend.rs:45-78. Items are `(strong, weak)`. -/
def shinohara (high low close : List F) (window : Nat) : Option (List (F × F)) := do
  let hw := (← windows window high).map fsum
  let lw := (← windows window low).map fsum
  let cw := (← windows window close).map fsum
  let weak := (zip3 hw lw cw).map fun (h, l, c) => 100 * (h - c) / (c - l)
  let h1 ← sliceFrom hw 1
  let l1 ← sliceFrom lw 1
  let n ← usub cw.length 1
  let pc ← sliceTo cw n
  let strong := (zip3 h1 l1 pc).map fun (h, l, c) => 100 * (h - c) / (c - l)
  let k ← usub window 1
  some ((nans window ++ strong).zip (nans k ++ weak))

/-- `izip!(&high[..n-1], &high[1..], &low[..n-1], &low[1..], &close[..n-1])`, trend.rs:114-120, 195-201 -/
def dmBars (high low close : List F) : Option (List (F × F × F × F × F)) := do
  let nh ← usub high.length 1
  let ph ← sliceTo high nh
  let h1 ← sliceFrom high 1
  let nl ← usub low.length 1
  let pl ← sliceTo low nl
  let l1 ← sliceFrom low 1
  let nc ← usub close.length 1
  let pc ← sliceTo close nc
  some (zip5 ph h1 pl l1 pc)

/-- The closure of adx, trend.rs:121-141: `(dm+, dm-, tr)`. -/
def dmTerm (b : F × F × F × F × F) : F × F × F :=
  let (prevh, h, prevl, l, prevc) := b
  let dmPos := if (h - prevh) >. (prevl - l) then fmax 0 (h - prevh) else 0
  let dmNeg := if (prevl - l) >. (h - prevh) then fmax 0 (prevl - l) else 0
  let tr := fmax (fmax (h - l) (fabs (h - prevc))) (fabs (l - prevc))
  (dmPos, dmNeg, tr)

/-- trend.rs:106-160. Items are `(di+, di-, adx)`. -/
def adx (high low close : List F) (window smoothing : Nat) : Option (List (F × F × F)) := do
  let bars ← dmBars high low close
  let v := bars.map dmTerm
  let atr ← Smooth.wilder (v.map (·.2.2)) window
  let p ← Smooth.wilder (v.map (·.1)) window
  let diPos := (p.zip atr).map fun (di, tr) => di / tr * 100
  let n ← Smooth.wilder (v.map (·.2.1)) window
  let diNeg := (n.zip atr).map fun (di, tr) => di / tr * 100
  let k ← usub window 1
  let dp ← sliceFrom diPos k
  let dn ← sliceFrom diNeg k
  let dx := (dp.zip dn).map fun (pos, neg) => fabs (pos - neg) / (pos + neg) * 100
  let s ← Smooth.wilder dx smoothing
  some ((nan, nan, nan) :: zip3 diPos diNeg (nans k ++ s))

/-- The closure of vortex, trend.rs:202-214 -/
def vortexTerm (b : F × F × F × F × F) : F × F × F :=
  let (prevh, h, prevl, l, prevc) := b
  (fabs (h - prevl), fabs (l - prevh),
    fmax (fmax (h - l) (fabs (h - prevc))) (fabs (l - prevc)))

/-- Component-wise `reduce` of a window, trend.rs:218-224; `unwrap` panics on an empty window. -/
def reduce3 (w : List (F × F × F)) : Option (F × F × F) :=
  match w with
  | [] => none
  | x :: xs => some (xs.foldl (fun acc p => (acc.1 + p.1, acc.2.1 + p.2.1, acc.2.2 + p.2.2)) x)

/-- trend.rs:188-229 -/
def vortex (high low close : List F) (window : Nat) : Option (List (F × F)) := do
  let bars ← dmBars high low close
  let ws ← windows window (bars.map vortexTerm)
  let r ← mapP (fun w => do
    let (p, n, t) ← reduce3 w
    some (p / t, n / t)) ws
  some (List.replicate window (nan, nan) ++ r)

/-- trend.rs:257-268 -/
def asi (openp high low close : List F) (limit : F) : Option (List F) := do
  let s ← Momentum.swing openp high low close limit
  some (nan :: scanS (fun acc x => acc + x) 0 s)

/-- trend.rs:294-310 -/
def ulcer (data : List F) (window : Nat) : Option (List F) := do
  let ws ← windows window data
  let k ← usub window 1
  let sq := ((ws.map foldMax).zip (data.drop k)).map fun (high, c) => powi (100 * (c - high) / high) 2
  let m ← Smooth.sma sq window
  some (nans k ++ m.map sqrt)

/-- State of supertrend: `(lower, upper, close, dir > 0)`, trend.rs:349. -/
structure StState (F : Type) where
  lower : F
  upper : F
  prevc : F
  up : Bool

/-- The closure of supertrend, trend.rs:350-378. `dir` is `1` (`up = true`) or `-1`. -/
def supertrendStep (multiplier : F) (s : StState F) (b : F × F × F × F) : StState F × F :=
  let (h, l, c, tr) := b
  let lower0 := (h + l) / 2 - multiplier * tr
  let upper0 := (h + l) / 2 + multiplier * tr
  let lower := if (s.prevc >. s.lower) && (s.lower >. lower0) then s.lower else lower0
  let upper := if (s.prevc <. s.upper) && (s.upper <. upper0) then s.upper else upper0
  let up := if c >. s.upper then true else if c <. s.lower then false else s.up
  ({ lower, upper, prevc := c, up }, if up then lower else upper)

/-- trend.rs:337-382 -/
def supertrend (high low close : List F) (window : Nat) (multiplier : F) : Option (List F) := do
  let t ← trueRange high low close
  let w ← Smooth.wilder t window
  some (scan (supertrendStep multiplier)
    { lower := nan, upper := nan, prevc := minPositive, up := true }
    (zip4 high low close (nan :: w)))

/-- The loop body of rwi for index `i`, trend.rs:432-441: state `(high, low, trSum)`. -/
def rwiStep (window : Nat) (h l tr : List F) (st : F × F × F) (i : Nat) : Option (F × F × F) := do
  let p ← usub window i
  let t ← tr[p]?
  let trSum := st.2.2 + t
  let denom := trSum / flt (i - 1) * sqrt (flt (i - 1))
  let hl ← h[window - 1]?
  let lp ← l[p]?
  let rh := fmax st.1 ((hl - lp) / denom)
  let hp ← h[p]?
  let ll ← l[window - 1]?
  let rl := fmax st.2.1 ((hp - ll) / denom)
  some (rh, rl, trSum)

/-- trend.rs:413-446 -/
def rwi (high low close : List F) (window : Nat) : Option (List (F × F)) := do
  let h1 ← sliceFrom high 1
  let l1 ← sliceFrom low 1
  let t ← trueRange high low close
  let hs ← windows window h1
  let ls ← windows window l1
  let ts ← windows window t
  let r ← mapP (fun ((h, l, tr) : List F × List F × List F) => do
    let (a, b, _) ← (List.range' 2 (window - 1)).foldlM (rwiStep window h l tr) (0, 0, 0)
    some (a, b)) (zip3 hs ls ts)
  some (List.replicate window (nan, nan) ++ r)

/-- The mutable variables of psar, trend.rs:479-485. -/
structure SarState (F : Type) where
  af : F
  fall : Bool
  sar : F
  ep : F

/-- The part of psar's loop body before the flip, trend.rs:488-515. `hp`/`lp` are the values at
`max(i,1) - 1`, `h`/`l` those at `i + 1`. Returns the flip flag and the state. -/
def psarMove (afInc afMax : F) (s : SarState F) (hp lp h l : F) : Bool × SarState F :=
  let sar := s.sar + s.af * (s.ep - s.sar)
  if s.fall then
    let flip := h >. sar
    let (ep, af) := if l <. s.ep then (l, fmin (s.af + afInc) afMax) else (s.ep, s.af)
    (flip, { s with af := af, ep := ep, sar := fmax (fmax hp h) sar })
  else
    let flip := l <. sar
    let (ep, af) := if h >. s.ep then (h, fmin (s.af + afInc) afMax) else (s.ep, s.af)
    (flip, { s with af := af, ep := ep, sar := fmin (fmin lp l) sar })

/-- psar's loop body, trend.rs:487-528. -/
def psarStep (afInc afMax : F) (s : SarState F) (hp lp h l : F) : SarState F :=
  let (flip, s) := psarMove afInc afMax s hp lp h l
  if flip then
    let fall := !s.fall
    { af := afInc, fall := fall, sar := s.ep, ep := if fall then l else h }
  else s

/-- trend.rs:472-530 -/
def psar (high low : List F) (af afMax : Option F) : Option (List F) := do
  let afInc := af.getD 0.02
  let afMax := afMax.getD 0.2
  let h0 ← high[0]?
  let l0 ← low[0]?
  let n ← usub high.length 1
  let r ← scanM (fun (s : SarState F) i => do
    let h ← high[i + 1]?
    let l ← low[i + 1]?
    let hp ← high[max i 1 - 1]?
    let lp ← low[max i 1 - 1]?
    let s := psarStep afInc afMax s hp lp h l
    some (s, s.sar)) { af := afInc, fall := true, sar := h0, ep := l0 } (List.range n)
  some (nan :: r)

/-- trend.rs:551-564 -/
def dpo (data : List F) (window : Nat) (mamode : Option Smooth.MaMode) : Option (List F) := do
  let m ← Smooth.ma data window (mamode.getD .SMA)
  let lag := window / 2 + 1
  let k ← usub window 1
  let a ← usub window lag
  let b ← usub a 1
  let t ← sliceFrom data b
  some (nans k ++ (t.zip (m.drop k)).map fun (x, y) => x - y)

/-- trend.rs:590-625. Items are `(up, down)`. -/
def aroon (high low : List F) (window : Nat) : Option (List (F × F)) := do
  let hs ← windows (window + 1) high
  let ls ← windows (window + 1) low
  let r ← mapP (fun ((h, l) : List F × List F) => do
    let hh ← argBest (fun (x y : F) => x >=. y) h
    let ll ← argBest (fun (x y : F) => x <=. y) l
    some ((flt hh : F) / flt window * 100, (flt ll : F) / flt window * 100)) (hs.zip ls)
  some (List.replicate window (nan, nan) ++ r)

/-- trend.rs:654-678. Items are `(long, short)`. -/
def chandelier (high low close : List F) (window : Nat) (multiplier : Option F) :
    Option (List (F × F)) := do
  let multiplier := multiplier.getD 3
  let hs ← windows window high
  let ls ← windows window low
  let a ← atr high low close window
  some (List.replicate window (nan, nan) ++
    (zip3 (hs.drop 1) (ls.drop 1) (a.drop window)).map fun (h, l, atr) =>
      (foldMax h - multiplier * atr, foldMin l + multiplier * atr))

/-! ## zigzag -/

/-- The mutable variables of zigzag, trend.rs:710-713. -/
structure ZigState (F : Type) where
  result : List F
  start : Nat × F
  fin : Nat × F

/-- The loop looking for the initial trend, trend.rs:717-736, over the remaining indices. -/
def zigInit (distance h0 l0 : F) (high low : List F) : List Nat → ZigState F → Option (ZigState F)
  | [], s => some s
  | idx :: rest, s => do
    let li ← low[idx]?
    if (h0 - li) / h0 * 100 >=. distance then
      some { result := s.result.set 0 h0, start := (0, h0), fin := (idx, li) }
    else do
      let hi ← high[idx]?
      if (hi - l0) / l0 * 100 >=. distance then
        some { result := s.result.set 0 l0, start := (0, l0), fin := (idx, hi) }
      else zigInit distance h0 l0 high low rest s

/-- `a && b` where evaluating `b` may panic, trend.rs:749, 751-752: `b` is evaluated only if `a` holds. -/
def andThen (a : Bool) (b : Option Bool) : Option Bool := if a then b else some false

/-- The body of the main loop, trend.rs:741-761. `low[i]` is read only where the conditions before it let the code get there. -/
def zigStep (distance : F) (high low : List F) (s : ZigState F) (i : Nat) : Option (ZigState F) := do
  let h ← high[i]?
  if (s.fin.2 >. s.start.2) && (h >. s.fin.2) then
    some { s with fin := (i, h) }
  else if (s.fin.2 <. s.start.2) && ((h - s.fin.2) / h * 100 >=. distance) then
    some { result := s.result.set s.fin.1 s.fin.2, start := s.fin, fin := (i, h) }
  else do
    let lower ← andThen (s.fin.2 <. s.start.2) (low[i]?.map fun l => l <. s.fin.2)
    if lower then do
      let l ← low[i]?
      some { s with fin := (i, l) }
    else do
      let turn ← andThen (s.fin.2 >. s.start.2) (low[i]?.map fun l => (s.fin.2 - l) / l * 100 >=. distance)
      if turn then do
        let l ← low[i]?
        some { result := s.result.set s.fin.1 s.fin.2, start := s.fin, fin := (i, l) }
      else some s

/-- trend.rs:704-775. -/
def zigzag (high low : List F) (distance : Option F) : Option (List F) := do
  let distance := distance.getD 5
  let l0 ← low[0]?
  let n1 ← usub high.length 1
  let hlast ← high.getLast?
  let h0 ← high[0]?
  let s : ZigState F :=
    { result := (List.replicate high.length nan).set 0 l0, start := (0, l0), fin := (n1, hlast) }
  let s ← zigInit distance h0 l0 high low ((List.range high.length).drop 1) s
  let s ← if s.fin.1 < n1 then
      ((List.range high.length).drop s.fin.1).foldlM (zigStep distance high low) s
    else some s
  let last ← s.result.getLast?
  if isNaN last then do
    let v ← if s.start.2 >. s.fin.2 then high.getLast? else low.getLast?
    some (s.result.set (s.result.length - 1) v)
  else some s.result

/-- trend.rs:799-806 -/
def decay (data : List F) (window : Nat) : List F :=
  scanS (fun state x => fmax (fmax (state - 1 / flt window) x) 0) 0 data

/-- trend.rs:833-873. Items are `(long stop, short stop)` as `(hh, ll)`. -/
def cks (high low close : List F) (win1 win2 : Nat) (multiplier : Option F) :
    Option (List (F × F)) := do
  let multiplier := multiplier.getD 1
  let k ← usub win2 1
  let h1 ← sliceFrom high 1
  let l1 ← sliceFrom low 1
  let hs ← windows win1 h1
  let ls ← windows win1 l1
  let a ← atr high low close win1
  let pre := (zip3 hs ls (a.drop win1)).map fun (h, l, tr) =>
    (foldMax h - multiplier * tr, foldMin l + multiplier * tr)
  let ws ← windows win2 pre
  some (List.replicate (win1 + k) (nan, nan) ++ ws.map fun w =>
    w.foldl (fun (st : F × F) (x : F × F) => (fmax st.1 x.1, fmin st.2 x.2)) (0, maxValue))

/-- The closure of atr_stop, trend.rs:913-934: state `(uptrend, band)`, `c` the newest close. -/
def atrStopStep (multiplier : F) (s : Bool × F) (c atr : F) : Bool × F :=
  let upper := c + multiplier * atr
  let lower := c - multiplier * atr
  if s.1 then
    let band := fmax s.2 lower
    if c <. band then (false, upper) else (true, band)
  else
    let band := fmin s.2 upper
    if c >. band then (true, lower) else (false, band)

/-- trend.rs:899-936 -/
def atr_stop (high low close : List F) (window : Nat) (multiplier : Option F) : Option (List F) := do
  let multiplier := multiplier.getD 3
  let cs ← windows window close
  let a ← atr high low close window
  let r ← scanM (fun (s : Bool × F) ((c, atr) : List F × F) => do
    let cl ← c[window - 1]?
    let s := atrStopStep multiplier s cl atr
    some (s, s.2)) (true, 0) ((cs.drop 1).zip (a.drop window))
  some (nans window ++ r)

/-- Midpoint of the highest high and lowest low over `win` bars, with padding, trend.rs:1021-1036,
1037-1052, 1053-1065 -/
def midLine (high low : List F) (win pad : Nat) : Option (List F) := do
  let hs ← windows win high
  let ls ← windows win low
  some (nans pad ++ (hs.zip ls).map fun (h, l) => (foldMax h + foldMin l) / 2)

/-- trend.rs:1012-1086. Items are `(conversion, base, lead_a, lead_b, lag)`. -/
def ichimoku (high low close : List F) (conversionWin baseWin leadWin lagWin : Nat) :
    Option (List (F × F × F × F × F)) := do
  let kc ← usub conversionWin 1
  let cLine ← midLine high low conversionWin kc
  let kb ← usub baseWin 1
  let bLine ← midLine high low baseWin kb
  let kl ← usub leadWin 1
  let leadB ← midLine high low leadWin (kl + baseWin)
  let leadA := nans baseWin ++ (cLine.zip bLine).map fun (c, b) => (c + b) / 2
  let lag := close.drop lagWin ++ nans (lagWin + baseWin)
  some (zip5 (cLine ++ nans baseWin) (bLine ++ nans baseWin) leadA leadB lag)

/-! ## hurst -/

/-- trend.rs:1088-1105 -/
def hurst_rs (data : List F) : Option F := do
  let avg := fsum data / flt data.length
  let (maxZ, minZ, _, var) := data.foldl (fun (st : F × F × F × F) x =>
    let dev := x - avg
    let var := st.2.2.2 + dev * dev
    let cum := st.2.2.1 + dev
    (fmax st.1 cum, fmin st.2.1 cum, cum, var)) (-maxValue, maxValue, 0, 0)
  let r := maxZ - minZ
  let n ← usub data.length 1
  let s := sqrt (var / flt n)
  some (r / s)

/-- trend.rs:1107-1117 -/
def linreg (x y : List F) : F :=
  let xAvg := x.foldl (fun acc x => acc + x) 0 / flt x.length
  let yAvg := y.foldl (fun acc y => acc + y) 0 / flt y.length
  let (covar, var) := (x.zip y).foldl (fun (st : F × F) (p : F × F) =>
    (st.1 + (p.1 - xAvg) * (p.2 - yAvg), st.2 + powi (p.1 - xAvg) 2)) (0, 0)
  covar / var

/-- The `loop` computing the sub-window sizes, trend.rs:1156-1163, from exponent `win`. `none` means
that the loop never ends. -/
def hurstSizes (window : Nat) (win : F) : Option (List Nat) :=
  let size := toUsize (powf 10 win)
  if window ≤ size then some []
  else do
    let rest ← hurstSizes window (win + 0.25)
    some (size :: rest)
partial_fixpoint

/-- `slice::chunks_exact(x)`, panics for `x = 0`; used at trend.rs:1175. -/
def chunksExact (x : Nat) (l : List F) : Option (List (List F)) :=
  if x = 0 then none
  else some ((List.range (l.length / x)).map fun i => (l.drop (i * x)).take x)

/-- trend.rs:1148-1181. `none` is a panic or an endless loop (see `hurstSizes`). -/
def hurst (data : List F) (window : Nat) (minWin : Option Nat) : Option (List F) := do
  let sizes0 ← hurstSizes window (log10 (flt (minWin.getD 4) : F))
  let sizes := sizes0 ++ [window]
  let logs : List F := sizes.map fun x => log10 (flt x)
  let k ← usub window 1
  let ws ← windows window data
  let r ← mapP (fun (w : List F) => do
    let rs ← mapP (fun x => do
      let chunks ← chunksExact x w
      let vals ← mapP hurst_rs chunks
      some (log10 (vals.foldl (fun acc v => acc + v) 0 / flt chunks.length))) sizes
    some (linreg logs rs)) ws
  some (nans k ++ r)

end Traquer.Trend
