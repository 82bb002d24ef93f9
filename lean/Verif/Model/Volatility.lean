import Verif.Model.Smooth
/-!
# Model of `/repo/src/volatility.rs`
-/

namespace Traquer.Volatility
open FloatLit
open Traquer.Distribution (stdDevRaw)
variable {F : Type} [FloatOps F]

/-- `fold(f64::NAN, |state, x| state.max(x))`, volatility.rs:133-135, 338-340, 666-668, 724-725 -/
def foldMax (l : List F) : F := l.foldl fmax nan

/-- `fold(f64::NAN, |state, x| state.min(x))`, volatility.rs:136-138, 341-343, 669-671, 726-727 -/
def foldMin (l : List F) : F := l.foldl fmin nan

/-- volatility.rs:40-66 -/
def mass (high low : List F) (short long : Nat) : Option (List F) := do
  let ma1 ← Smooth.ewma ((high.zip low).map fun (h, l) => h - l) short
  let s1 ← usub short 1
  let t ← sliceFrom ma1 s1
  let ma2 ← Smooth.ewma t short
  let l1 ← usub long 1
  let ws ← windows long (((ma1.drop s1).zip ma2).map fun (num, denom) => num / denom)
  some (nans (l1 + s1) ++ ws.map fsum)

/-- `_true_range`, volatility.rs:144-157 -/
def trueRange (high low close : List F) : Option (List F) := do
  let h1 ← sliceFrom high 1
  let l1 ← sliceFrom low 1
  let n ← usub close.length 1
  let pc ← sliceTo close n
  some ((zip3 h1 l1 pc).map fun (h, l, prevc) =>
    fmax (fmax (h - l) (fabs (h - prevc))) (fabs (l - prevc)))

/-- volatility.rs:181-187 -/
def tr (high low close : List F) : Option (List F) := do
  let t ← trueRange high low close
  some (nan :: t)

/-- volatility.rs:209-219 -/
def atr (high low close : List F) (window : Nat) : Option (List F) := do
  let t ← trueRange high low close
  let w ← Smooth.wilder t window
  some (nan :: w)

/-- volatility.rs:88-97. Items are `(middle, upper, lower)`. -/
def keltner (high low close : List F) (window : Nat) : Option (List (F × F × F)) := do
  let m ← Smooth.ewma close window
  let a ← atr high low close window
  some ((m.zip a).map fun (middle, atr) => (middle, middle + 2 * atr, middle - 2 * atr))

/-- volatility.rs:124-142 -/
def gri (high low : List F) (window : Nat) : Option (List F) := do
  let k ← usub window 1
  let hs ← windows window high
  let ls ← windows window low
  some (nans k ++ (hs.zip ls).map fun (h, l) =>
    let hh := foldMax h
    let ll := foldMin l
    ln (hh - ll) / ln (flt window))

/-- volatility.rs:241-257 -/
def typical (high low close : List F) (window : Nat) : Option (List F) :=
  Smooth.sma ((zip3 high low close).map fun (h, l, c) => (h + l + c) / 3) window

/-- volatility.rs:273-280 -/
def std_dev (data : List F) (window : Nat) (deviations : Option F) : Option (List F) := do
  let devs := deviations.getD 2
  let r ← Distribution.std_dev data window
  some (r.map fun x => x * devs)

/-- volatility.rs:300-309. Items are `(upper, middle, lower)`. -/
def bbands (data : List F) (window : Nat) (deviations : Option F) (mamode : Option Smooth.MaMode) :
    Option (List (F × F × F)) := do
  let m ← Smooth.ma data window (mamode.getD .EWMA)
  let s ← std_dev data window deviations
  some ((m.zip s).map fun (ma, stdev) => (ma + stdev, ma, ma - stdev))

/-- volatility.rs:330-346. Items are `(upper, middle, lower)`. -/
def donchian (high low : List F) (window : Nat) : Option (List (F × F × F)) := do
  let k ← usub window 1
  let hs ← windows window high
  let ls ← windows window low
  some (List.replicate k (nan, nan, nan) ++ (hs.zip ls).map fun (h, l) =>
    let hh := foldMax h
    let ll := foldMin l
    (hh, (hh + ll) / 2, ll))

/-- Index of the first maximum as computed by the fold of fbands, volatility.rs:376-386 (`better x y`
is `x > y` for the upper and `x < y` for the lower band, 393-403). -/
def argBest (better : F → F → Bool) (h : List F) : Option Nat := do
  let h0 ← h[0]?
  let (idx, _) := ((List.range h.length).zip h).foldl
    (fun (st : Nat × F) ((idx, x) : Nat × F) => if better x st.2 then (idx, x) else st) (0, h0)
  some idx

/-- volatility.rs:367-414. Items are `(upper, lower)`. -/
def fbands (high low : List F) : Option (List (F × F)) := do
  let r ← scanM (fun (state : F × F) ((h, l) : List F × List F) => do
    let hh ← argBest (fun x y => x >. y) h
    let h2 ← h[2]?
    let upper := if hh = 2 then h2 else state.1
    let ll ← argBest (fun x y => x <. y) l
    let l2 ← l[2]?
    let lower := if ll = 2 then l2 else state.2
    some ((upper, lower), (upper, lower))) (0, 0) ((windowsOf 5 high).zip (windowsOf 5 low))
  some (List.replicate 4 (nan, nan) ++ r)

/-- volatility.rs:438-456 -/
def hv (data : List F) (window : Nat) (deviations : Option F) : Option (List F) := do
  let annualize := 252 * deviations.getD 1
  let ws ← windows window ((pairs data).map fun (p0, p1) => ln (p1 / p0))
  some (nans window ++ ws.map fun w =>
    let mean := fsum w / flt window
    sqrt (fsum (w.map fun x => powi (x - mean) 2) * annualize / flt window))

/-- volatility.rs:477-489. Items are `(upper, lower)`. -/
def starc (high low close : List F) (window maWindow : Nat) (multiplier : Option F) :
    Option (List (F × F)) := do
  let multiplier := multiplier.getD 1.2
  let a ← atr high low close window
  let m ← Smooth.sma close maWindow
  some ((a.zip m).map fun (atr, ma) => (ma + multiplier * atr, ma - multiplier * atr))

/-- volatility.rs:516-536 -/
def cvi (high low : List F) (window rateOfChange : Nat) : Option (List F) := do
  let e ← Smooth.ewma ((high.zip low).map fun (h, l) => h - l) window
  let ws ← windows (rateOfChange + 1) e
  let r ← mapP (fun (w : List F) => do
    let last ← w.getLast?
    let first ← w.head?
    some (100 * (last / first - 1))) ws
  some (nans rateOfChange ++ r)

/-- volatility.rs:561-585 -/
def relative_vol (close : List F) (window smoothing : Nat) : Option (List F) := do
  let sd ← stdDevRaw close window
  let w1 ← usub window 1
  let currs ← sliceFrom close w1
  let w2 ← usub window 2
  let n ← usub close.length 1
  let upto ← sliceTo close n
  let prevs ← sliceFrom upto w2
  let gl := (zip3 sd currs prevs).map fun (std, curr, prev) =>
    (fmax 0 (signum (curr - prev)) * std, fmax 0 (signum (prev - curr)) * std)
  let g ← Smooth.wilder (gl.map (·.1)) smoothing
  let l ← Smooth.wilder (gl.map (·.2)) smoothing
  some (nans w1 ++ (g.zip l).map fun (g, l) => 100 * g / (g + l))

/-- volatility.rs:612-623 -/
def inertia (close : List F) (window smoothing : Nat) : Option (List F) := do
  let rv ← relative_vol close window window
  Smooth.lrf rv smoothing

/-- volatility.rs:651-677 -/
def chop (high low close : List F) (window : Nat) : Option (List F) := do
  let h1 ← sliceFrom high 1
  let l1 ← sliceFrom low 1
  let t ← trueRange high low close
  let hs ← windows window h1
  let ls ← windows window l1
  let ts ← windows window t
  some (nans window ++ (zip3 hs ls ts).map fun (h, l, tr) =>
    let hh := foldMax h
    let ll := foldMin l
    let trSum := fsum tr
    100 * ln (trSum / (hh - ll)) / ln (flt window))

/-- volatility.rs:704-732 -/
def vhf (high low close : List F) (window : Nat) : Option (List F) := do
  let diffs := (pairs close).map fun (prev, curr) => fabs (curr - prev)
  let ds ← windows window diffs
  let hs ← windows window high
  let ls ← windows window low
  some (nans window ++ (zip3 ds (hs.drop 1) (ls.drop 1)).map fun (diff, h, l) =>
    (foldMax h - foldMin l) / fsum diff)

/-- The closure of heikin_ashi, volatility.rs:785-799: state `(open, close)`, item
`(open, high, low, close)`. -/
def haStep (s : F × F) (b : F × F × F × F) : (F × F) × (F × F × F × F) :=
  let (o, h, l, c) := b
  let ci := (o + h + l + c) / 4
  let oi := (s.1 + s.2) / 2
  let hi := fmax (fmax h oi) ci
  let li := fmin (fmin l oi) ci
  ((oi, ci), (oi, hi, li, ci))

/-- volatility.rs:760-801 -/
def heikin_ashi (openp high low close : List F) : Option (List (F × F × F × F)) := do
  let o ← openp[0]?
  let h ← high[0]?
  let l ← low[0]?
  let c ← close[0]?
  let c0 := (o + h + l + c) / 4
  let o0 := (o + c) / 2
  let bars := zip4 (← sliceFrom openp 1) (← sliceFrom high 1) (← sliceFrom low 1) (← sliceFrom close 1)
  some ((o0, h, l, c0) :: scan haStep (o0, c0) bars)

/-- volatility.rs:823-831 -/
def wcp (high low close : List F) : List F :=
  (zip3 high low close).map fun (h, l, c) => (h + l + 2 * c) / 4

/-- volatility.rs:855-868 -/
def cc_hv (data : List F) (window : Nat) : Option (List F) := do
  let ws ← windows window ((pairs data).map fun (w0, w1) => powi (ln (w1 / w0)) 2)
  some (nans window ++ ws.map fun w => sqrt (fsum w * 252 / flt window))

/-- The per-bar term of gkyz_hv, volatility.rs:905-915 -/
def gkyzTerm (o h l c c0 : F) : F :=
  powi (ln (o / c0)) 2 + 0.5 * powi (ln (h / l)) 2 - (2 * ln 2 - 1) * powi (ln (c / o)) 2

/-- volatility.rs:896-921 -/
def gkyz_hv (openp high low close : List F) (window : Nat) : Option (List F) := do
  let o1 ← sliceFrom openp 1
  let h1 ← sliceFrom high 1
  let l1 ← sliceFrom low 1
  let c1 ← sliceFrom close 1
  let ws ← windows window ((zip5 o1 h1 l1 c1 close).map fun (o, h, l, c, c0) => gkyzTerm o h l c c0)
  some (nans window ++ ws.map fun w => sqrt (fsum w * 252 / flt window))

end Traquer.Volatility
