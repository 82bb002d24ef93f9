import Verif.Model.Smooth
import Mathlib.Data.List.Dedup
/-!
# Model of `/repo/src/correlation.rs`
-/

namespace Traquer.Correlation
open FloatLit
open Traquer.Distribution (rank cov_stdev RankMode Sorter ltPairs)
variable {F : Type} [FloatOps F]

/-- The five running sums of pcc, correlation.rs:54-58. -/
structure PccSums (F : Type) where
  xy : F
  x : F
  y : F
  x2 : F
  y2 : F

/-- The loop of pcc, correlation.rs:54-66 -/
def pccSums (xw yw : List F) : PccSums F :=
  (xw.zip yw).foldl (fun s (p : F × F) =>
    { xy := s.xy + p.1 * p.2, x := s.x + p.1, y := s.y + p.2,
      x2 := s.x2 + p.1 * p.1, y2 := s.y2 + p.2 * p.2 }) { xy := 0, x := 0, y := 0, x2 := 0, y2 := 0 }

/-- The closure of pcc, correlation.rs:53-70 -/
def pccWin (window : Nat) (xw yw : List F) : F :=
  let s := pccSums xw yw
  (flt window * s.xy - s.x * s.y)
    / (sqrt (flt window * s.x2 - s.x * s.x) * sqrt (flt window * s.y2 - s.y * s.y))

/-- correlation.rs:44-72 -/
def pcc (series1 series2 : List F) (window : Nat) : Option (List F) := do
  let k ← usub window 1
  let xs ← windows window series1
  let ys ← windows window series2
  some (nans k ++ (xs.zip ys).map fun (x, y) => pccWin window x y)

/-- correlation.rs:100-106 -/
def rsq (series1 series2 : List F) (window : Nat) : Option (List F) := do
  let r ← pcc series1 series2 window
  some (r.map fun x => x * x)

/-- Simple returns, correlation.rs:139-142, 145-148 -/
def returns (series : List F) : List F := (pairs series).map fun (p0, p1) => p1 / p0 - 1

/-- correlation.rs:133-173 -/
def beta (series1 series2 : List F) (window : Nat) : Option (List F) := do
  let k ← usub window 1
  let xs ← windows window (returns series1)
  let ys ← windows window (returns series2)
  let cv ← mapP (fun ((xw, yw) : List F × List F) => do
    let sumX := fsum xw
    let sumY := fsum yw
    let xl ← xw[window - 1]?
    let yl ← yw[window - 1]?
    some ((xl - sumX / flt window) * (yl - sumY / flt window), powi (yl - sumY / flt window) 2))
    (xs.zip ys)
  let ws ← windows window cv
  some (nans (k * 2 + 1) ++ ws.map fun w =>
    let (sumCovar, sumVar) :=
      w.foldl (fun (st : F × F) (p : F × F) => (st.1 + p.1, st.2 + p.2)) (0, 0)
    (sumCovar / flt window) / (sumVar / flt window))

/-- correlation.rs:198-210 -/
def perf (series1 series2 : List F) (window : Nat) : Option (List F) := do
  let m1 ← Smooth.sma series1 window
  let m2 ← Smooth.sma series2 window
  some ((zip4 series1 series2 m1 m2).map fun (x, y, maX, maY) => x / y * (maY / maX))

/-- correlation.rs:236-244 -/
def rsc (series1 series2 : List F) : List F := (series1.zip series2).map fun (x, y) => x / y

/-- correlation.rs:271-288 -/
def srcc (srt : Sorter F) (series1 series2 : List F) (window : Nat) : Option (List F) := do
  let k ← usub window 1
  let xs ← windows window series1
  let ys ← windows window series2
  let r ← mapP (fun ((xw, yw) : List F × List F) => do
    let rx ← rank srt xw none
    let ry ← rank srt yw none
    let (covXY, stdX, stdY) ← cov_stdev rx ry
    some (covXY / (stdX * stdY))) (xs.zip ys)
  some (nans k ++ r)

/-- The counters of krcc, correlation.rs:327-330. -/
structure KrccState (F : Type) where
  nc : F
  xTie : F
  yTie : F
  xyTie : F

/-- The body of the double loop of krcc, correlation.rs:334-343. Indices are in bounds. -/
def krccStep (xw yw : List F) (s : KrccState F) (p : Nat × Nat) : Option (KrccState F) := do
  let xi ← xw[p.1]?
  let xj ← xw[p.2]?
  let yi ← yw[p.1]?
  let yj ← yw[p.2]?
  some {
    nc := s.nc + boolF ((signum (xi - xj) ==. signum (yi - yj)) && !(xi ==. xj))
    xyTie := s.xyTie + boolF ((xi ==. xj) && (yi ==. yj))
    xTie := s.xTie + boolF (xi ==. xj)
    yTie := s.yTie + boolF (yi ==. yj) }

/-- The closure of krcc, correlation.rs:326-349 -/
def krccWin (window : Nat) (xw yw : List F) : Option F := do
  let s ← (ltPairs window).foldlM (krccStep xw yw) { nc := 0, xTie := 0, yTie := 0, xyTie := 0 }
  let tot : F := flt (window * (window - 1)) * 0.5
  let nd := tot - s.nc - s.xTie - s.yTie + s.xyTie
  some ((s.nc - nd) / sqrt ((tot - s.xTie) * (tot - s.yTie)))

/-- correlation.rs:317-351 -/
def krcc (series1 series2 : List F) (window : Nat) : Option (List F) := do
  let k ← usub window 1
  let xs ← windows window series1
  let ys ← windows window series2
  let r ← mapP (fun ((xw, yw) : List F × List F) => krccWin window xw yw) (xs.zip ys)
  some (nans k ++ r)

/-- The `q` vector of hoeffd for point `i`, correlation.rs:393-402 -/
def hoeffdQ (rx ry : List F) (xi yi : F) : F :=
  (rx.zip ry).foldl (fun (q : F) (p : F × F) =>
    let q := q + boolF ((p.1 <. xi) && (p.2 <. yi))
    let q := q + 0.25 * boolF ((p.1 ==. xi) && (p.2 ==. yi))
    q + 0.5 * boolF (((p.1 ==. xi) && (p.2 <. yi)) || ((p.1 <. xi) && (p.2 ==. yi)))) 1 - 0.25

/-- The closure of hoeffd, correlation.rs:388-414. The product of line 413 is checked for overflow; that of
line 411 is not larger. -/
def hoeffdWin (srt : Sorter F) (window : Nat) (xw yw : List F) : Option F := do
  let rx ← rank srt xw (some .average)
  let ry ← rank srt yw (some .average)
  let q := (rx.zip ry).map fun (x, y) => hoeffdQ rx ry x y
  let d1 := q.foldl (fun acc x => acc + (x - 1) * (x - 2)) 0
  let d2 := (rx.zip ry).foldl (fun acc ((x, y) : F × F) =>
    acc + (x - 1) * (x - 2) * (y - 1) * (y - 2)) 0
  let d3 := (zip3 q rx ry).foldl (fun acc ((q, x, y) : F × F × F) =>
    acc + (x - 2) * (y - 2) * (q - 1)) 0
  let w1 ← usub window 1
  let w2 ← usub window 2
  let w3 ← usub window 3
  let w4 ← usub window 4
  let p1 ← umul window w1
  let p2 ← umul p1 w2
  let p3 ← umul p2 w3
  let p4 ← umul p3 w4
  some (30 * (flt (w2 * w3) * d1 + d2 - 2 * flt w2 * d3) / flt p4)

/-- correlation.rs:379-416 -/
def hoeffd (srt : Sorter F) (series1 series2 : List F) (window : Nat) : Option (List F) := do
  let k ← usub window 1
  let xs ← windows window series1
  let ys ← windows window series2
  let r ← mapP (fun ((xw, yw) : List F × List F) => hoeffdWin srt window xw yw) (xs.zip ys)
  some (nans k ++ r)

/-- `(x[i] - x[j]).abs()` with `i ≤ j`, mirrored: cell `(i, j)` of the distance matrix,
correlation.rs:455-463. Indices are in bounds. Simplification: the flattened matrix, of which every cell
is written once, is a function of the indices. -/
def distCell (x : List F) (i j : Nat) : F := fabs (x.getD (min i j) nan - x.getD (max i j) nan)

/-- correlation.rs:466-469 -/
def rowMean (x : List F) (i : Nat) : F :=
  fsum ((List.range x.length).map fun j => distCell x i j) / flt x.length

/-- `matrix_mean`, correlation.rs:454-463, 472-475: the sum over `i ≤ j` counted twice, minus the
diagonal. -/
def matrixMean (x : List F) : F :=
  let n := x.length
  let upper := (List.range n).flatMap fun i => ((List.range n).drop i).map fun j => (i, j)
  let total := upper.foldl (fun (acc : F) p => acc + distCell x p.1 p.2 * 2) 0
  let diag := (List.range n).foldl (fun (acc : F) i => acc + distCell x i i) 0
  (total - diag) / flt (n * n)

/-- Cell `(i, j)` after double centring, correlation.rs:476-483 -/
def centredCell (x : List F) (i j : Nat) : F :=
  distCell x i j + (-(rowMean x (min i j)) - rowMean x (max i j) + matrixMean x)

/-- correlation.rs:450-485, flattened row by row -/
def centredMatrix (x : List F) : List F :=
  (List.range x.length).flatMap fun i => (List.range x.length).map fun j => centredCell x i j

/-- The closure of dcor, correlation.rs:491-507 -/
def dcorWin (window : Nat) (xw yw : List F) : F :=
  let cx := centredMatrix xw
  let cy := centredMatrix yw
  let dcov := sqrt (fsum ((cx.zip cy).map fun (a, b) => a * b) / flt (window ^ 2))
  let dvarX := sqrt (fsum (cx.map fun a => a * a) / flt (window ^ 2))
  let dvarY := sqrt (fsum (cy.map fun a => a * a) / flt (window ^ 2))
  dcov / sqrt (dvarX * dvarY)

/-- correlation.rs:445-509 -/
def dcor (series1 series2 : List F) (window : Nat) : Option (List F) := do
  let k ← usub window 1
  let xs ← windows window series1
  let ys ← windows window series2
  some (nans k ++ (xs.zip ys).map fun (x, y) => dcorWin window x y)

/-! ## mic -/

/-- One term of the fold in `mutual_info`, correlation.rs:554-559. Simplification: the `i32` counters
do not overflow. -/
def miTerm (x y : List Nat) (p : Nat × Nat) : F :=
  let n : F := flt x.length
  let pxy := flt ((x.zip y).count p) / n
  let px := flt ((x.take y.length).count p.1) / n
  let py := flt ((y.take x.length).count p.2) / n
  pxy * log2 (pxy / (px * py))

/-- `mutual_info`, correlation.rs:542-560. `order` is the order in which the `HashMap` of joint
counts yields its keys. -/
def mutualInfo (order : List (Nat × Nat) → List (Nat × Nat)) (x y : List Nat) : F :=
  (order (x.zip y).dedup).foldl (fun acc p => acc + miTerm x y p) 0

/-- `bin`, correlation.rs:562-576, for `bins ≥ 1` -/
def bin (x : List F) (bins : Nat) : List Nat :=
  let mn := x.foldl fmin maxValue
  let mx := x.foldl fmax (-maxValue)
  let width := (mx - mn) / flt bins
  x.map fun v => min (toUsize (floor ((v - mn) / width))) (bins - 1)

/-- The pairs `(i, j)` visited by the two loops, correlation.rs:586-595 -/
def binPairs (maxBins : Nat) : List (Nat × Nat) :=
  (List.range' 2 (maxBins / 2 - 1)).flatMap fun i =>
    (List.range' 2 (maxBins / i - 1)).map fun j => (i, j)

/-- The iteration orders of the hash maps of one run, correlation.rs:543-545: window number, `i`, `j` identify the map. -/
abbrev HashOrder := Nat → Nat → Nat → List (Nat × Nat) → List (Nat × Nat)

/-- The closure of mic, correlation.rs:584-598 -/
def micWin (ho : HashOrder) (maxBins c : Nat) (xw yw : List F) : F :=
  (binPairs maxBins).foldl (fun (best : F) (p : Nat × Nat) =>
    let mi := mutualInfo (ho c p.1 p.2) (bin xw p.1) (bin yw p.2)
    fmax (mi / log2 (flt (min p.1 p.2))) best) (-maxValue)

/-- correlation.rs:537-600 -/
def mic (ho : HashOrder) (series1 series2 : List F) (window : Nat) : Option (List F) := do
  let maxBins := toUsize (ceil (powf (flt window : F) 0.6))
  let k ← usub window 1
  let xs ← windows window series1
  let ys ← windows window series2
  let zs := xs.zip ys
  some (nans k ++ ((List.range zs.length).zip zs).map fun (c, x, y) => micWin ho maxBins c x y)

end Traquer.Correlation
