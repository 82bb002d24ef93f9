import Verif.Rust
/-!
# Model of `/repo/src/statistic/distribution.rs`
-/

namespace Traquer.Distribution
open FloatLit
variable {F : Type} [FloatOps F]

/-- `sum / window as f64`, the mean computed inline in distribution.rs:31, 43, 95, 129, 161, 300, 342. -/
def winMean (w : List F) (window : Nat) : F := fsum w / flt window

/-- `fold(0.0, |acc, x| acc + (x - mean).powi(n))`, distribution.rs:32-33, 44-45, 97-98, 162-163, 301-306, 343-349. -/
def powDev (w : List F) (mean : F) (n : Nat) : F :=
  w.foldl (fun acc x => acc + powi (x - mean) n) 0

/-- distribution.rs:27-36 -/
def variance (data : List F) (window : Nat) : Option (List F) := do
  let k ← usub window 1
  let ws ← windows window data
  some (nans k ++ ws.map fun w =>
    let mean := winMean w window
    powDev w mean 2 / flt window)

/-- The closure of `_std_dev`, distribution.rs:42-48. -/
def stdDevWin (window : Nat) (w : List F) : F :=
  let mean := winMean w window
  sqrt (powDev w mean 2 / flt window)

/-- `_std_dev` (no padding), distribution.rs:38-49 -/
def stdDevRaw (data : List F) (window : Nat) : Option (List F) := do
  let ws ← windows window data
  some (ws.map (stdDevWin window))

/-- distribution.rs:66-70 -/
def std_dev (data : List F) (window : Nat) : Option (List F) := do
  let k ← usub window 1
  let r ← stdDevRaw data window
  some (nans k ++ r)

/-- distribution.rs:91-103. `w[window - 1]` is the last element of the window. -/
def zscore (data : List F) (window : Nat) : Option (List F) := do
  let k ← usub window 1
  let ws ← windows window data
  let r ← mapP (fun w => do
    let mean := winMean w window
    let stdev := sqrt (powDev w mean 2 / flt window)
    let last ← w[window - 1]?
    some ((last - mean) / stdev)) ws
  some (nans k ++ r)

/-- distribution.rs:125-134 -/
def mad (data : List F) (window : Nat) : Option (List F) := do
  let k ← usub window 1
  let ws ← windows window data
  some (nans k ++ ws.map fun w =>
    let mean := winMean w window
    w.foldl (fun acc x => acc + fabs (x - mean)) 0 / flt window)

/-- distribution.rs:157-168 -/
def cv (data : List F) (window : Nat) : Option (List F) := do
  let k ← usub window 1
  let ws ← windows window data
  some (nans k ++ ws.map fun w =>
    let mean := winMean w window
    sqrt (powDev w mean 2 / flt window) / mean)

/-- The inner condition of both entropies: the templates of length `m` at `i` and `j` are within
`tol` (distribution.rs:201-206 and 253-258). The ranges are in bounds because `i, j < win_len`. -/
def templMatch (ts : List F) (m : Nat) (tol : F) (i j : Nat) : Bool :=
  (((ts.drop i).take m).zip ((ts.drop j).take m)).map (fun p => fabs (p.1 - p.2))
    |>.foldl fmax nan |> (· <=. tol)

/-- `count += b as u8` with `count: u8` (the type is inferred from `as u8`, distribution.rs:199-206,
250-258); overflow panics (debug semantics). -/
def addU8 (count : Nat) (b : Bool) : Option Nat :=
  let c := count + (if b then 1 else 0)
  if c ≤ 255 then some c else none

/-- Running a `u8` counter over a list of conditions, distribution.rs:206 and distribution.rs:258. -/
def countU8 (l : List Bool) : Option Nat := l.foldlM addU8 0

/-- `phi`, distribution.rs:195-213 -/
def phi (ts : List F) (m : Nat) (tol : F) : Option F := do
  let d ← usub ts.length m
  let winLen := d + 1
  let counts ← mapP (fun i => countU8 ((List.range winLen).map (templMatch ts m tol i)))
    (List.range winLen)
  let cm := counts.foldl (fun (cm : F) c => cm + ln (flt c / flt winLen)) 0
  some (cm / flt winLen)

/-- `tolerance.unwrap_or_else(|| _std_dev(data, data.len()).last().unwrap() * 0.2)`,
distribution.rs:216 and 266 -/
def tolOr (data : List F) (tolerance : Option F) : Option F :=
  match tolerance with
  | some t => some t
  | none => do
    let r ← stdDevRaw data data.length
    let l ← r.getLast?
    some (l * 0.2)

/-- distribution.rs:189-222 -/
def approx_entropy (data : List F) (window : Nat) (runLength : Option Nat) (tolerance : Option F) :
    Option (List F) := do
  let m := runLength.getD 2
  let tol ← tolOr data tolerance
  let k ← usub window 1
  let ws ← windows window data
  let r ← mapP (fun w => do
    let a ← phi w (m + 1) tol
    let b ← phi w m tol
    some (fabs (a - b))) ws
  some (nans k ++ r)

/-- The sequence of `(i, j)` with `i < j < win_len` visited by `matches`, distribution.rs:251-252. -/
def ltPairs (n : Nat) : List (Nat × Nat) :=
  (List.range n).flatMap fun i => ((List.range n).drop (i + 1)).map fun j => (i, j)

/-- `matches`, distribution.rs:248-263 -/
def matchCount (ts : List F) (m : Nat) (tol : F) : Option F := do
  let d ← usub ts.length m
  let winLen := d + 1
  let count ← countU8 ((ltPairs winLen).map fun p => templMatch ts m tol p.1 p.2)
  some (2 * flt count + epsilon)

/-- distribution.rs:242-272 -/
def sample_entropy (data : List F) (window : Nat) (runLength : Option Nat) (tolerance : Option F) :
    Option (List F) := do
  let m := runLength.getD 2
  let tol ← tolOr data tolerance
  let k ← usub window 1
  let ws ← windows window data
  let r ← mapP (fun w => do
    let a ← matchCount w (m + 1) tol
    let b ← matchCount w m tol
    some (-(ln (a / b)))) ws
  some (nans k ++ r)

/-- `count += b as u8` with `count: u8` in a build without overflow checks (distribution.rs:199-206, 250-258): the counter wraps. -/
def countWrap (l : List Bool) : Nat := l.foldl (fun c b => (c + if b then 1 else 0) % 256) 0

/-- `phi` in a build without overflow checks, distribution.rs:195-213. Simplified: `ts.len() - m` still panics instead of wrapping to a
length no slice can have, so only `m ≤ ts.len()` is meaningful. -/
def phiRelease (ts : List F) (m : Nat) (tol : F) : Option F := do
  let d ← usub ts.length m
  let winLen := d + 1
  let counts := (List.range winLen).map fun i => countWrap ((List.range winLen).map (templMatch ts m tol i))
  let cm := counts.foldl (fun (cm : F) c => cm + ln (flt c / flt winLen)) 0
  some (cm / flt winLen)

/-- `approx_entropy` in a build without overflow checks, distribution.rs:189-222 (simplified as `phiRelease`) -/
def approx_entropyRelease (data : List F) (window : Nat) (runLength : Option Nat) (tolerance : Option F) :
    Option (List F) := do
  let m := runLength.getD 2
  let tol ← tolOr data tolerance
  let k ← usub window 1
  let ws ← windows window data
  let r ← mapP (fun w => do
    let a ← phiRelease w (m + 1) tol
    let b ← phiRelease w m tol
    some (fabs (a - b))) ws
  some (nans k ++ r)

/-- `matches` in a build without overflow checks, distribution.rs:248-263 (simplified as `phiRelease`) -/
def matchCountRelease (ts : List F) (m : Nat) (tol : F) : Option F := do
  let d ← usub ts.length m
  let winLen := d + 1
  some (2 * flt (countWrap ((ltPairs winLen).map fun p => templMatch ts m tol p.1 p.2)) + epsilon)

/-- `sample_entropy` in a build without overflow checks, distribution.rs:242-272 (simplified as `phiRelease`) -/
def sample_entropyRelease (data : List F) (window : Nat) (runLength : Option Nat) (tolerance : Option F) :
    Option (List F) := do
  let m := runLength.getD 2
  let tol ← tolOr data tolerance
  let k ← usub window 1
  let ws ← windows window data
  let r ← mapP (fun w => do
    let a ← matchCountRelease w (m + 1) tol
    let b ← matchCountRelease w m tol
    some (-(ln (a / b)))) ws
  some (nans k ++ r)

/-- distribution.rs:294-309 -/
def kurtosis (data : List F) (window : Nat) : Option (List F) := do
  let w1 ← usub window 1
  let w2 ← usub window 2
  let w3 ← usub window 3
  let adj1 : F := flt ((window + 1) * window * w1) / flt (w2 * w3)
  let adj2 : F := 3 * flt (w1 ^ 2) / flt (w2 * w3)
  let ws ← windows window data
  some (nans w1 ++ ws.map fun w =>
    let mean := winMean w window
    let k4 := powDev w mean 4
    let k2 := powDev w mean 2
    adj1 * k4 / (k2 * k2) - adj2)

/-- distribution.rs:338-354 (`window - 2` is evaluated inside the closure) -/
def skew (data : List F) (window : Nat) : Option (List F) := do
  let k ← usub window 1
  let ws ← windows window data
  let r ← mapP (fun w => do
    let mean := winMean w window
    let m3 := powDev w mean 3 / flt window
    let m2 := powf (powDev w mean 2 / flt window) (3 / 2)
    let w2 ← usub window 2
    some (sqrt (flt (window * (window - 1))) / flt w2 * m3 / m2)) ws
  some (nans k ++ r)

/-! ## quickselect, median, quantile -/

/-- `slice::swap`, panics out of bounds; used at distribution.rs:366 and distribution.rs:370. -/
def swap {T : Type} (l : List T) (i j : Nat) : Option (List T) := do
  let a ← l[i]?
  let b ← l[j]?
  some ((l.set i b).set j a)

/-- The Lomuto partition loop `for j in lo..hi`, distribution.rs:364-369: `n` iterations starting at
`j`; `lt` is `<` on `T`. Returns the array and the final `i`. -/
def lomuto {T : Type} (lt : T → T → Bool) (pivot : T) : (n j i : Nat) → List T → Option (List T × Nat)
  | 0, _, i, d => some (d, i)
  | n + 1, j, i, d => do
    let x ← d[j]?
    if lt x pivot then do
      let d' ← swap d i j
      lomuto lt pivot n (j + 1) (i + 1) d'
    else lomuto lt pivot n (j + 1) i d

/-- The `while lo < hi` loop of quickselect, distribution.rs:360-378. The first argument bounds the
number of iterations (the loop shrinks `lo..hi` each time, so `data.len()` suffices, see
`quickselect_spec`). Returns the permuted slice and the selected element. -/
def quickselectLoop {T : Type} (lt : T → T → Bool) (k : Nat) :
    (fuel lo hi : Nat) → List T → Option (List T × T)
  | 0, _, _, _ => none
  | fuel + 1, lo, hi, d =>
    if lo < hi then do
      let pivot ← d[hi]?
      let (d1, i) ← lomuto lt pivot (hi - lo) lo lo d
      let d2 ← swap d1 i hi
      if i = k then do
        let x ← d2[k]?
        some (d2, x)
      else if k < i then do
        let hi' ← usub i 1
        quickselectLoop lt k fuel lo hi' d2
      else quickselectLoop lt k fuel (i + 1) hi d2
    else do
      let x ← d[k]?
      some (d, x)

/-- distribution.rs:356-379. -/
def quickselect {T : Type} (lt : T → T → Bool) (data : List T) (k : Nat) : Option (List T × T) := do
  let hi ← usub data.length 1
  quickselectLoop lt k (data.length + 1) 0 hi data

/-- distribution.rs:412-437. `lt` is `<` on the element type and `toF` is `to_f64`. -/
def quantileT {T : Type} (lt : T → T → Bool) (toF : T → F) (data : List T) (window : Nat) (q : F) :
    Option (List F) := do
  let k ← usub window 1
  let ws ← windows window data
  let r ← mapP (fun w => do
    let pos : F := flt k * (clampLit q 0 100 / 100)
    if fract pos ==. 0 then do
      let (_, x) ← quickselect lt w (toUsize pos)
      some (toF x)
    else do
      let (w', x) ← quickselect lt w (toUsize (floor pos))
      let lower := toF x
      let rest ← sliceFrom w' (toUsize (ceil pos))
      let upper := rest.foldl (fun s x => fmin s (toF x)) nan
      some (lower * (ceil pos - pos) + upper * (pos - floor pos))) ws
  some (nans k ++ r)

/-- `quantile` on floats (distribution.rs:412-437 at `T = f64`). -/
def quantile (data : List F) (window : Nat) (q : F) : Option (List F) :=
  quantileT (fun x y => x <. y) id data window q

/-- distribution.rs:393-398 -/
def median (data : List F) (window : Nat) : Option (List F) := quantile data window 50

/-! ## covariance helper -/

/-- distribution.rs:439-455 -/
def cov_stdev (x y : List F) : Option (F × F × F) := do
  let xAvg := x.foldl (fun acc x => acc + x) 0 / flt x.length
  let yAvg := y.foldl (fun acc y => acc + y) 0 / flt y.length
  let nx ← usub x.length 1
  let ny ← usub y.length 1
  some
    ((x.zip y).foldl (fun acc p => acc + (p.1 - xAvg) * (p.2 - yAvg)) 0 / flt nx,
     sqrt (powDev x xAvg 2 / flt nx),
     sqrt (powDev y yAvg 2 / flt ny))

/-! ## rank -/

/-- distribution.rs:457-464 -/
inductive RankMode
  | average | dense | max | min | ordinal
  deriving DecidableEq, Repr

/-- What `data.argsort()` (distribution.rs:471-477) may return: `sort_unstable_by` yields *some*
ordering of the indices that is sorted with respect to the comparison. -/
structure IsArgsort {T : Type} (lt : T → T → Bool) (data : List T) (idx : List Nat) : Prop where
  perm : idx.Perm (List.range data.length)
  sorted : idx.Pairwise fun a b => ∀ x y, data[a]? = some x → data[b]? = some y → lt y x = false

/-- `for_each(|(v, i)| result[i] = v)` starting from zeros, distribution.rs:514, 521, 575. -/
def scatter (n : Nat) (vals : List F) (idx : List Nat) : List F :=
  (vals.zip idx).foldl (fun res p => res.set p.2 p.1) (List.replicate n 0)

/-- `uniq_indices`, distribution.rs:524-532: true where the sorted value differs from its predecessor
(`ne` is `!=`); panics (unwrap) on empty data. -/
def uniqFlags {T : Type} (ne : T → T → Bool) (sorted : List T) : Option (List Bool) :=
  match sorted with
  | [] => none
  | x1 :: rest => some (true :: scan (fun st x => (x, ne st x)) x1 rest)

/-- `counts`, distribution.rs:541-546: positions of the first element of each tie group, then `len`. -/
def tieStarts (flags : List Bool) (n : Nat) : List Nat :=
  ((List.range flags.length).zip flags).filterMap (fun p => if p.2 then some p.1 else none) ++ [n]

/-- The ranks in sorted order, distribution.rs:533-574. -/
def sortedRanks (mode : Option RankMode) (flags : List Bool) (n : Nat) : Option (List F) :=
  match mode with
  | some .dense =>
    some ((scanS (fun st take => if take then st + 1 else st) 0 flags).map (fun s => flt s))
  | some .average =>
    let counts := tieStarts flags n
    scanM (fun (st : Nat) take => do
      let st := if take then st + 1 else st
      let a ← counts[st]?
      let p ← usub st 1
      let b ← counts[p]?
      some (st, flt (1 + a + b) / 2)) 0 flags
  | some .max =>
    let counts := tieStarts flags n
    scanM (fun (st : Nat) take => do
      let st := if take then st + 1 else st
      let a ← counts[st]?
      some (st, flt a)) 0 flags
  | _ =>
    some ((scanS (fun st (p : Nat × Bool) => if p.2 then p.1 else st) 1
      ((List.range' 1 n).zip flags)).map (fun s => flt s))

/-- distribution.rs:510-579 after the sort: `idx` is what `data.argsort()` returned. -/
def rankWith {T : Type} (ne : T → T → Bool) (data : List T) (mode : Option RankMode) (idx : List Nat) :
    Option (List F) :=
  match mode with
  | some .ordinal => some (scatter data.length ((List.range' 1 data.length).map fun i => flt i) idx)
  | _ => do
    let sorted ← mapP (fun i => data[i]?) idx
    let flags ← uniqFlags ne sorted
    let ranks ← sortedRanks mode flags data.length
    some (scatter data.length ranks idx)

/-- `partial_cmp(..).unwrap()` succeeds, distribution.rs:474: the values are comparable. -/
def comparable (x y : F) : Bool := (x <. y) || (x ==. y) || (y <. x)

/-- Does sorting panic? With at least two elements every element takes part in a comparison, and a
comparison with an unordered value (NaN) panics (distribution.rs:474). -/
def sortPanics (data : List F) : Bool :=
  decide (2 ≤ data.length) && data.any fun x => !(comparable x x)

/-- A sorting routine for indices: the nondeterministic part of `rank` (`sort_unstable_by`, distribution.rs:474). -/
structure Sorter (F : Type) [FloatOps F] where
  sort : List F → List Nat

/-- `rank` on floats, distribution.rs:510-579, with a given sorting routine. -/
def rank (srt : Sorter F) (data : List F) (mode : Option RankMode) : Option (List F) :=
  if sortPanics data then none
  else rankWith (fun x y => !(x ==. y)) data mode (srt.sort data)

end Traquer.Distribution
