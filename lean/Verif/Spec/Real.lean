import Verif.Arith.Val
/-!
# What the numerical properties say

Nothing here mentions the model of a particular indicator.
-/

namespace Traquer
open FP

/-- All values of a series are finite numbers. -/
def Fins {ρ : Rounding} (l : List (FP ρ)) : Prop := ∀ x ∈ l, x.Finite

/-- The real values of a series. -/
noncomputable def vals {ρ : Rounding} (l : List (FP ρ)) : List ℝ := l.map FP.val

/-- The call does not panic and returns `n` values: the first `k` are NaN, and from bar `k` on the value
at bar `i` is the finite number `v i`. -/
def Reports {ρ : Rounding} (n k : ℕ) (v : ℕ → ℝ) (r : Option (List (FP ρ))) : Prop :=
  ∃ out, r = some out ∧ out.length = n ∧ (∀ i, i < k → i < n → out[i]? = some nan) ∧
    ∀ i, k ≤ i → i < n → ∃ y, out[i]? = some y ∧ y ⇓ v i

/-- The arithmetic mean. -/
noncomputable def mean (l : List ℝ) : ℝ := l.sum / l.length

/-- All values of the list lie between `lo` and `hi`. -/
def Within (lo hi : ℝ) (l : List ℝ) : Prop := ∀ x ∈ l, lo ≤ x ∧ x ≤ hi

/-- `v` is a weighted mean of `l`, the weights being non-negative with sum one. -/
def ConvexComb (l : List ℝ) (v : ℝ) : Prop :=
  ∃ ws : List ℝ, ws.length = l.length ∧ (∀ w ∈ ws, 0 ≤ w) ∧ ws.sum = 1 ∧ v = ((ws.zip l).map fun p => p.1 * p.2).sum

/-- The value is NaN or a finite number between `lo` and `hi`. -/
def InRange {ρ : Rounding} (lo hi : ℝ) (y : FP ρ) : Prop := y = nan ∨ ∃ r, y ⇓ r ∧ lo ≤ r ∧ r ≤ hi

/-- The mean of `l` with weights `ws`: `Σ ws_i * l_i / Σ ws_i`. -/
noncomputable def weightedMean (ws l : List ℝ) : ℝ := ((ws.zip l).map fun p => p.1 * p.2).sum / ws.sum

/-- The call does not panic, yields `n` values, the first `k` of them NaN, and from then on the value at
bar `i` satisfies `P i`. -/
def ReportsP {ρ : Rounding} (n k : ℕ) (P : ℕ → FP ρ → Prop) (r : Option (List (FP ρ))) : Prop :=
  ∃ out, r = some out ∧ out.length = n ∧ (∀ i, i < k → i < n → out[i]? = some nan) ∧
    ∀ i, k ≤ i → i < n → ∃ y, out[i]? = some y ∧ P i y

/-- The `k`-th central moment (dividing by the number of values). -/
noncomputable def moment (k : ℕ) (l : List ℝ) : ℝ := mean (l.map fun x => (x - mean l) ^ k)

/-- The population standard deviation. -/
noncomputable def stdDev (l : List ℝ) : ℝ := Real.sqrt (moment 2 l)

/-- The mean absolute deviation from the mean. -/
noncomputable def meanAbsDev (l : List ℝ) : ℝ := mean (l.map fun x => |x - mean l|)

/-- All values are equal. -/
def Flat (l : List ℝ) : Prop := ∀ x ∈ l, ∀ y ∈ l, x = y

/-- The last `w` values of a series given as a function of the bar, oldest first. -/
def lastOf (v : ℕ → ℝ) (w i : ℕ) : List ℝ := (List.range w).map fun j => v (i + 1 - w + j)

/-- The rises between consecutive values (0 where it falls). -/
noncomputable def rises (l : List ℝ) : List ℝ := (pairs l).map fun p => max 0 (p.2 - p.1)

/-- The falls between consecutive values (0 where it rises). -/
noncomputable def falls (l : List ℝ) : List ℝ := (pairs l).map fun p => max 0 (p.1 - p.2)

/-- The changes between consecutive values. -/
def changes (l : List ℝ) : List ℝ := (pairs l).map fun p => p.2 - p.1

/-- The largest value of a non-empty list. -/
noncomputable def maxOf : List ℝ → ℝ
  | [] => 0
  | x :: l => l.foldl max x

/-- The smallest value of a non-empty list. -/
noncomputable def minOf : List ℝ → ℝ
  | [] => 0
  | x :: l => l.foldl min x

/-- The exponential average with smoothing factor `2 / (w + 1)`, started at bar `w - 1` from the mean of the
first `w` values (the values before bar `w - 1` mean nothing). -/
noncomputable def ewmaOf (w : ℕ) (l : List ℝ) : ℕ → ℝ
  | 0 => mean (l.take w)
  | i + 1 => if i + 1 < w then mean (l.take w)
    else l[i + 1]?.getD 0 * (2 / (w + 1)) + ewmaOf w l i * (1 - 2 / (w + 1))

/-- The values of the exponential average from bar `w - 1` on. -/
noncomputable def ewmaSeries (w : ℕ) (l : List ℝ) : List ℝ :=
  (List.range (l.length - (w - 1))).map fun j => ewmaOf w l (w - 1 + j)

/-- Wilder's average: `((w - 1) * previous + new) / w`, started at bar `w - 1` from the mean of the first `w` values. -/
noncomputable def wilderOf (w : ℕ) (l : List ℝ) : ℕ → ℝ
  | 0 => mean (l.take w)
  | i + 1 => if i + 1 < w then mean (l.take w) else (wilderOf w l i * (w - 1) + l[i + 1]?.getD 0) / w

/-- Bars with `low ≤ close ≤ high`, one entry per bar in each series. -/
structure SaneBars (high low close : List ℝ) : Prop where
  low_length : low.length = high.length
  close_length : close.length = high.length
  low_le : ∀ (i : ℕ) (l c : ℝ), low[i]? = some l → close[i]? = some c → l ≤ c
  le_high : ∀ (i : ℕ) (c h : ℝ), close[i]? = some c → high[i]? = some h → c ≤ h

/-- `y` is the IEEE quotient of the numbers `a` and `b`: finite if `b ≠ 0`, NaN for `0 / 0`, else infinite. -/
def QuotIs {ρ : Rounding} (a b : ℝ) (y : FP ρ) : Prop :=
  (b ≠ 0 → y ⇓ a / b) ∧ (b = 0 → a = 0 → y = nan) ∧ (b = 0 → a ≠ 0 → ∃ s, y = inf s)

/-- The call does not panic, yields `n` items, and from bar `k` on the item at bar `i` satisfies `P i`. -/
def Items {α : Type} (n k : ℕ) (P : ℕ → α → Prop) (r : Option (List α)) : Prop :=
  ∃ out, r = some out ∧ out.length = n ∧ ∀ i y, k ≤ i → out[i]? = some y → P i y

/-- Among the bars `i - w .. i` the series is highest `a` bars before bar `i`, and lower at every bar after that. -/
def BarsSinceHigh (l : List ℝ) (w i a : ℕ) : Prop :=
  a ≤ w ∧ ∃ m, l[i - a]? = some m ∧ (∀ j x, i - w ≤ j → j ≤ i → l[j]? = some x → x ≤ m) ∧
    ∀ j x, i - a < j → j ≤ i → l[j]? = some x → x < m

/-- Among the bars `i - w .. i` the series is lowest `a` bars before bar `i`, and higher at every bar after that. -/
def BarsSinceLow (l : List ℝ) (w i a : ℕ) : Prop :=
  a ≤ w ∧ ∃ m, l[i - a]? = some m ∧ (∀ j x, i - w ≤ j → j ≤ i → l[j]? = some x → m ≤ x) ∧
    ∀ j x, i - a < j → j ≤ i → l[j]? = some x → m < x

/-- The true range of a bar with the given high and low after a bar with close `pc`. -/
noncomputable def trueRangeOf (h l pc : ℝ) : ℝ := max (h - l) (max |h - pc| |l - pc|)

/-- The true ranges of bars 1, 2, ... -/
noncomputable def trueRanges (high low close : List ℝ) : List ℝ :=
  (zip3 high.tail low.tail close).map fun p => trueRangeOf p.1 p.2.1 p.2.2

/-- Positive directional movement from one bar to the next: the rise of the high if it exceeds the fall of the low. -/
noncomputable def plusMove (ph h pl l : ℝ) : ℝ := if pl - l < h - ph then max 0 (h - ph) else 0

/-- Negative directional movement: the fall of the low if it exceeds the rise of the high. -/
noncomputable def minusMove (ph h pl l : ℝ) : ℝ := if h - ph < pl - l then max 0 (pl - l) else 0

/-- The typical price of a bar `(high, low, close, volume)`. -/
noncomputable def typical (b : ℝ × ℝ × ℝ × ℝ) : ℝ := (b.1 + b.2.1 + b.2.2.1) / 3

/-- Money flowing in at bars 1, 2, ...: typical price times volume where the typical price rose, else 0. -/
noncomputable def flowIn (high low close volume : List ℝ) : List ℝ :=
  (pairs (zip4 high low close volume)).map fun p => if typical p.1 < typical p.2 then typical p.2 * p.2.2.2.2 else 0

/-- Money flowing out at bars 1, 2, ...: typical price times volume where the typical price fell, else 0. -/
noncomputable def flowOut (high low close volume : List ℝ) : List ℝ :=
  (pairs (zip4 high low close volume)).map fun p => if typical p.2 < typical p.1 then typical p.2 * p.2.2.2.2 else 0

/-- The covariance of two equally long series (dividing by the number of values). -/
noncomputable def covar (xs ys : List ℝ) : ℝ := mean ((xs.zip ys).map fun p => (p.1 - mean xs) * (p.2 - mean ys))

/-- Pearson's correlation coefficient. -/
noncomputable def pearson (xs ys : List ℝ) : ℝ := covar xs ys / (stdDev xs * stdDev ys)

/-- `y` is the correlation coefficient of the two series, NaN if one of them is constant. -/
def CorrIs {ρ : Rounding} (xs ys : List ℝ) (y : FP ρ) : Prop :=
  (¬ Flat xs → ¬ Flat ys → y ⇓ pearson xs ys) ∧ (Flat xs ∨ Flat ys → y = nan)

/-- The ranks of the values of a series: one more than the number of smaller values. -/
noncomputable def ranksOf (xs : List ℝ) : List ℝ := xs.map fun x => ((xs.countP fun y => decide (y < x)) : ℝ) + 1

end Traquer
