import Verif.Spec.Flow
/-!
# Trailing stops over the reals

Written from the published rules (Wilder's stop and reverse), not from the code.
-/

namespace Traquer

/-- A stop and reverse system: the stop, the best price of the trade, the acceleration factor and the direction. -/
structure Sar where
  stop : ℝ
  best : ℝ
  factor : ℝ
  falling : Bool

/-- One bar. The stop moves towards the best price by the acceleration factor. If the bar crosses it the trade is reversed: the stop is
then the best price of the finished trade. Otherwise it is kept outside this bar and the bar before the previous one, and each new best
price raises the factor by its increment, up to the cap. -/
noncomputable def Sar.next (inc cap : ℝ) (s : Sar) (oldHigh oldLow high low : ℝ) : Sar :=
  let moved := s.stop + s.factor * (s.best - s.stop)
  if s.falling then
    if moved < high then { stop := min s.best low, best := high, factor := inc, falling := false }
    else { stop := max (max oldHigh high) moved, best := min s.best low, falling := true,
           factor := if low < s.best then min (s.factor + inc) cap else s.factor }
  else
    if low < moved then { stop := max s.best high, best := low, factor := inc, falling := true }
    else { stop := min (min oldLow low) moved, best := max s.best high, falling := false,
           factor := if s.best < high then min (s.factor + inc) cap else s.factor }

/-- The system after bar `i`, which starts falling with the first bar's high as the stop. -/
noncomputable def sarAt (high low : List ℝ) (inc cap : ℝ) : ℕ → Sar
  | 0 => { stop := bar high 0, best := bar low 0, factor := inc, falling := true }
  | i + 1 => (sarAt high low inc cap i).next inc cap (bar high (i - 1)) (bar low (i - 1)) (bar high (i + 1)) (bar low (i + 1))

/-- Two bands around the price and the direction of the trend. -/
structure Bands where
  lower : ℝ
  upper : ℝ
  rising : Bool

/-- The band followed in the direction of the trend. -/
def Bands.stop (s : Bands) : ℝ := if s.rising then s.lower else s.upper

/-- One bar of the supertrend rules: `a` is the average true range, `pc` the previous close. The bands are `k` average true ranges from
the middle of the bar, but the lower one does not fall while the previous close is above it and the upper one does not rise while the
previous close is below it. The trend turns when the close leaves the previous bands. -/
noncomputable def Bands.next (k : ℝ) (s : Bands) (a high low close pc : ℝ) : Bands where
  lower := if s.lower < pc then max s.lower ((high + low) / 2 - k * a) else (high + low) / 2 - k * a
  upper := if pc < s.upper then min s.upper ((high + low) / 2 + k * a) else (high + low) / 2 + k * a
  rising := if s.upper < close then true else if close < s.lower then false else s.rising

/-- The average true range at bar `i`. -/
noncomputable def atrOf (high low close : List ℝ) (w i : ℕ) : ℝ := wilderOf w (trueRanges high low close) (i - 1)

/-- The supertrend bands at bar `i`, starting at bar `w` with a rising trend. -/
noncomputable def bandsAt (high low close : List ℝ) (w : ℕ) (k : ℝ) : ℕ → Bands
  | 0 => ⟨(bar high 0 + bar low 0) / 2 - k * atrOf high low close w 0, (bar high 0 + bar low 0) / 2 + k * atrOf high low close w 0, true⟩
  | i + 1 =>
    if i + 1 ≤ w then
      ⟨(bar high (i + 1) + bar low (i + 1)) / 2 - k * atrOf high low close w (i + 1),
        (bar high (i + 1) + bar low (i + 1)) / 2 + k * atrOf high low close w (i + 1), true⟩
    else (bandsAt high low close w k i).next k (atrOf high low close w (i + 1)) (bar high (i + 1)) (bar low (i + 1)) (bar close (i + 1))
      (bar close i)

/-- A trailing stop and the direction it is followed in. -/
structure Trail where
  stop : ℝ
  rising : Bool

/-- One bar of a stop that trails the close by `d`: it only moves in the direction of the trend, and jumps to the other side of the close
when the close crosses it. -/
noncomputable def Trail.next (s : Trail) (close d : ℝ) : Trail :=
  if s.rising then
    if close < max s.stop (close - d) then ⟨close + d, false⟩ else ⟨max s.stop (close - d), true⟩
  else
    if min s.stop (close + d) < close then ⟨close - d, true⟩ else ⟨min s.stop (close + d), false⟩

/-- The stop at bar `i`, `k` average true ranges from the close. It starts at bar `w`, rising, from a stop at zero. -/
noncomputable def trailAt (high low close : List ℝ) (w : ℕ) (k : ℝ) : ℕ → Trail
  | 0 => ⟨0, true⟩
  | i + 1 => if i + 1 < w then ⟨0, true⟩ else
    (trailAt high low close w k i).next (bar close (i + 1)) (k * atrOf high low close w (i + 1))

end Traquer
