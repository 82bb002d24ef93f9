import Verif.Spec.Averages
import Mathlib.Analysis.SpecialFunctions.Trigonometric.Arctan
/-!
# Specification of the MESA adaptive average

Ehlers' equations as relations between sequences indexed by the bar. Nothing here mentions queues or a state.
-/

namespace Traquer

/-- The price averaged over four bars with weights 4, 3, 2, 1 (the current bar has weight 4); 0 on the first three bars. -/
noncomputable def smooth4 (x : ℕ → ℝ) (i : ℕ) : ℝ :=
  if i < 3 then 0 else (4 * x i + 3 * x (i - 1) + 2 * x (i - 2) + x (i - 3)) / 10

/-- Ehlers' truncated Hilbert transform of a sequence at bar `i`, scaled by `t`. -/
noncomputable def hilbertAt (v : ℕ → ℝ) (t : ℝ) (i : ℕ) : ℝ :=
  (0.0962 * v i + 0.5769 * v (i - 2) - 0.5769 * v (i - 4) - 0.0962 * v (i - 6)) * t

/-- `v` limited to `lo..hi`. -/
noncomputable def limit (lo hi v : ℝ) : ℝ := max lo (min v hi)

/-- The period the discriminator suggests, in the code's units: 360 over an angle in radians. -/
noncomputable def rawPeriod (im re : ℝ) : ℝ := if im ≠ 0 ∧ re ≠ 0 then 360 / Real.arctan (im / re) else 0

/-- The sequences of the MESA adaptive average. -/
structure Mesa where
  /-- smoothed period -/
  period : ℕ → ℝ
  /-- detrended price -/
  detrend : ℕ → ℝ
  /-- in-phase component -/
  inPhase : ℕ → ℝ
  /-- quadrature component -/
  quad : ℕ → ℝ
  /-- smoothed in-phase component of the phasor -/
  i2 : ℕ → ℝ
  /-- smoothed quadrature component of the phasor -/
  q2 : ℕ → ℝ
  /-- real part of the discriminator -/
  re : ℕ → ℝ
  /-- imaginary part of the discriminator -/
  im : ℕ → ℝ
  /-- phase angle -/
  phase : ℕ → ℝ
  /-- gain -/
  gain : ℕ → ℝ
  /-- the adaptive average -/
  mama : ℕ → ℝ
  /-- the following adaptive average -/
  fama : ℕ → ℝ

/-- The sequences solve the equations of the MESA adaptive average for the prices `x 0, …, x (n - 1)`: everything is 0 before bar 6, and
from then on each bar satisfies the equations below. -/
structure Mesa.Solves (m : Mesa) (f s : ℝ) (x : ℕ → ℝ) (n : ℕ) : Prop where
  start : ∀ i, i < 6 → m.period i = 0 ∧ m.detrend i = 0 ∧ m.inPhase i = 0 ∧ m.quad i = 0 ∧ m.i2 i = 0 ∧ m.q2 i = 0 ∧
    m.re i = 0 ∧ m.im i = 0 ∧ m.phase i = 0 ∧ m.mama i = 0 ∧ m.fama i = 0
  detrend_at : ∀ i, 6 ≤ i → i < n → m.detrend i = hilbertAt (smooth4 x) (0.075 * m.period (i - 1) + 0.54) i
  quad_at : ∀ i, 6 ≤ i → i < n → m.quad i = hilbertAt m.detrend (0.075 * m.period (i - 1) + 0.54) i
  inPhase_at : ∀ i, 6 ≤ i → i < n → m.inPhase i = m.detrend (i - 3)
  i2_at : ∀ i, 6 ≤ i → i < n →
    m.i2 i = 0.2 * (m.inPhase i - hilbertAt m.quad (0.075 * m.period (i - 1) + 0.54) i) + 0.8 * m.i2 (i - 1)
  q2_at : ∀ i, 6 ≤ i → i < n →
    m.q2 i = 0.2 * (m.quad i + hilbertAt m.inPhase (0.075 * m.period (i - 1) + 0.54) i) + 0.8 * m.q2 (i - 1)
  re_at : ∀ i, 6 ≤ i → i < n → m.re i = 0.2 * (m.i2 i * m.i2 (i - 1) + m.q2 i * m.q2 (i - 1)) + 0.8 * m.re (i - 1)
  im_at : ∀ i, 6 ≤ i → i < n → m.im i = 0.2 * (m.i2 i * m.q2 (i - 1) - m.q2 i * m.i2 (i - 1)) + 0.8 * m.im (i - 1)
  period_at : ∀ i, 6 ≤ i → i < n → m.period i =
    0.2 * limit 6 50 (limit (0.67 * m.period (i - 1)) (1.5 * m.period (i - 1)) (rawPeriod (m.im i) (m.re i))) + 0.8 * m.period (i - 1)
  phase_at : ∀ i, 6 ≤ i → i < n → m.phase i = if m.inPhase i ≠ 0 then Real.arctan (m.quad i / m.inPhase i) else 0
  gain_at : ∀ i, 6 ≤ i → i < n → m.gain i = max (f / max (m.phase (i - 1) - m.phase i) 1) s
  mama_at : ∀ i, 6 ≤ i → i < n → m.mama i = m.gain i * x i + (1 - m.gain i) * m.mama (i - 1)
  fama_at : ∀ i, 6 ≤ i → i < n → m.fama i = 0.5 * m.gain i * m.mama i + (1 - 0.5 * m.gain i) * m.fama (i - 1)

end Traquer
