import Verif.Props.ScaleSmooth
import Verif.Model.Volatility
/-!
# C78: a change of units, volatility
-/

namespace Traquer.Volatility
open FP FloatLit
variable {ρ : Rounding} {k : ℝ} [ρ.Scales k] {data data' openp openp' high high' low low' close close' : List (FP ρ)}

theorem foldMax_units {n : ℤ} (h : Each (Scaled k n) data data') : Scaled k n (foldMax data) (foldMax data') := Scaled.foldl_fmax .nan h
theorem foldMin_units {n : ℤ} (h : Each (Scaled k n) data data') : Scaled k n (foldMin data) (foldMin data') := Scaled.foldl_fmin .nan h

units_rule foldMax_units
units_rule foldMin_units

theorem argBest_units {n : ℤ} {better : FP ρ → FP ρ → Bool}
    (hb : ∀ x x' : FP ρ, Scaled k n x x' → ∀ y y', Scaled k n y y' → better x y = better x' y') (h : Each (Scaled k n) data data') :
    Alike Eq (argBest better data) (argBest better data') := by
  units [argBest]
  exact hb _ _ ‹_› _ _ ‹_›

units_rule argBest_units

theorem mass_units (h0 : Each (Scaled k 1) high high') (h1 : Each (Scaled k 1) low low') (short long : ℕ) :
    Alike (Each (Scaled k 0)) (mass high low short long) (mass high' low' short long) := by
  units [mass]

units_rule mass_units

theorem trueRange_units (h0 : Each (Scaled k 1) high high') (h1 : Each (Scaled k 1) low low') (h2 : Each (Scaled k 1) close close') :
    Alike (Each (Scaled k 1)) (trueRange high low close) (trueRange high' low' close') := by
  units [trueRange]

units_rule trueRange_units

theorem tr_units (h0 : Each (Scaled k 1) high high') (h1 : Each (Scaled k 1) low low') (h2 : Each (Scaled k 1) close close') :
    Alike (Each (Scaled k 1)) (tr high low close) (tr high' low' close') := by
  units [tr]

units_rule tr_units

theorem atr_units (h0 : Each (Scaled k 1) high high') (h1 : Each (Scaled k 1) low low') (h2 : Each (Scaled k 1) close close') (window : ℕ) :
    Alike (Each (Scaled k 1)) (atr high low close window) (atr high' low' close' window) := by
  units [atr]

units_rule atr_units

theorem keltner_units (h0 : Each (Scaled k 1) high high') (h1 : Each (Scaled k 1) low low') (h2 : Each (Scaled k 1) close close') (window : ℕ) :
    Alike (Each (Both (Scaled k 1) (Both (Scaled k 1) (Scaled k 1)))) (keltner high low close window) (keltner high' low' close' window) := by
  units [keltner]

units_rule keltner_units

theorem typical_units (h0 : Each (Scaled k 1) high high') (h1 : Each (Scaled k 1) low low') (h2 : Each (Scaled k 1) close close') (window : ℕ) :
    Alike (Each (Scaled k 1)) (typical high low close window) (typical high' low' close' window) := by
  units [typical]

units_rule typical_units

theorem Distribution_std_dev_units {n : ℤ} (h : Each (Scaled k n) data data') (window : ℕ) :
    Alike (Each (Scaled k n)) (Distribution.std_dev data window) (Distribution.std_dev data' window) := by
  units [Distribution.std_dev]

units_rule Distribution_std_dev_units

theorem std_dev_units (h0 : Each (Scaled k 1) data data') (window : ℕ) (deviations : Option (FP ρ)) :
    Alike (Each (Scaled k 1)) (std_dev data window deviations) (std_dev data' window deviations) := by
  units [std_dev]

units_rule std_dev_units

theorem bbands_units (h0 : Each (Scaled k 1) data data') (window : ℕ) (deviations : Option (FP ρ)) (mamode : Option Smooth.MaMode) :
    Alike (Each (Both (Scaled k 1) (Both (Scaled k 1) (Scaled k 1)))) (bbands data window deviations mamode) (bbands data' window deviations mamode) := by
  units [bbands]

units_rule bbands_units

theorem donchian_units (h0 : Each (Scaled k 1) high high') (h1 : Each (Scaled k 1) low low') (window : ℕ) :
    Alike (Each (Both (Scaled k 1) (Both (Scaled k 1) (Scaled k 1)))) (donchian high low window) (donchian high' low' window) := by
  units [donchian]

units_rule donchian_units

theorem fbands_units (h0 : Each (Scaled k 1) high high') (h1 : Each (Scaled k 1) low low') :
    Alike (Each (Both (Scaled k 1) (Scaled k 1))) (fbands high low) (fbands high' low') := by
  units [fbands]

units_rule fbands_units

theorem hv_units (h0 : Each (Scaled k 1) data data') (window : ℕ) (deviations : Option (FP ρ)) :
    Alike (Each (Scaled k 0)) (hv data window deviations) (hv data' window deviations) := by
  units [hv]

units_rule hv_units

theorem starc_units (h0 : Each (Scaled k 1) high high') (h1 : Each (Scaled k 1) low low') (h2 : Each (Scaled k 1) close close') (window maWindow : ℕ) (multiplier : Option (FP ρ)) :
    Alike (Each (Both (Scaled k 1) (Scaled k 1))) (starc high low close window maWindow multiplier) (starc high' low' close' window maWindow multiplier) := by
  units [starc]

units_rule starc_units

theorem cvi_units (h0 : Each (Scaled k 1) high high') (h1 : Each (Scaled k 1) low low') (window rateOfChange : ℕ) :
    Alike (Each (Scaled k 0)) (cvi high low window rateOfChange) (cvi high' low' window rateOfChange) := by
  units [cvi]

units_rule cvi_units

theorem relative_vol_units (h0 : Each (Scaled k 1) close close') (window smoothing : ℕ) :
    Alike (Each (Scaled k 0)) (relative_vol close window smoothing) (relative_vol close' window smoothing) := by
  units [relative_vol]

units_rule relative_vol_units

theorem inertia_units (h0 : Each (Scaled k 1) close close') (window smoothing : ℕ) :
    Alike (Each (Scaled k 0)) (inertia close window smoothing) (inertia close' window smoothing) := by
  units [inertia]

units_rule inertia_units

theorem chop_units (h0 : Each (Scaled k 1) high high') (h1 : Each (Scaled k 1) low low') (h2 : Each (Scaled k 1) close close') (window : ℕ) :
    Alike (Each (Scaled k 0)) (chop high low close window) (chop high' low' close' window) := by
  units [chop]

units_rule chop_units

theorem vhf_units (h0 : Each (Scaled k 1) high high') (h1 : Each (Scaled k 1) low low') (h2 : Each (Scaled k 1) close close') (window : ℕ) :
    Alike (Each (Scaled k 0)) (vhf high low close window) (vhf high' low' close' window) := by
  units [vhf]

units_rule vhf_units

theorem haStep_units : ∀ s s' : FP ρ × FP ρ, Both (Scaled k 1) (Scaled k 1) s s' → ∀ b b' : FP ρ × FP ρ × FP ρ × FP ρ,
    Both (Scaled k 1) (Both (Scaled k 1) (Both (Scaled k 1) (Scaled k 1))) b b' →
    Both (Both (Scaled k 1) (Scaled k 1)) (Both (Scaled k 1) (Both (Scaled k 1) (Both (Scaled k 1) (Scaled k 1)))) (haStep s b) (haStep s' b') := by
  units [haStep]

units_rule haStep_units

theorem heikin_ashi_units (h0 : Each (Scaled k 1) openp openp') (h1 : Each (Scaled k 1) high high') (h2 : Each (Scaled k 1) low low') (h3 : Each (Scaled k 1) close close') :
    Alike (Each (Both (Scaled k 1) (Both (Scaled k 1) (Both (Scaled k 1) (Scaled k 1))))) (heikin_ashi openp high low close) (heikin_ashi openp' high' low' close') := by
  units [heikin_ashi]

units_rule heikin_ashi_units

theorem wcp_units (h0 : Each (Scaled k 1) high high') (h1 : Each (Scaled k 1) low low') (h2 : Each (Scaled k 1) close close') :
    Each (Scaled k 1) (wcp high low close) (wcp high' low' close') := by
  units [wcp]

units_rule wcp_units

theorem cc_hv_units (h0 : Each (Scaled k 1) data data') (window : ℕ) :
    Alike (Each (Scaled k 0)) (cc_hv data window) (cc_hv data' window) := by
  units [cc_hv]

units_rule cc_hv_units

theorem gkyz_hv_units (h0 : Each (Scaled k 1) openp openp') (h1 : Each (Scaled k 1) high high') (h2 : Each (Scaled k 1) low low') (h3 : Each (Scaled k 1) close close') (window : ℕ) :
    Alike (Each (Scaled k 0)) (gkyz_hv openp high low close window) (gkyz_hv openp' high' low' close' window) := by
  units [gkyz_hv, gkyzTerm]

units_rule gkyz_hv_units

end Traquer.Volatility
