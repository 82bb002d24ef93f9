import Verif.Props.ScaleVolatility
import Verif.Model.Momentum
/-!
# C78: a change of units, momentum
-/

namespace Traquer.Momentum
open FP FloatLit
open Traquer.Volatility (foldMax foldMin trueRange)
variable {ρ : Rounding} {k : ℝ} [ρ.Scales k] {data data' openp openp' high high' low low' close close' volume volume' : List (FP ρ)}

/-- one line of alligator -/
theorem alligatorLine_units (h : Each (Scaled k 1) data data') (win offset maxOffset : ℕ) :
    Alike (Each (Scaled k 1)) (Trend.alligatorLine data win offset maxOffset) (Trend.alligatorLine data' win offset maxOffset) := by
  units [Trend.alligatorLine]

units_rule alligatorLine_units

theorem alligator_units (h : Each (Scaled k 1) data data') (jawWin jawOffset teethWin teethOffset lipsWin lipsOffset : ℕ) :
    Alike (Each (Both (Scaled k 1) (Both (Scaled k 1) (Scaled k 1))))
      (Trend.alligator data jawWin jawOffset teethWin teethOffset lipsWin lipsOffset)
      (Trend.alligator data' jawWin jawOffset teethWin teethOffset lipsWin lipsOffset) := by
  units [Trend.alligator]

units_rule alligator_units

theorem sumPair_units {n m : ℤ} {l l' : List (FP ρ × FP ρ)} (h : Each (Both (Scaled k n) (Scaled k m)) l l') :
    Both (Scaled k n) (Scaled k m) (sumPair l) (sumPair l') := by
  units [sumPair]

theorem sumPair_fst_units {n m : ℤ} {l l' : List (FP ρ × FP ρ)} (h : Each (Both (Scaled k n) (Scaled k m)) l l') :
    Scaled k n (sumPair l).1 (sumPair l').1 := (sumPair_units h).1

theorem sumPair_snd_units {n m : ℤ} {l l' : List (FP ρ × FP ρ)} (h : Each (Both (Scaled k n) (Scaled k m)) l l') :
    Scaled k m (sumPair l).2 (sumPair l').2 := (sumPair_units h).2

units_rule sumPair_fst_units
units_rule sumPair_snd_units

theorem gains_units {n : ℤ} (h0 : Each (Scaled k n) data data') :
    Each (Scaled k n) (gains data) (gains data') := by
  units [gains]

units_rule gains_units

theorem losses_units {n : ℤ} (h0 : Each (Scaled k n) data data') :
    Each (Scaled k n) (losses data) (losses data') := by
  units [losses]

units_rule losses_units

theorem rsi_units {n : ℤ} (h0 : Each (Scaled k n) data data') (window : ℕ) :
    Alike (Each (Scaled k 0)) (rsi data window) (rsi data' window) := by
  units [rsi]

units_rule rsi_units

theorem streakStep_units : ∀ s s' : FP ρ × FP ρ, Both (Scaled k 0) (Scaled k 0) s s' → ∀ b b' : FP ρ × FP ρ, Both (Scaled k 1) (Scaled k 1) b b' →
    Both (Scaled k 0) (Scaled k 0) (streakStep s b) (streakStep s' b') := by
  units [streakStep]

units_rule streakStep_units

theorem crsi_units (h0 : Each (Scaled k 1) data data') (rsiWin streakWin rankWin : ℕ) :
    Alike (Each (Scaled k 0)) (crsi data rsiWin streakWin rankWin) (crsi data' rsiWin streakWin rankWin) := by
  have e : Each (Both (Scaled k 0) (Scaled k 0)) (scanS streakStep ((0, 0) : FP ρ × FP ρ) (pairs data))
      (scanS streakStep ((0, 0) : FP ρ × FP ρ) (pairs data')) := by
    repeat' units_step
  rw [each_both_zero] at e
  simp only [crsi, Option.bind_eq_bind]
  refine Alike.bind (rsi_units (k := k) h0 _) fun x y h => ?_
  rw [each_zero] at h
  rw [h, e]
  exact Alike.refl fun _ => each_lit

units_rule crsi_units

theorem macd_units (h0 : Each (Scaled k 1) close close') (short long : ℕ) :
    Alike (Each (Scaled k 1)) (macd close short long) (macd close' short long) := by
  units [macd]

units_rule macd_units

theorem cmo_units (h0 : Each (Scaled k 1) data data') (window : ℕ) :
    Alike (Each (Scaled k 0)) (cmo data window) (cmo data' window) := by
  units [cmo]

units_rule cmo_units

theorem cfo_units (h0 : Each (Scaled k 1) data data') (window : ℕ) :
    Alike (Each (Scaled k 0)) (cfo data window) (cfo data' window) := by
  units [cfo]

units_rule cfo_units

theorem elder_ray_units (h0 : Each (Scaled k 1) high high') (h1 : Each (Scaled k 1) low low') (h2 : Each (Scaled k 1) close close') (window : ℕ) :
    Alike (Each (Both (Scaled k 1) (Scaled k 1))) (elder_ray high low close window) (elder_ray high' low' close' window) := by
  units [elder_ray]

units_rule elder_ray_units

theorem wpr_units (h0 : Each (Scaled k 1) high high') (h1 : Each (Scaled k 1) low low') (h2 : Each (Scaled k 1) close close') (window : ℕ) :
    Alike (Each (Scaled k 0)) (wpr high low close window) (wpr high' low' close' window) := by
  units [wpr]

units_rule wpr_units

theorem ppo_units (h0 : Each (Scaled k 1) data data') (short long : ℕ) :
    Alike (Each (Scaled k 0)) (ppo data short long) (ppo data' short long) := by
  units [ppo]

units_rule ppo_units

theorem apo_units (h0 : Each (Scaled k 1) data data') (short long : ℕ) :
    Alike (Each (Scaled k 1)) (apo data short long) (apo data' short long) := by
  units [apo]

units_rule apo_units

theorem pmo_units (h0 : Each (Scaled k 1) data data') (win1 win2 : ℕ) :
    Alike (Each (Scaled k 0)) (pmo data win1 win2) (pmo data' win1 win2) := by
  units [pmo]

units_rule pmo_units

theorem bpTr_units (h0 : Each (Scaled k 1) high high') (h1 : Each (Scaled k 1) low low') (h2 : Each (Scaled k 1) close close') :
    Alike (Each (Both (Scaled k 1) (Scaled k 1))) (bpTr high low close) (bpTr high' low' close') := by
  units [bpTr]

units_rule bpTr_units

theorem ultimate_units (h0 : Each (Scaled k 1) high high') (h1 : Each (Scaled k 1) low low') (h2 : Each (Scaled k 1) close close') (win1 win2 win3 : ℕ) :
    Alike (Each (Scaled k 0)) (ultimate high low close win1 win2 win3) (ultimate high' low' close' win1 win2 win3) := by
  units [ultimate]

units_rule ultimate_units

theorem pgo_units (h0 : Each (Scaled k 1) high high') (h1 : Each (Scaled k 1) low low') (h2 : Each (Scaled k 1) close close') (window : ℕ) :
    Alike (Each (Scaled k 0)) (pgo high low close window) (pgo high' low' close' window) := by
  units [pgo]

units_rule pgo_units

/-- `limit` is a price difference -/
theorem swingTerm_units {limit limit' prevo prevo' o o' h h' l l' prevc prevc' c c' : FP ρ} (hl : Scaled k 1 limit limit') (h0 : Scaled k 1 prevo prevo')
    (h1 : Scaled k 1 o o') (h2 : Scaled k 1 h h') (h3 : Scaled k 1 l l') (h4 : Scaled k 1 prevc prevc') (h5 : Scaled k 1 c c') :
    Scaled k 0 (swingTerm limit prevo o h l prevc c) (swingTerm limit' prevo' o' h' l' prevc' c') := by
  units [swingTerm]

units_rule swingTerm_units

theorem swing_units {limit limit' : FP ρ} (h0 : Each (Scaled k 1) openp openp') (h1 : Each (Scaled k 1) high high') (h2 : Each (Scaled k 1) low low') (h3 : Each (Scaled k 1) close close') (h4 : Scaled k 1 limit limit') :
    Alike (Each (Scaled k 0)) (swing openp high low close limit) (swing openp' high' low' close' limit') := by
  units [swing]

units_rule swing_units

theorem si_units {limit limit' : FP ρ} (h0 : Each (Scaled k 1) openp openp') (h1 : Each (Scaled k 1) high high') (h2 : Each (Scaled k 1) low low') (h3 : Each (Scaled k 1) close close') (h4 : Scaled k 1 limit limit') :
    Alike (Each (Scaled k 0)) (si openp high low close limit) (si openp' high' low' close' limit') := by
  units [si]

units_rule si_units

theorem trix_units (h0 : Each (Scaled k 1) close close') (window : ℕ) :
    Alike (Each (Scaled k 0)) (trix close window) (trix close' window) := by
  units [trix]

units_rule trix_units

theorem tii_units (h0 : Each (Scaled k 1) data data') (window : ℕ) :
    Alike (Each (Scaled k 0)) (tii data window) (tii data' window) := by
  units [tii]

units_rule tii_units

theorem stoch_units (h0 : Each (Scaled k 1) high high') (h1 : Each (Scaled k 1) low low') (h2 : Each (Scaled k 1) close close') (window smoothWin : ℕ) :
    Alike (Each (Both (Scaled k 0) (Scaled k 0))) (stoch high low close window smoothWin) (stoch high' low' close' window smoothWin) := by
  units [stoch]

units_rule stoch_units

theorem stochastic_units (h0 : Each (Scaled k 1) high high') (h1 : Each (Scaled k 1) low low') (h2 : Each (Scaled k 1) close close') (window : ℕ) :
    Alike (Each (Both (Scaled k 0) (Scaled k 0))) (stochastic high low close window) (stochastic high' low' close' window) := by
  units [stochastic]

units_rule stochastic_units

theorem stcRaw_units {n : ℤ} (h0 : Each (Scaled k n) data data') (window smooth : ℕ) :
    Alike (Each (Scaled k 0)) (stcRaw data window smooth) (stcRaw data' window smooth) := by
  units [stcRaw]

units_rule stcRaw_units

theorem stc_units (h0 : Each (Scaled k 1) close close') (window short long : ℕ) :
    Alike (Each (Scaled k 0)) (stc close window short long) (stc close' window short long) := by
  units [stc]

units_rule stc_units

theorem vigorSmooth_units {n : ℤ} (h : Each (Scaled k n) data data') : Each (Scaled k n) (vigorSmooth data) (vigorSmooth data') := by
  rw [vigorSmooth, vigorSmooth]
  refine each_map (each_windowsOf h) fun x y hxy => ?_
  rcases hxy with _ | ⟨h0, _ | ⟨h1, _ | ⟨h2, _ | ⟨h3, _ | _⟩⟩⟩⟩ <;> repeat' units_step

units_rule vigorSmooth_units

theorem relative_vigor_units (h0 : Each (Scaled k 1) openp openp') (h1 : Each (Scaled k 1) high high') (h2 : Each (Scaled k 1) low low') (h3 : Each (Scaled k 1) close close') (window : ℕ) :
    Alike (Each (Scaled k 0)) (relative_vigor openp high low close window) (relative_vigor openp' high' low' close' window) := by
  units [relative_vigor]

units_rule relative_vigor_units

theorem coppock_units (h0 : Each (Scaled k 1) data data') (window short long : ℕ) :
    Alike (Each (Scaled k 0)) (coppock data window short long) (coppock data' window short long) := by
  units [coppock]

units_rule coppock_units

theorem roc_units (h0 : Each (Scaled k 1) data data') (window : ℕ) :
    Alike (Each (Scaled k 0)) (roc data window) (roc data' window) := by
  units [roc]

units_rule roc_units

theorem bal_power_units (h0 : Each (Scaled k 1) openp openp') (h1 : Each (Scaled k 1) high high') (h2 : Each (Scaled k 1) low low') (h3 : Each (Scaled k 1) close close') (window : ℕ) :
    Alike (Each (Scaled k 0)) (bal_power openp high low close window) (bal_power openp' high' low' close' window) := by
  units [bal_power]

units_rule bal_power_units

theorem disparity_units (h0 : Each (Scaled k 1) data data') (window : ℕ) :
    Alike (Each (Scaled k 0)) (disparity data window) (disparity data' window) := by
  units [disparity]

units_rule disparity_units

theorem qstick_units (h0 : Each (Scaled k 1) openp openp') (h1 : Each (Scaled k 1) close close') (window : ℕ) :
    Alike (Each (Scaled k 1)) (qstick openp close window) (qstick openp' close' window) := by
  units [qstick]

units_rule qstick_units

theorem cog_units (h0 : Each (Scaled k 1) data data') (window : ℕ) :
    Alike (Each (Scaled k 0)) (cog data window) (cog data' window) := by
  units [cog]

units_rule cog_units

theorem psych_units (h0 : Each (Scaled k 1) data data') (window : ℕ) :
    Alike (Each (Scaled k 0)) (psych data window) (psych data' window) := by
  units [psych]

units_rule psych_units

theorem tsi_units (h0 : Each (Scaled k 1) data data') (short long : ℕ) :
    Alike (Each (Scaled k 0)) (tsi data short long) (tsi data' short long) := by
  units [tsi]

units_rule tsi_units

theorem pringRoc_units (h : Each (Scaled k 1) data data') (r : ℕ) : pringRoc data r = pringRoc data' r := by
  have : Alike (Each (Scaled k 0)) (pringRoc data r) (pringRoc data' r) := by units [pringRoc]
  exact Alike.eq_of (fun _ _ => each_zero.1) this

theorem prings_units (h0 : Each (Scaled k 1) data data') (rocs periods : List ℕ) (multipliers : List (FP ρ)) :
    Alike (Each (Scaled k 0)) (prings data rocs periods multipliers) (prings data' rocs periods multipliers) := by
  have e : ∀ a b, pringStep data a b = pringStep data' a b := by
    intro a b; funext res p
    simp only [pringStep, pringRoc_units h0]
  simp only [prings, e, h0.length]
  exact Alike.refl fun _ => each_lit

units_rule prings_units

theorem special_k_units (h0 : Each (Scaled k 1) data data') :
    Alike (Each (Scaled k 0)) (special_k data) (special_k data') := by
  units [special_k]

units_rule special_k_units

theorem kst_units (h0 : Each (Scaled k 1) data data') (rocs periods : Option (ℕ × ℕ × ℕ × ℕ)) :
    Alike (Each (Scaled k 0)) (kst data rocs periods) (kst data' rocs periods) := by
  units [kst]

units_rule kst_units

theorem derivative_units (h0 : Each (Scaled k 1) data data') (win1 win2 signal : ℕ) :
    Alike (Each (Scaled k 0)) (derivative data win1 win2 signal) (derivative data' win1 win2 signal) := by
  simp only [derivative, Option.bind_eq_bind]
  refine Alike.bind (rsi_units (k := k) h0 _) fun x y h => ?_
  rw [each_zero] at h
  rw [h]
  exact Alike.refl fun _ => each_lit

units_rule derivative_units

theorem cci_units (h0 : Each (Scaled k 1) high high') (h1 : Each (Scaled k 1) low low') (h2 : Each (Scaled k 1) close close') (window : ℕ) :
    Alike (Each (Scaled k 0)) (cci high low close window) (cci high' low' close' window) := by
  units [cci]

units_rule cci_units

theorem qqe_units (h0 : Each (Scaled k 1) data data') (window smoothing : ℕ) :
    Alike (Each (Scaled k 0)) (qqe data window smoothing) (qqe data' window smoothing) := by
  simp only [qqe, Option.bind_eq_bind]
  refine Alike.bind (rsi_units (k := k) h0 _) fun x y h => ?_
  rw [each_zero] at h
  rw [h]
  exact Alike.refl fun _ => each_lit

units_rule qqe_units

theorem deli_units (h0 : Each (Scaled k 1) high high') (h1 : Each (Scaled k 1) low low') (window : ℕ) :
    Alike (Each (Scaled k 1)) (deli high low window) (deli high' low' window) := by
  units [deli]

units_rule deli_units

theorem gator_units (h0 : Each (Scaled k 1) data data') (jawWin jawOffset teethWin teethOffset lipsWin lipsOffset : ℕ) :
    Alike (Each (Both (Scaled k 1) (Scaled k 1))) (gator data jawWin jawOffset teethWin teethOffset lipsWin lipsOffset) (gator data' jawWin jawOffset teethWin teethOffset lipsWin lipsOffset) := by
  units [gator]

units_rule gator_units

theorem kdj_units (h0 : Each (Scaled k 1) high high') (h1 : Each (Scaled k 1) low low') (h2 : Each (Scaled k 1) close close') (kWin dWin : ℕ) (kFactor dFactor : Option (FP ρ)) :
    Alike (Each (Both (Scaled k 0) (Both (Scaled k 0) (Scaled k 0)))) (kdj high low close kWin dWin kFactor dFactor) (kdj high' low' close' kWin dWin kFactor dFactor) := by
  units [kdj]

units_rule kdj_units

end Traquer.Momentum
