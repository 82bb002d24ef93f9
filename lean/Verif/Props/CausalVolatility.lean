import Verif.Props.CausalSmooth
import Verif.Props.ShapeVolatility
/-!
# C10: no look-ahead in the volatility indicators
-/

namespace Traquer.Volatility
open FloatLit
variable {F : Type} [FloatOps F]

theorem mass_or {high high' low low' : List F} (h0 : high <+: high') (h1 : low <+: low') (short long : Nat) :
    OR Pre (mass high low short long) (mass high' low' short long) := by
  causal [mass]

macro_rules | `(tactic| causal_fn) => `(tactic| (with_reducible apply mass_or))

theorem mass_causal (short long : Nat) : Causal fun l : List (Candle F) => mass (l.map Candle.high) (l.map Candle.low) short long :=
  causal_of_or fun _ _ h => mass_or (h.map _) (h.map _) short long

/-- no look-ahead -/
theorem mass_noLookahead (short long : Nat) (hs : 1 ≤ short) (hlo : 1 ≤ long) :
    NoLookahead (long - 1 + 2 * (short - 1) + 1) fun l : List (Candle F) => mass (l.map Candle.high) (l.map Candle.low) short long :=
  noLookahead_of (fun l hl => by simpa only [List.length_map] using
    (mass_aligned (l.map Candle.high) (l.map Candle.low) short long (by simp) hs hlo (by simp only [List.length_map]; omega)).yields) (mass_causal short long)

theorem trueRange_or {high high' low low' close close' : List F} (h0 : high <+: high') (h1 : low <+: low') (h2 : close <+: close')  :
    OR Pre (trueRange high low close) (trueRange high' low' close') := by
  causal [trueRange]

macro_rules | `(tactic| causal_fn) => `(tactic| (with_reducible apply trueRange_or))

theorem tr_or {high high' low low' close close' : List F} (h0 : high <+: high') (h1 : low <+: low') (h2 : close <+: close')  :
    OR Pre (tr high low close) (tr high' low' close') := by
  causal [tr]

macro_rules | `(tactic| causal_fn) => `(tactic| (with_reducible apply tr_or))

theorem tr_causal  : Causal fun l : List (Candle F) => tr (l.map Candle.high) (l.map Candle.low) (l.map Candle.close) :=
  causal_of_or fun _ _ h => tr_or (h.map _) (h.map _) (h.map _) 

/-- no look-ahead -/
theorem tr_noLookahead   :
    NoLookahead (1) fun l : List (Candle F) => tr (l.map Candle.high) (l.map Candle.low) (l.map Candle.close) :=
  noLookahead_of (fun l hl => by simpa only [List.length_map] using
    (tr_aligned (l.map Candle.high) (l.map Candle.low) (l.map Candle.close) (by simp) (by simp) (by simp only [List.length_map]; omega)).yields) (tr_causal )

theorem atr_or {high high' low low' close close' : List F} (h0 : high <+: high') (h1 : low <+: low') (h2 : close <+: close') (window : Nat) :
    OR Pre (atr high low close window) (atr high' low' close' window) := by
  causal [atr]

macro_rules | `(tactic| causal_fn) => `(tactic| (with_reducible apply atr_or))

theorem atr_causal (window : Nat) : Causal fun l : List (Candle F) => atr (l.map Candle.high) (l.map Candle.low) (l.map Candle.close) window :=
  causal_of_or fun _ _ h => atr_or (h.map _) (h.map _) (h.map _) window

/-- no look-ahead -/
theorem atr_noLookahead (window : Nat) (hw : 1 ≤ window) :
    NoLookahead (window) fun l : List (Candle F) => atr (l.map Candle.high) (l.map Candle.low) (l.map Candle.close) window :=
  noLookahead_of (fun l hl => by simpa only [List.length_map] using
    (atr_aligned (l.map Candle.high) (l.map Candle.low) (l.map Candle.close) window (by simp) (by simp) hw (by simp only [List.length_map]; omega)).yields) (atr_causal window)

theorem keltner_or {high high' low low' close close' : List F} (h0 : high <+: high') (h1 : low <+: low') (h2 : close <+: close') (window : Nat) :
    OR Pre (keltner high low close window) (keltner high' low' close' window) := by
  causal [keltner]

macro_rules | `(tactic| causal_fn) => `(tactic| (with_reducible apply keltner_or))

theorem keltner_causal (window : Nat) : Causal fun l : List (Candle F) => keltner (l.map Candle.high) (l.map Candle.low) (l.map Candle.close) window :=
  causal_of_or fun _ _ h => keltner_or (h.map _) (h.map _) (h.map _) window

/-- no look-ahead -/
theorem keltner_noLookahead (window : Nat) (hw : 1 ≤ window) :
    NoLookahead (window) fun l : List (Candle F) => keltner (l.map Candle.high) (l.map Candle.low) (l.map Candle.close) window :=
  noLookahead_of (fun l hl => by simpa only [List.length_map] using
    (keltner_aligned (l.map Candle.high) (l.map Candle.low) (l.map Candle.close) window (by simp) (by simp) hw (by simp only [List.length_map]; omega)).yields) (keltner_causal window)

theorem gri_or {high high' low low' : List F} (h0 : high <+: high') (h1 : low <+: low') (window : Nat) :
    OR Pre (gri high low window) (gri high' low' window) := by
  causal [gri]

macro_rules | `(tactic| causal_fn) => `(tactic| (with_reducible apply gri_or))

theorem gri_causal (window : Nat) : Causal fun l : List (Candle F) => gri (l.map Candle.high) (l.map Candle.low) window :=
  causal_of_or fun _ _ h => gri_or (h.map _) (h.map _) window

/-- no look-ahead -/
theorem gri_noLookahead (window : Nat) (hw : 1 ≤ window) :
    NoLookahead (window - 1) fun l : List (Candle F) => gri (l.map Candle.high) (l.map Candle.low) window :=
  noLookahead_of (fun l hl => by simpa only [List.length_map] using
    (gri_aligned (l.map Candle.high) (l.map Candle.low) window (by simp) hw (by simp only [List.length_map]; omega)).yields) (gri_causal window)

theorem typical_or {high high' low low' close close' : List F} (h0 : high <+: high') (h1 : low <+: low') (h2 : close <+: close') (window : Nat) :
    OR Pre (typical high low close window) (typical high' low' close' window) := by
  causal [typical]

macro_rules | `(tactic| causal_fn) => `(tactic| (with_reducible apply typical_or))

theorem typical_causal (window : Nat) : Causal fun l : List (Candle F) => typical (l.map Candle.high) (l.map Candle.low) (l.map Candle.close) window :=
  causal_of_or fun _ _ h => typical_or (h.map _) (h.map _) (h.map _) window

/-- no look-ahead -/
theorem typical_noLookahead (window : Nat) (hw : 1 ≤ window) :
    NoLookahead (window - 1) fun l : List (Candle F) => typical (l.map Candle.high) (l.map Candle.low) (l.map Candle.close) window :=
  noLookahead_of (fun l hl => by simpa only [List.length_map] using
    (typical_aligned (l.map Candle.high) (l.map Candle.low) (l.map Candle.close) window (by simp) (by simp) hw (by simp only [List.length_map]; omega)).yields) (typical_causal window)

theorem std_dev_or {data data' : List F} (h0 : data <+: data') (window : Nat) (devs : Option F) :
    OR Pre (std_dev data window devs) (std_dev data' window devs) := by
  causal [std_dev, Distribution.std_dev]

macro_rules | `(tactic| causal_fn) => `(tactic| (with_reducible apply std_dev_or))

theorem std_dev_causal (window : Nat) (devs : Option F) : Causal fun l : List F => std_dev l window devs :=
  causal_of_or fun _ _ h => std_dev_or h window devs

/-- no look-ahead -/
theorem std_dev_noLookahead (window : Nat) (devs : Option F) (hw : 1 ≤ window) :
    NoLookahead (window - 1) fun l : List F => std_dev l window devs :=
  noLookahead_of (fun l hl => by simpa only [List.length_map] using
    (std_dev_aligned l window devs hw (by omega)).yields) (std_dev_causal window devs)

theorem bbands_or {data data' : List F} (h0 : data <+: data') (window : Nat) (devs : Option F) (mode : Option Smooth.MaMode) :
    OR Pre (bbands data window devs mode) (bbands data' window devs mode) := by
  causal [bbands]

macro_rules | `(tactic| causal_fn) => `(tactic| (with_reducible apply bbands_or))

theorem bbands_causal (window : Nat) (devs : Option F) (mode : Option Smooth.MaMode) : Causal fun l : List F => bbands l window devs mode :=
  causal_of_or fun _ _ h => bbands_or h window devs mode

/-- no look-ahead -/
theorem bbands_noLookahead (window r : Nat) (devs : Option F) (mode : Option Smooth.MaMode) (hw : 1 ≤ window) (hr : toUsize (floor (sqrt (flt window : F))) = r) (h1 : 1 ≤ r)
    (hp : mode.getD .EWMA = .Pascal → window ≤ 63) :
    NoLookahead (max (Smooth.maWarmUp window r (mode.getD .EWMA) + 1) (window)) fun l : List F => bbands l window devs mode :=
  noLookahead_of (fun l hl => by simpa only [List.length_map] using
    (bbands_aligned l window r devs mode hw hr h1 hp (by omega) (by omega)).yields) (bbands_causal window devs mode)

theorem donchian_or {high high' low low' : List F} (h0 : high <+: high') (h1 : low <+: low') (window : Nat) :
    OR Pre (donchian high low window) (donchian high' low' window) := by
  causal [donchian]

macro_rules | `(tactic| causal_fn) => `(tactic| (with_reducible apply donchian_or))

theorem donchian_causal (window : Nat) : Causal fun l : List (Candle F) => donchian (l.map Candle.high) (l.map Candle.low) window :=
  causal_of_or fun _ _ h => donchian_or (h.map _) (h.map _) window

/-- no look-ahead -/
theorem donchian_noLookahead (window : Nat) (hw : 1 ≤ window) :
    NoLookahead (window - 1) fun l : List (Candle F) => donchian (l.map Candle.high) (l.map Candle.low) window :=
  noLookahead_of (fun l hl => by simpa only [List.length_map] using
    (donchian_aligned (l.map Candle.high) (l.map Candle.low) window (by simp) hw (by simp only [List.length_map]; omega)).yields) (donchian_causal window)

theorem fbands_or {high high' low low' : List F} (h0 : high <+: high') (h1 : low <+: low')  :
    OR Pre (fbands high low) (fbands high' low') := by
  causal [fbands]

macro_rules | `(tactic| causal_fn) => `(tactic| (with_reducible apply fbands_or))

theorem fbands_causal  : Causal fun l : List (Candle F) => fbands (l.map Candle.high) (l.map Candle.low) :=
  causal_of_or fun _ _ h => fbands_or (h.map _) (h.map _) 

/-- no look-ahead -/
theorem fbands_noLookahead   :
    NoLookahead (4) fun l : List (Candle F) => fbands (l.map Candle.high) (l.map Candle.low) :=
  noLookahead_of (fun l hl => by simpa only [List.length_map] using
    (fbands_aligned (l.map Candle.high) (l.map Candle.low) (by simp) (by simp only [List.length_map]; omega)).yields) (fbands_causal )

theorem hv_or {data data' : List F} (h0 : data <+: data') (window : Nat) (devs : Option F) :
    OR Pre (hv data window devs) (hv data' window devs) := by
  causal [hv]

macro_rules | `(tactic| causal_fn) => `(tactic| (with_reducible apply hv_or))

theorem hv_causal (window : Nat) (devs : Option F) : Causal fun l : List F => hv l window devs :=
  causal_of_or fun _ _ h => hv_or h window devs

/-- no look-ahead -/
theorem hv_noLookahead (window : Nat) (devs : Option F) (hw : 1 ≤ window) :
    NoLookahead (window) fun l : List F => hv l window devs :=
  noLookahead_of (fun l hl => by simpa only [List.length_map] using
    (hv_aligned l window devs hw (by omega)).yields) (hv_causal window devs)

theorem starc_or {high high' low low' close close' : List F} (h0 : high <+: high') (h1 : low <+: low') (h2 : close <+: close') (window maWindow : Nat) (mult : Option F) :
    OR Pre (starc high low close window maWindow mult) (starc high' low' close' window maWindow mult) := by
  causal [starc]

macro_rules | `(tactic| causal_fn) => `(tactic| (with_reducible apply starc_or))

theorem starc_causal (window maWindow : Nat) (mult : Option F) : Causal fun l : List (Candle F) => starc (l.map Candle.high) (l.map Candle.low) (l.map Candle.close) window maWindow mult :=
  causal_of_or fun _ _ h => starc_or (h.map _) (h.map _) (h.map _) window maWindow mult

/-- no look-ahead -/
theorem starc_noLookahead (window maWindow : Nat) (mult : Option F) (hw : 1 ≤ window) (hm : 1 ≤ maWindow) :
    NoLookahead (max (window) (maWindow - 1)) fun l : List (Candle F) => starc (l.map Candle.high) (l.map Candle.low) (l.map Candle.close) window maWindow mult :=
  noLookahead_of (fun l hl => by simpa only [List.length_map] using
    (starc_aligned (l.map Candle.high) (l.map Candle.low) (l.map Candle.close) window maWindow mult (by simp) (by simp) hw hm (by simp only [List.length_map]; omega) (by simp only [List.length_map]; omega)).yields) (starc_causal window maWindow mult)

theorem cvi_or {high high' low low' : List F} (h0 : high <+: high') (h1 : low <+: low') (window rateOfChange : Nat) :
    OR Pre (cvi high low window rateOfChange) (cvi high' low' window rateOfChange) := by
  causal [cvi]

macro_rules | `(tactic| causal_fn) => `(tactic| (with_reducible apply cvi_or))

theorem cvi_causal (window rateOfChange : Nat) : Causal fun l : List (Candle F) => cvi (l.map Candle.high) (l.map Candle.low) window rateOfChange :=
  causal_of_or fun _ _ h => cvi_or (h.map _) (h.map _) window rateOfChange

/-- no look-ahead -/
theorem cvi_noLookahead (window rateOfChange : Nat) (hw : 1 ≤ window) :
    NoLookahead (max (window) (rateOfChange + (window - 1))) fun l : List (Candle F) => cvi (l.map Candle.high) (l.map Candle.low) window rateOfChange :=
  noLookahead_of (fun l hl => by simpa only [List.length_map] using
    (cvi_aligned (l.map Candle.high) (l.map Candle.low) window rateOfChange (by simp) hw (by simp only [List.length_map]; omega) (by simp only [List.length_map]; omega)).yields) (cvi_causal window rateOfChange)

theorem relative_vol_or {close close' : List F} (h0 : close <+: close') (window smoothing : Nat) :
    OR Pre (relative_vol close window smoothing) (relative_vol close' window smoothing) := by
  causal [relative_vol]

macro_rules | `(tactic| causal_fn) => `(tactic| (with_reducible apply relative_vol_or))

theorem relative_vol_causal (window smoothing : Nat) : Causal fun l : List F => relative_vol l window smoothing :=
  causal_of_or fun _ _ h => relative_vol_or h window smoothing

/-- no look-ahead -/
theorem relative_vol_noLookahead (window smoothing : Nat) (hw : 2 ≤ window) (hs : 1 ≤ smoothing) :
    NoLookahead (window - 1 + (smoothing - 1) + 1) fun l : List F => relative_vol l window smoothing :=
  noLookahead_of (fun l hl => by simpa only [List.length_map] using
    (relative_vol_aligned l window smoothing hw hs (by omega)).yields) (relative_vol_causal window smoothing)

theorem inertia_or {close close' : List F} (h0 : close <+: close') (window smoothing : Nat) :
    OR Pre (inertia close window smoothing) (inertia close' window smoothing) := by
  causal [inertia]

macro_rules | `(tactic| causal_fn) => `(tactic| (with_reducible apply inertia_or))

theorem inertia_causal (window smoothing : Nat) : Causal fun l : List F => inertia l window smoothing :=
  causal_of_or fun _ _ h => inertia_or h window smoothing

/-- no look-ahead -/
theorem inertia_noLookahead (window smoothing : Nat) (hw : 2 ≤ window) (hs : 1 ≤ smoothing) :
    NoLookahead (2 * (window - 1) + (smoothing - 1) + 1) fun l : List F => inertia l window smoothing :=
  noLookahead_of (fun l hl => by simpa only [List.length_map] using
    (inertia_aligned l window smoothing hw hs (by omega)).yields) (inertia_causal window smoothing)

theorem chop_or {high high' low low' close close' : List F} (h0 : high <+: high') (h1 : low <+: low') (h2 : close <+: close') (window : Nat) :
    OR Pre (chop high low close window) (chop high' low' close' window) := by
  causal [chop]

macro_rules | `(tactic| causal_fn) => `(tactic| (with_reducible apply chop_or))

theorem chop_causal (window : Nat) : Causal fun l : List (Candle F) => chop (l.map Candle.high) (l.map Candle.low) (l.map Candle.close) window :=
  causal_of_or fun _ _ h => chop_or (h.map _) (h.map _) (h.map _) window

/-- no look-ahead -/
theorem chop_noLookahead (window : Nat) (hw : 1 ≤ window) :
    NoLookahead (window) fun l : List (Candle F) => chop (l.map Candle.high) (l.map Candle.low) (l.map Candle.close) window :=
  noLookahead_of (fun l hl => by simpa only [List.length_map] using
    (chop_aligned (l.map Candle.high) (l.map Candle.low) (l.map Candle.close) window (by simp) (by simp) hw (by simp only [List.length_map]; omega)).yields) (chop_causal window)

theorem vhf_or {high high' low low' close close' : List F} (h0 : high <+: high') (h1 : low <+: low') (h2 : close <+: close') (window : Nat) :
    OR Pre (vhf high low close window) (vhf high' low' close' window) := by
  causal [vhf]

macro_rules | `(tactic| causal_fn) => `(tactic| (with_reducible apply vhf_or))

theorem vhf_causal (window : Nat) : Causal fun l : List (Candle F) => vhf (l.map Candle.high) (l.map Candle.low) (l.map Candle.close) window :=
  causal_of_or fun _ _ h => vhf_or (h.map _) (h.map _) (h.map _) window

/-- no look-ahead -/
theorem vhf_noLookahead (window : Nat) (hw : 1 ≤ window) :
    NoLookahead (window) fun l : List (Candle F) => vhf (l.map Candle.high) (l.map Candle.low) (l.map Candle.close) window :=
  noLookahead_of (fun l hl => by simpa only [List.length_map] using
    (vhf_aligned (l.map Candle.high) (l.map Candle.low) (l.map Candle.close) window (by simp) (by simp) hw (by simp only [List.length_map]; omega)).yields) (vhf_causal window)

theorem heikin_ashi_or {openp openp' high high' low low' close close' : List F} (h0 : openp <+: openp') (h1 : high <+: high') (h2 : low <+: low') (h3 : close <+: close')  :
    OR Pre (heikin_ashi openp high low close) (heikin_ashi openp' high' low' close') := by
  causal [heikin_ashi]

macro_rules | `(tactic| causal_fn) => `(tactic| (with_reducible apply heikin_ashi_or))

theorem heikin_ashi_causal  : Causal fun l : List (Candle F) => heikin_ashi (l.map Candle.openp) (l.map Candle.high) (l.map Candle.low) (l.map Candle.close) :=
  causal_of_or fun _ _ h => heikin_ashi_or (h.map _) (h.map _) (h.map _) (h.map _) 

/-- no look-ahead -/
theorem heikin_ashi_noLookahead   :
    NoLookahead (1) fun l : List (Candle F) => heikin_ashi (l.map Candle.openp) (l.map Candle.high) (l.map Candle.low) (l.map Candle.close) :=
  noLookahead_of (fun l hl => by simpa only [List.length_map] using
    (heikin_ashi_yields (l.map Candle.openp) (l.map Candle.high) (l.map Candle.low) (l.map Candle.close) (by simp) (by simp) (by simp) (by simp only [List.length_map]; omega))) (heikin_ashi_causal )

theorem cc_hv_or {data data' : List F} (h0 : data <+: data') (window : Nat) :
    OR Pre (cc_hv data window) (cc_hv data' window) := by
  causal [cc_hv]

macro_rules | `(tactic| causal_fn) => `(tactic| (with_reducible apply cc_hv_or))

theorem cc_hv_causal (window : Nat) : Causal fun l : List F => cc_hv l window :=
  causal_of_or fun _ _ h => cc_hv_or h window

/-- no look-ahead -/
theorem cc_hv_noLookahead (window : Nat) (hw : 1 ≤ window) :
    NoLookahead (window) fun l : List F => cc_hv l window :=
  noLookahead_of (fun l hl => by simpa only [List.length_map] using
    (cc_hv_aligned l window hw (by omega)).yields) (cc_hv_causal window)

theorem gkyz_hv_or {openp openp' high high' low low' close close' : List F} (h0 : openp <+: openp') (h1 : high <+: high') (h2 : low <+: low') (h3 : close <+: close') (window : Nat) :
    OR Pre (gkyz_hv openp high low close window) (gkyz_hv openp' high' low' close' window) := by
  causal [gkyz_hv]

macro_rules | `(tactic| causal_fn) => `(tactic| (with_reducible apply gkyz_hv_or))

theorem gkyz_hv_causal (window : Nat) : Causal fun l : List (Candle F) => gkyz_hv (l.map Candle.openp) (l.map Candle.high) (l.map Candle.low) (l.map Candle.close) window :=
  causal_of_or fun _ _ h => gkyz_hv_or (h.map _) (h.map _) (h.map _) (h.map _) window

/-- no look-ahead -/
theorem gkyz_hv_noLookahead (window : Nat) (hw : 1 ≤ window) :
    NoLookahead (window) fun l : List (Candle F) => gkyz_hv (l.map Candle.openp) (l.map Candle.high) (l.map Candle.low) (l.map Candle.close) window :=
  noLookahead_of (fun l hl => by simpa only [List.length_map] using
    (gkyz_hv_aligned (l.map Candle.openp) (l.map Candle.high) (l.map Candle.low) (l.map Candle.close) window (by simp) (by simp) (by simp) hw (by simp only [List.length_map]; omega)).yields) (gkyz_hv_causal window)

theorem wcp_pre {high high' low low' close close' : List F} (h0 : high <+: high') (h1 : low <+: low') (h2 : close <+: close')  : wcp high low close <+: wcp high' low' close' := by
  simp only [wcp]
  repeat' causal_step

/-- no look-ahead -/
theorem wcp_noLookahead  : NoLookahead 0 fun l : List (Candle F) => some (wcp (l.map Candle.high) (l.map Candle.low) (l.map Candle.close)) :=
  noLookahead_of (fun l _ => ⟨_, rfl, by simpa using wcp_length (l.map Candle.high) (l.map Candle.low) (l.map Candle.close) (by simp) (by simp)⟩)
    (causal_of_or fun _ _ h => OR.some (wcp_pre (h.map _) (h.map _) (h.map _)))

/-- What the statement says on a concrete history. -/
example (a b c d : Candle F) : ∃ out out', tr ([a, b, c].map Candle.high) ([a, b, c].map Candle.low)
      ([a, b, c].map Candle.close) = some out ∧
    tr ([a, b, c, d].map Candle.high) ([a, b, c, d].map Candle.low) ([a, b, c, d].map Candle.close) =
      some out' ∧ out.length = 3 ∧ out <+: out' := by
  obtain ⟨o, o', h1, h2, h3, -, h5⟩ := tr_noLookahead (F := F) [a, b, c] [d] (by simp)
  exact ⟨o, o', h1, h2, h3, h5⟩

end Traquer.Volatility
