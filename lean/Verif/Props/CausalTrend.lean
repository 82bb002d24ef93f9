import Verif.Props.CausalMomentum
import Verif.Props.ShapeTrend
/-!
# C11: no look-ahead in the trend indicators
-/

namespace Traquer.Trend
open FloatLit
variable {F : Type} [FloatOps F]

theorem shinohara_or {high high' low low' close close' : List F} (h0 : high <+: high') (h1 : low <+: low') (h2 : close <+: close') (window : Nat) :
    OR Pre (shinohara high low close window) (shinohara high' low' close' window) := by
  causal [shinohara]

macro_rules | `(tactic| causal_fn) => `(tactic| (with_reducible apply shinohara_or))

theorem shinohara_causal (window : Nat) : Causal fun l : List (Candle F) => shinohara (l.map Candle.high) (l.map Candle.low) (l.map Candle.close) window :=
  causal_of_or fun _ _ h => shinohara_or (h.map _) (h.map _) (h.map _) window

/-- no look-ahead -/
theorem shinohara_noLookahead (window : Nat) (hw : 1 ≤ window) :
    NoLookahead (window) fun l : List (Candle F) => shinohara (l.map Candle.high) (l.map Candle.low) (l.map Candle.close) window :=
  noLookahead_of (fun l hl => by simpa only [List.length_map] using
    (shinohara_aligned (l.map Candle.high) (l.map Candle.low) (l.map Candle.close) window (by simp) (by simp) hw (by simp only [List.length_map]; omega)).yields) (shinohara_causal window)

omit [FloatOps F] in
theorem dmBars_or {high high' low low' close close' : List F} (h0 : high <+: high') (h1 : low <+: low') (h2 : close <+: close')  :
    OR Pre (dmBars high low close) (dmBars high' low' close') := by
  causal [dmBars]

macro_rules | `(tactic| causal_fn) => `(tactic| (with_reducible apply dmBars_or))

theorem adx_or {high high' low low' close close' : List F} (h0 : high <+: high') (h1 : low <+: low') (h2 : close <+: close') (window smoothing : Nat) :
    OR Pre (adx high low close window smoothing) (adx high' low' close' window smoothing) := by
  causal [adx]

macro_rules | `(tactic| causal_fn) => `(tactic| (with_reducible apply adx_or))

theorem adx_causal (window smoothing : Nat) : Causal fun l : List (Candle F) => adx (l.map Candle.high) (l.map Candle.low) (l.map Candle.close) window smoothing :=
  causal_of_or fun _ _ h => adx_or (h.map _) (h.map _) (h.map _) window smoothing

/-- no look-ahead -/
theorem adx_noLookahead (window smoothing : Nat) (hw : 1 ≤ window) (hs : 1 ≤ smoothing) :
    NoLookahead (window + (smoothing - 1)) fun l : List (Candle F) => adx (l.map Candle.high) (l.map Candle.low) (l.map Candle.close) window smoothing :=
  noLookahead_of (fun l hl => by simpa only [List.length_map] using
    (adx_aligned (l.map Candle.high) (l.map Candle.low) (l.map Candle.close) window smoothing (by simp) (by simp) hw hs (by simp only [List.length_map]; omega)).yields) (adx_causal window smoothing)

theorem vortex_or {high high' low low' close close' : List F} (h0 : high <+: high') (h1 : low <+: low') (h2 : close <+: close') (window : Nat) :
    OR Pre (vortex high low close window) (vortex high' low' close' window) := by
  causal [vortex]

macro_rules | `(tactic| causal_fn) => `(tactic| (with_reducible apply vortex_or))

theorem vortex_causal (window : Nat) : Causal fun l : List (Candle F) => vortex (l.map Candle.high) (l.map Candle.low) (l.map Candle.close) window :=
  causal_of_or fun _ _ h => vortex_or (h.map _) (h.map _) (h.map _) window

/-- no look-ahead -/
theorem vortex_noLookahead (window : Nat) (hw : 1 ≤ window) :
    NoLookahead (window) fun l : List (Candle F) => vortex (l.map Candle.high) (l.map Candle.low) (l.map Candle.close) window :=
  noLookahead_of (fun l hl => by simpa only [List.length_map] using
    (vortex_aligned (l.map Candle.high) (l.map Candle.low) (l.map Candle.close) window (by simp) (by simp) hw (by simp only [List.length_map]; omega)).yields) (vortex_causal window)

theorem asi_or {openp openp' high high' low low' close close' : List F} (h0 : openp <+: openp') (h1 : high <+: high') (h2 : low <+: low') (h3 : close <+: close') (limit : F) :
    OR Pre (asi openp high low close limit) (asi openp' high' low' close' limit) := by
  causal [asi]

macro_rules | `(tactic| causal_fn) => `(tactic| (with_reducible apply asi_or))

theorem asi_causal (limit : F) : Causal fun l : List (Candle F) => asi (l.map Candle.openp) (l.map Candle.high) (l.map Candle.low) (l.map Candle.close) limit :=
  causal_of_or fun _ _ h => asi_or (h.map _) (h.map _) (h.map _) (h.map _) limit

/-- no look-ahead -/
theorem asi_noLookahead (limit : F)  :
    NoLookahead (1) fun l : List (Candle F) => asi (l.map Candle.openp) (l.map Candle.high) (l.map Candle.low) (l.map Candle.close) limit :=
  noLookahead_of (fun l hl => by simpa only [List.length_map] using
    (asi_aligned (l.map Candle.openp) (l.map Candle.high) (l.map Candle.low) (l.map Candle.close) limit (by simp) (by simp) (by simp) (by simp only [List.length_map]; omega)).yields) (asi_causal limit)

theorem ulcer_or {data data' : List F} (h0 : data <+: data') (window : Nat) :
    OR Pre (ulcer data window) (ulcer data' window) := by
  causal [ulcer]

macro_rules | `(tactic| causal_fn) => `(tactic| (with_reducible apply ulcer_or))

theorem ulcer_causal (window : Nat) : Causal fun l : List F => ulcer l window :=
  causal_of_or fun _ _ h => ulcer_or h window

/-- no look-ahead -/
theorem ulcer_noLookahead (window : Nat) (hw : 1 ≤ window) :
    NoLookahead (2 * (window - 1)) fun l : List F => ulcer l window :=
  noLookahead_of (fun l hl => by simpa only [List.length_map] using
    (ulcer_aligned l window hw (by omega)).yields) (ulcer_causal window)

theorem supertrend_or {high high' low low' close close' : List F} (h0 : high <+: high') (h1 : low <+: low') (h2 : close <+: close') (window : Nat) (multiplier : F) :
    OR Pre (supertrend high low close window multiplier) (supertrend high' low' close' window multiplier) := by
  causal [supertrend]

macro_rules | `(tactic| causal_fn) => `(tactic| (with_reducible apply supertrend_or))

theorem supertrend_causal (window : Nat) (multiplier : F) : Causal fun l : List (Candle F) => supertrend (l.map Candle.high) (l.map Candle.low) (l.map Candle.close) window multiplier :=
  causal_of_or fun _ _ h => supertrend_or (h.map _) (h.map _) (h.map _) window multiplier

/-- no look-ahead -/
theorem supertrend_noLookahead (window : Nat) (multiplier : F) (hw : 1 ≤ window) :
    NoLookahead (window) fun l : List (Candle F) => supertrend (l.map Candle.high) (l.map Candle.low) (l.map Candle.close) window multiplier :=
  noLookahead_of (fun l hl => by simpa only [List.length_map] using
    (supertrend_aligned (l.map Candle.high) (l.map Candle.low) (l.map Candle.close) window multiplier (by simp) (by simp) hw (by simp only [List.length_map]; omega)).yields) (supertrend_causal window multiplier)

theorem rwi_or {high high' low low' close close' : List F} (h0 : high <+: high') (h1 : low <+: low') (h2 : close <+: close') (window : Nat) :
    OR Pre (rwi high low close window) (rwi high' low' close' window) := by
  causal [rwi]

macro_rules | `(tactic| causal_fn) => `(tactic| (with_reducible apply rwi_or))

theorem rwi_causal (window : Nat) : Causal fun l : List (Candle F) => rwi (l.map Candle.high) (l.map Candle.low) (l.map Candle.close) window :=
  causal_of_or fun _ _ h => rwi_or (h.map _) (h.map _) (h.map _) window

/-- no look-ahead -/
theorem rwi_noLookahead (window : Nat) (hw : 1 ≤ window) :
    NoLookahead (window) fun l : List (Candle F) => rwi (l.map Candle.high) (l.map Candle.low) (l.map Candle.close) window :=
  noLookahead_of (fun l hl => by simpa only [List.length_map] using
    (rwi_aligned (l.map Candle.high) (l.map Candle.low) (l.map Candle.close) window (by simp) (by simp) hw (by simp only [List.length_map]; omega)).yields) (rwi_causal window)

theorem psar_or {high high' low low' : List F} (h0 : high <+: high') (h1 : low <+: low') (af afMax : Option F) :
    OR Pre (psar high low af afMax) (psar high' low' af afMax) := by
  causal [psar]

macro_rules | `(tactic| causal_fn) => `(tactic| (with_reducible apply psar_or))

theorem psar_causal (af afMax : Option F) : Causal fun l : List (Candle F) => psar (l.map Candle.high) (l.map Candle.low) af afMax :=
  causal_of_or fun _ _ h => psar_or (h.map _) (h.map _) af afMax

/-- no look-ahead -/
theorem psar_noLookahead (af afMax : Option F)  :
    NoLookahead (1) fun l : List (Candle F) => psar (l.map Candle.high) (l.map Candle.low) af afMax :=
  noLookahead_of (fun l hl => by simpa only [List.length_map] using
    (psar_aligned (l.map Candle.high) (l.map Candle.low) af afMax (by simp) (by simp only [List.length_map]; omega)).yields) (psar_causal af afMax)

theorem dpo_or {data data' : List F} (h0 : data <+: data') (window : Nat) (mode : Option Smooth.MaMode) :
    OR Pre (dpo data window mode) (dpo data' window mode) := by
  causal [dpo]

macro_rules | `(tactic| causal_fn) => `(tactic| (with_reducible apply dpo_or))

theorem dpo_causal (window : Nat) (mode : Option Smooth.MaMode) : Causal fun l : List F => dpo l window mode :=
  causal_of_or fun _ _ h => dpo_or h window mode

/-- no look-ahead -/
theorem dpo_noLookahead (window r : Nat) (mode : Option Smooth.MaMode) (h : 3 ≤ window) (hr : toUsize (floor (sqrt (flt window : F))) = r) (h1 : 1 ≤ r)
    (hp : mode.getD .SMA = .Pascal → window ≤ 63) :
    NoLookahead (max (Smooth.maWarmUp window r (mode.getD .SMA) + 1) (window - 1)) fun l : List F => dpo l window mode :=
  noLookahead_of (fun l hl => by simpa only [List.length_map] using
    (dpo_aligned l window r mode h hr h1 hp (by omega) (by omega)).yields) (dpo_causal window mode)

theorem aroon_or {high high' low low' : List F} (h0 : high <+: high') (h1 : low <+: low') (window : Nat) :
    OR Pre (aroon high low window) (aroon high' low' window) := by
  causal [aroon]

macro_rules | `(tactic| causal_fn) => `(tactic| (with_reducible apply aroon_or))

theorem aroon_causal (window : Nat) : Causal fun l : List (Candle F) => aroon (l.map Candle.high) (l.map Candle.low) window :=
  causal_of_or fun _ _ h => aroon_or (h.map _) (h.map _) window

/-- no look-ahead -/
theorem aroon_noLookahead (window : Nat)  :
    NoLookahead (window) fun l : List (Candle F) => aroon (l.map Candle.high) (l.map Candle.low) window :=
  noLookahead_of (fun l hl => by simpa only [List.length_map] using
    (aroon_aligned (l.map Candle.high) (l.map Candle.low) window (by simp) (by simp only [List.length_map]; omega)).yields) (aroon_causal window)

theorem chandelier_or {high high' low low' close close' : List F} (h0 : high <+: high') (h1 : low <+: low') (h2 : close <+: close') (window : Nat) (mult : Option F) :
    OR Pre (chandelier high low close window mult) (chandelier high' low' close' window mult) := by
  causal [chandelier]

macro_rules | `(tactic| causal_fn) => `(tactic| (with_reducible apply chandelier_or))

theorem chandelier_causal (window : Nat) (mult : Option F) : Causal fun l : List (Candle F) => chandelier (l.map Candle.high) (l.map Candle.low) (l.map Candle.close) window mult :=
  causal_of_or fun _ _ h => chandelier_or (h.map _) (h.map _) (h.map _) window mult

/-- no look-ahead -/
theorem chandelier_noLookahead (window : Nat) (mult : Option F) (hw : 1 ≤ window) :
    NoLookahead (window) fun l : List (Candle F) => chandelier (l.map Candle.high) (l.map Candle.low) (l.map Candle.close) window mult :=
  noLookahead_of (fun l hl => by simpa only [List.length_map] using
    (chandelier_aligned (l.map Candle.high) (l.map Candle.low) (l.map Candle.close) window mult (by simp) (by simp) hw (by simp only [List.length_map]; omega)).yields) (chandelier_causal window mult)

theorem cks_or {high high' low low' close close' : List F} (h0 : high <+: high') (h1 : low <+: low') (h2 : close <+: close') (win1 win2 : Nat) (mult : Option F) :
    OR Pre (cks high low close win1 win2 mult) (cks high' low' close' win1 win2 mult) := by
  causal [cks]

macro_rules | `(tactic| causal_fn) => `(tactic| (with_reducible apply cks_or))

theorem cks_causal (win1 win2 : Nat) (mult : Option F) : Causal fun l : List (Candle F) => cks (l.map Candle.high) (l.map Candle.low) (l.map Candle.close) win1 win2 mult :=
  causal_of_or fun _ _ h => cks_or (h.map _) (h.map _) (h.map _) win1 win2 mult

/-- no look-ahead -/
theorem cks_noLookahead (win1 win2 : Nat) (mult : Option F) (h1 : 1 ≤ win1) (h2 : 1 ≤ win2) :
    NoLookahead (win1 + (win2 - 1)) fun l : List (Candle F) => cks (l.map Candle.high) (l.map Candle.low) (l.map Candle.close) win1 win2 mult :=
  noLookahead_of (fun l hl => by simpa only [List.length_map] using
    (cks_aligned (l.map Candle.high) (l.map Candle.low) (l.map Candle.close) win1 win2 mult (by simp) (by simp) h1 h2 (by simp only [List.length_map]; omega)).yields) (cks_causal win1 win2 mult)

theorem atr_stop_or {high high' low low' close close' : List F} (h0 : high <+: high') (h1 : low <+: low') (h2 : close <+: close') (window : Nat) (mult : Option F) :
    OR Pre (atr_stop high low close window mult) (atr_stop high' low' close' window mult) := by
  causal [atr_stop]

macro_rules | `(tactic| causal_fn) => `(tactic| (with_reducible apply atr_stop_or))

theorem atr_stop_causal (window : Nat) (mult : Option F) : Causal fun l : List (Candle F) => atr_stop (l.map Candle.high) (l.map Candle.low) (l.map Candle.close) window mult :=
  causal_of_or fun _ _ h => atr_stop_or (h.map _) (h.map _) (h.map _) window mult

/-- no look-ahead -/
theorem atr_stop_noLookahead (window : Nat) (mult : Option F) (hw : 1 ≤ window) :
    NoLookahead (window) fun l : List (Candle F) => atr_stop (l.map Candle.high) (l.map Candle.low) (l.map Candle.close) window mult :=
  noLookahead_of (fun l hl => by simpa only [List.length_map] using
    (atr_stop_aligned (l.map Candle.high) (l.map Candle.low) (l.map Candle.close) window mult (by simp) (by simp) hw (by simp only [List.length_map]; omega)).yields) (atr_stop_causal window mult)

theorem hurst_or {data data' : List F} (h0 : data <+: data') (window : Nat) (minWin : Option Nat) :
    OR Pre (hurst data window minWin) (hurst data' window minWin) := by
  causal [hurst]

macro_rules | `(tactic| causal_fn) => `(tactic| (with_reducible apply hurst_or))

theorem hurst_causal (window : Nat) (minWin : Option Nat) : Causal fun l : List F => hurst l window minWin :=
  causal_of_or fun _ _ h => hurst_or h window minWin

/-- no look-ahead -/
theorem hurst_noLookahead (window : Nat) (minWin : Option Nat) (sizes : List Nat) (hs : hurstSizes window (log10 (flt (minWin.getD 4) : F)) = some sizes) (hp : ∀ x ∈ sizes, 1 ≤ x) (hw : 1 ≤ window) :
    NoLookahead (window - 1) fun l : List F => hurst l window minWin :=
  noLookahead_of (fun l hl => by simpa only [List.length_map] using
    (hurst_aligned l window minWin sizes hs hp hw (by omega)).yields) (hurst_causal window minWin)

theorem decay_pre {data data' : List F} (h0 : data <+: data') (window : Nat) :
    decay data window <+: decay data' window := pre_scanS h0

/-- no look-ahead -/
theorem decay_noLookahead (window : Nat) : NoLookahead 0 fun l : List F => some (decay l window) :=
  noLookahead_of (fun l _ => ⟨_, rfl, decay_length l window⟩)
    (causal_of_or fun _ _ h => OR.some (decay_pre h window))

theorem midLine_or {high high' low low' : List F} (h0 : high <+: high') (h1 : low <+: low') (win pad : Nat) :
    OR Pre (midLine high low win pad) (midLine high' low' win pad) := by
  causal [midLine]

/-- C11: conversion and base line are final for every bar of the history, the leading lines even
`baseWin` bars beyond it. The lagging line is the close `lagWin` bars later, so that it is final only
`lagWin` bars before the end of the history. -/
theorem ichimoku_stable (cw bw lw gw : Nat) (h1 : 1 ≤ cw) (h2 : 1 ≤ bw) (h3 : 1 ≤ lw)
    (past future : List (Candle F)) (n1 : cw ≤ past.length + 1) (n2 : bw ≤ past.length + 1)
    (n3 : lw ≤ past.length + 1) (n4 : gw ≤ past.length) :
    ∃ out out', ichimoku (past.map Candle.high) (past.map Candle.low) (past.map Candle.close) cw bw lw gw = some out ∧
      ichimoku ((past ++ future).map Candle.high) ((past ++ future).map Candle.low)
        ((past ++ future).map Candle.close) cw bw lw gw = some out' ∧
      (out.map fun x => x.1).take past.length <+: out'.map (fun x => x.1) ∧
      (out.map fun x => x.2.1).take past.length <+: out'.map (fun x => x.2.1) ∧
      (out.map fun x => x.2.2.1).take (past.length + bw) <+: out'.map (fun x => x.2.2.1) ∧
      (out.map fun x => x.2.2.2.1).take (past.length + bw) <+: out'.map (fun x => x.2.2.2.1) ∧
      (out.map fun x => x.2.2.2.2).take (past.length - gw) <+: out'.map (fun x => x.2.2.2.2) := by
  have hp : past <+: past ++ future := List.prefix_append _ _
  obtain ⟨c, ec, lc, -⟩ := midLine_ok (past.map Candle.high) (past.map Candle.low) cw (cw - 1) (by simp) h1
  obtain ⟨b, eb, lb, -⟩ := midLine_ok (past.map Candle.high) (past.map Candle.low) bw (bw - 1) (by simp) h2
  obtain ⟨d, ed, ld, -⟩ := midLine_ok (past.map Candle.high) (past.map Candle.low) lw (lw - 1 + bw) (by simp) h3
  obtain ⟨c', ec', lc', -⟩ := midLine_ok ((past ++ future).map Candle.high) ((past ++ future).map Candle.low) cw (cw - 1) (by simp) h1
  obtain ⟨b', eb', lb', -⟩ := midLine_ok ((past ++ future).map Candle.high) ((past ++ future).map Candle.low) bw (bw - 1) (by simp) h2
  obtain ⟨d', ed', ld', -⟩ := midLine_ok ((past ++ future).map Candle.high) ((past ++ future).map Candle.low) lw (lw - 1 + bw) (by simp) h3
  have pc : c <+: c' := midLine_or (hp.map _) (hp.map _) _ _ _ _ ec ec'
  have pb : b <+: b' := midLine_or (hp.map _) (hp.map _) _ _ _ _ eb eb'
  have pd : d <+: d' := midLine_or (hp.map _) (hp.map _) _ _ _ _ ed ed'
  simp only [List.length_map, List.length_append] at lc lb ld lc' lb' ld'
  have proj : ∀ u v w x y : List F, u.length = v.length → v.length = w.length → w.length = x.length →
      x.length = y.length →
      (zip5 u v w x y).map (fun t => t.1) = u ∧ (zip5 u v w x y).map (fun t => t.2.1) = v ∧
      (zip5 u v w x y).map (fun t => t.2.2.1) = w ∧ (zip5 u v w x y).map (fun t => t.2.2.2.1) = x ∧
      (zip5 u v w x y).map (fun t => t.2.2.2.2) = y := by
    intro u
    induction u with
    | nil =>
      intro v w x y e1 e2 e3 e4
      simp at e1
      rw [← e1] at e2
      have e5 : w.length = 0 := e2.symm
      simp [zip5_eq, List.length_eq_zero_iff.1 e1.symm, List.length_eq_zero_iff.1 e5,
        List.length_eq_zero_iff.1 (e3.symm.trans e5), List.length_eq_zero_iff.1 (e4.symm.trans (e3.symm.trans e5))]
    | cons a u ih =>
      intro v w x y e1 e2 e3 e4
      match v, w, x, y with
      | b :: v, c :: w, d :: x, e :: y =>
        have := ih v w x y (by simpa using e1) (by simpa using e2) (by simpa using e3) (by simpa using e4)
        refine ⟨?_, ?_, ?_, ?_, ?_⟩
        · simp only [zip5, List.map_cons, this.1]
        · simp only [zip5, List.map_cons, this.2.1]
        · simp only [zip5, List.map_cons, this.2.2.1]
        · simp only [zip5, List.map_cons, this.2.2.2.1]
        · simp only [zip5, List.map_cons, this.2.2.2.2]
  refine ⟨_, _, by run_model [ichimoku, ec, eb, ed]; rfl, by run_model [ichimoku, ec', eb', ed']; rfl, ?_⟩
  obtain ⟨p1, p2, p3, p4, p5⟩ := proj (c ++ nans bw) (b ++ nans bw)
    (nans bw ++ (c.zip b).map fun (c, b) => (c + b) / 2) d
    ((past.map Candle.close).drop gw ++ nans (gw + bw)) (by simp; omega) (by simp; omega) (by simp; omega)
    (by simp; omega)
  obtain ⟨q1, q2, q3, q4, q5⟩ := proj (c' ++ nans bw) (b' ++ nans bw)
    (nans bw ++ (c'.zip b').map fun (c, b) => (c + b) / 2) d'
    (((past ++ future).map Candle.close).drop gw ++ nans (gw + bw)) (by simp; omega) (by simp; omega)
    (by simp; omega) (by simp; omega)
  refine ⟨?_, ?_, ?_, ?_, ?_⟩
  · erw [p1, q1]
    have := pre_take_append (b := nans bw) (b' := nans bw) pc
    rwa [show c.length = past.length by omega] at this
  · erw [p2, q2]
    have := pre_take_append (b := nans bw) (b' := nans bw) pb
    rwa [show b.length = past.length by omega] at this
  · erw [p3, q3]
    exact (List.take_prefix _ _).trans (pre_append ((pre_zip pc pb).map _))
  · erw [p4, q4]
    exact (List.take_prefix _ _).trans pd
  · erw [p5, q5]
    have := pre_take_append (b := nans (gw + bw)) (b' := nans (gw + bw)) (pre_drop gw (hp.map Candle.close))
    simpa using this

/-- What the statement says on a concrete history. -/
example (a b c d : Candle F) : ∃ out out', psar ([a, b, c].map Candle.high) ([a, b, c].map Candle.low) none none =
      some out ∧ psar ([a, b, c, d].map Candle.high) ([a, b, c, d].map Candle.low) none none = some out' ∧
    out.length = 3 ∧ out <+: out' := by
  obtain ⟨o, o', h1, h2, h3, -, h5⟩ := psar_noLookahead (F := F) none none [a, b, c] [d] (by simp)
  exact ⟨o, o', h1, h2, h3, h5⟩

end Traquer.Trend
