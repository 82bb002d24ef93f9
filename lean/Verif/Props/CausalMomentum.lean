import Verif.Props.CausalVolatility
import Verif.Props.CausalStats
import Verif.Props.ShapeMomentum
/-!
# C09: no look-ahead in the momentum indicators
-/

namespace Traquer.Trend
variable {F : Type} [FloatOps F]

omit [FloatOps F] in
theorem pre_take_append {a a' b b' : List F} (h : a <+: a') : (a ++ b).take a.length <+: a' ++ b' := by
  rw [List.take_left']
  · exact h.trans (List.prefix_append _ _)
  · rfl

/-- A shifted line: what is known at the last bar of the history (`offset` items beyond it) is final. -/
theorem alligatorLine_stable {data data' : List F} (h : data <+: data') (win offset mo : Nat)
    (hn : win ≤ data.length + 1) (hw : 1 ≤ win) :
    OR (fun o o' : List F => o.take (data.length + offset) <+: o') (alligatorLine data win offset mo)
      (alligatorLine data' win offset mo) := by
  obtain ⟨w, ew, lw, -⟩ := Smooth.wilder_aligned data win hw hn
  obtain ⟨w', ew', -⟩ := Smooth.wilder_aligned data' win hw (by have := h.length_le; omega)
  have hp : w <+: w' := Smooth.wilder_or h win w w' ew ew'
  simp only [alligatorLine, ew, ew', Option.bind_eq_bind, Option.bind_some]
  refine OR.bind_same fun t => OR.some ?_
  have := pre_take_append (b := nans t) (b' := nans t) (pre_append (a := (nans offset : List F)) hp)
  simpa [lw, Nat.add_comm] using this

theorem take_zip_pre {α β : Type} {a a' : List α} {b b' : List β} {n : Nat} (h1 : a.take n <+: a')
    (h2 : b.take n <+: b') : (a.zip b).take n <+: a'.zip b' := by
  rw [List.zip, List.take_zipWith]
  exact pre_zip h1 h2

theorem take_pre_mono {α : Type} {a a' : List α} {n m : Nat} (h : a.take n <+: a') (hm : m ≤ n) :
    a.take m <+: a' :=
  (List.take_prefix_take_left hm).trans h

/-- C11: each line of `alligator` is final up to its own offset beyond the history. -/
theorem alligator_lines_stable (jw jo tw to_ lw lo : Nat) (h1 : 1 ≤ jw) (h2 : 1 ≤ tw) (h3 : 1 ≤ lw)
    (past future : List F) (n1 : jw ≤ past.length + 1) (n2 : tw ≤ past.length + 1)
    (n3 : lw ≤ past.length + 1) : ∃ out out', alligator past jw jo tw to_ lw lo = some out ∧
      alligator (past ++ future) jw jo tw to_ lw lo = some out' ∧
      (out.map fun x => x.1).take (past.length + jo) <+: out'.map (fun x => x.1) ∧
      (out.map fun x => x.2.1).take (past.length + to_) <+: out'.map (fun x => x.2.1) ∧
      (out.map fun x => x.2.2).take (past.length + lo) <+: out'.map (fun x => x.2.2) := by
  have hp : past <+: past ++ future := List.prefix_append _ _
  obtain ⟨a, ea, la, -⟩ := alligatorLine_ok past jw jo (max (max jo to_) lo) h1 n1 (by omega)
  obtain ⟨b, eb, lb, -⟩ := alligatorLine_ok past tw to_ (max (max jo to_) lo) h2 n2 (by omega)
  obtain ⟨c, ec, lc, -⟩ := alligatorLine_ok past lw lo (max (max jo to_) lo) h3 n3 (by omega)
  obtain ⟨a', ea', la', -⟩ := alligatorLine_ok (past ++ future) jw jo (max (max jo to_) lo) h1 (by simp; omega) (by omega)
  obtain ⟨b', eb', lb', -⟩ := alligatorLine_ok (past ++ future) tw to_ (max (max jo to_) lo) h2 (by simp; omega) (by omega)
  obtain ⟨c', ec', lc', -⟩ := alligatorLine_ok (past ++ future) lw lo (max (max jo to_) lo) h3 (by simp; omega) (by omega)
  refine ⟨_, _, by run_model [alligator, ea, eb, ec]; rfl, by run_model [alligator, ea', eb', ec']; rfl, ?_, ?_, ?_⟩
  · rw [zip3_eq, zip3_eq]
    erw [List.map_fst_zip (by simp; omega), List.map_fst_zip (by simp at *; omega)]
    exact alligatorLine_stable hp jw jo _ n1 h1 a a' ea ea'
  · rw [zip3_eq, zip3_eq]
    have e : ∀ x y z : List F, x.length = y.length → z.length = y.length →
        (x.zip (y.zip z)).map (fun t => t.2.1) = y := by
      intro x y z hx hz
      rw [show (fun t : F × F × F => t.2.1) = Prod.fst ∘ Prod.snd from rfl, ← List.map_map,
        List.map_snd_zip (by simp; omega), List.map_fst_zip (by omega)]
    rw [e a b c (by omega) (by omega), e a' b' c' (by omega) (by omega)]
    exact alligatorLine_stable hp tw to_ _ n2 h2 b b' eb eb'
  · rw [zip3_eq, zip3_eq]
    have e : ∀ x y z : List F, x.length = y.length → z.length = y.length →
        (x.zip (y.zip z)).map (fun t => t.2.2) = z := by
      intro x y z hx hz
      rw [show (fun t : F × F × F => t.2.2) = Prod.snd ∘ Prod.snd from rfl, ← List.map_map,
        List.map_snd_zip (by simp; omega), List.map_snd_zip (by omega)]
    rw [e a b c (by omega) (by omega), e a' b' c' (by omega) (by omega)]
    exact alligatorLine_stable hp lw lo _ n3 h3 c c' ec ec'

example (a b c d e f : F) : ∃ out out', alligator [a, b, c, d, e] 3 2 2 1 2 0 = some out ∧
      alligator [a, b, c, d, e, f] 3 2 2 1 2 0 = some out' ∧
      (out.map fun x => x.1).take 7 <+: out'.map (fun x => x.1) := by
  obtain ⟨o, o', h1, h2, h3, -⟩ := alligator_lines_stable (F := F) 3 2 2 1 2 0 (by decide) (by decide)
    (by decide) [a, b, c, d, e] [f] (by simp) (by simp) (by simp)
  exact ⟨o, o', h1, h2, h3⟩

end Traquer.Trend

namespace Traquer.Momentum
open FloatLit
variable {F : Type} [FloatOps F]

theorem rsi_or {data data' : List F} (h0 : data <+: data') (window : Nat) :
    OR Pre (rsi data window) (rsi data' window) := by
  causal [rsi, gains, losses]

macro_rules | `(tactic| causal_fn) => `(tactic| (with_reducible apply rsi_or))

theorem rsi_causal (window : Nat) : Causal fun l : List F => rsi l window :=
  causal_of_or fun _ _ h => rsi_or h window

/-- no look-ahead -/
theorem rsi_noLookahead (window : Nat) (hw : 1 ≤ window) :
    NoLookahead (window) fun l : List F => rsi l window :=
  noLookahead_of (fun l hl => by simpa only [List.length_map] using
    (rsi_aligned l window hw (by omega)).yields) (rsi_causal window)

theorem crsi_or {data data' : List F} (h0 : data <+: data') (rsiWin streakWin rankWin : Nat) :
    OR Pre (crsi data rsiWin streakWin rankWin) (crsi data' rsiWin streakWin rankWin) := by
  causal [crsi]

macro_rules | `(tactic| causal_fn) => `(tactic| (with_reducible apply crsi_or))

theorem crsi_causal (rsiWin streakWin rankWin : Nat) : Causal fun l : List F => crsi l rsiWin streakWin rankWin :=
  causal_of_or fun _ _ h => crsi_or h rsiWin streakWin rankWin

/-- no look-ahead -/
theorem crsi_noLookahead (rsiWin streakWin rankWin : Nat) (h1 : 1 ≤ rsiWin) (h2 : 1 ≤ streakWin) (h3 : 1 ≤ rankWin) :
    NoLookahead (max (max (rsiWin) (streakWin + 1)) (rankWin)) fun l : List F => crsi l rsiWin streakWin rankWin :=
  noLookahead_of (fun l hl => by simpa only [List.length_map] using
    (crsi_aligned l rsiWin streakWin rankWin h1 h2 h3 (by omega) (by omega) (by omega)).yields) (crsi_causal rsiWin streakWin rankWin)

theorem macd_or {close close' : List F} (h0 : close <+: close') (short long : Nat) :
    OR Pre (macd close short long) (macd close' short long) := by
  causal [macd]

macro_rules | `(tactic| causal_fn) => `(tactic| (with_reducible apply macd_or))

theorem macd_causal (short long : Nat) : Causal fun l : List F => macd l short long :=
  causal_of_or fun _ _ h => macd_or h short long

/-- no look-ahead -/
theorem macd_noLookahead (short long : Nat) (h1 : 1 ≤ short) (h2 : 1 ≤ long) :
    NoLookahead (max short long) fun l : List F => macd l short long :=
  noLookahead_of (fun l hl => by simpa only [List.length_map] using
    (macd_aligned l short long h1 h2 (by omega)).yields) (macd_causal short long)

theorem ppo_or {data data' : List F} (h0 : data <+: data') (short long : Nat) :
    OR Pre (ppo data short long) (ppo data' short long) := by
  causal [ppo]

macro_rules | `(tactic| causal_fn) => `(tactic| (with_reducible apply ppo_or))

theorem ppo_causal (short long : Nat) : Causal fun l : List F => ppo l short long :=
  causal_of_or fun _ _ h => ppo_or h short long

/-- no look-ahead -/
theorem ppo_noLookahead (short long : Nat) (h1 : 1 ≤ short) (h2 : 1 ≤ long) :
    NoLookahead (max short long) fun l : List F => ppo l short long :=
  noLookahead_of (fun l hl => by simpa only [List.length_map] using
    (ppo_aligned l short long h1 h2 (by omega)).yields) (ppo_causal short long)

theorem apo_or {data data' : List F} (h0 : data <+: data') (short long : Nat) :
    OR Pre (apo data short long) (apo data' short long) := by
  causal [apo]

macro_rules | `(tactic| causal_fn) => `(tactic| (with_reducible apply apo_or))

theorem apo_causal (short long : Nat) : Causal fun l : List F => apo l short long :=
  causal_of_or fun _ _ h => apo_or h short long

/-- no look-ahead -/
theorem apo_noLookahead (short long : Nat) (h1 : 1 ≤ short) (h2 : 1 ≤ long) :
    NoLookahead (max short long) fun l : List F => apo l short long :=
  noLookahead_of (fun l hl => by simpa only [List.length_map] using
    (apo_aligned l short long h1 h2 (by omega)).yields) (apo_causal short long)

theorem cmo_or {data data' : List F} (h0 : data <+: data') (window : Nat) :
    OR Pre (cmo data window) (cmo data' window) := by
  causal [cmo]

macro_rules | `(tactic| causal_fn) => `(tactic| (with_reducible apply cmo_or))

theorem cmo_causal (window : Nat) : Causal fun l : List F => cmo l window :=
  causal_of_or fun _ _ h => cmo_or h window

/-- no look-ahead -/
theorem cmo_noLookahead (window : Nat)  :
    NoLookahead (max (window) (1)) fun l : List F => cmo l window :=
  noLookahead_of (fun l hl => by simpa only [List.length_map] using
    (cmo_aligned l window (by omega) (by omega)).yields) (cmo_causal window)

theorem cfo_or {data data' : List F} (h0 : data <+: data') (window : Nat) :
    OR Pre (cfo data window) (cfo data' window) := by
  causal [cfo]

macro_rules | `(tactic| causal_fn) => `(tactic| (with_reducible apply cfo_or))

theorem cfo_causal (window : Nat) : Causal fun l : List F => cfo l window :=
  causal_of_or fun _ _ h => cfo_or h window

/-- no look-ahead -/
theorem cfo_noLookahead (window : Nat) (hw : 1 ≤ window) :
    NoLookahead (window - 1) fun l : List F => cfo l window :=
  noLookahead_of (fun l hl => by simpa only [List.length_map] using
    (cfo_aligned l window hw (by omega)).yields) (cfo_causal window)

theorem elder_ray_or {high high' low low' close close' : List F} (h0 : high <+: high') (h1 : low <+: low') (h2 : close <+: close') (window : Nat) :
    OR Pre (elder_ray high low close window) (elder_ray high' low' close' window) := by
  causal [elder_ray]

macro_rules | `(tactic| causal_fn) => `(tactic| (with_reducible apply elder_ray_or))

theorem elder_ray_causal (window : Nat) : Causal fun l : List (Candle F) => elder_ray (l.map Candle.high) (l.map Candle.low) (l.map Candle.close) window :=
  causal_of_or fun _ _ h => elder_ray_or (h.map _) (h.map _) (h.map _) window

/-- no look-ahead -/
theorem elder_ray_noLookahead (window : Nat) (hw : 1 ≤ window) :
    NoLookahead (window) fun l : List (Candle F) => elder_ray (l.map Candle.high) (l.map Candle.low) (l.map Candle.close) window :=
  noLookahead_of (fun l hl => by simpa only [List.length_map] using
    (elder_ray_aligned (l.map Candle.high) (l.map Candle.low) (l.map Candle.close) window (by simp) (by simp) hw (by simp only [List.length_map]; omega)).yields) (elder_ray_causal window)

theorem wpr_or {high high' low low' close close' : List F} (h0 : high <+: high') (h1 : low <+: low') (h2 : close <+: close') (window : Nat) :
    OR Pre (wpr high low close window) (wpr high' low' close' window) := by
  causal [wpr]

macro_rules | `(tactic| causal_fn) => `(tactic| (with_reducible apply wpr_or))

theorem wpr_causal (window : Nat) : Causal fun l : List (Candle F) => wpr (l.map Candle.high) (l.map Candle.low) (l.map Candle.close) window :=
  causal_of_or fun _ _ h => wpr_or (h.map _) (h.map _) (h.map _) window

/-- no look-ahead -/
theorem wpr_noLookahead (window : Nat) (hw : 1 ≤ window) :
    NoLookahead (window - 1) fun l : List (Candle F) => wpr (l.map Candle.high) (l.map Candle.low) (l.map Candle.close) window :=
  noLookahead_of (fun l hl => by simpa only [List.length_map] using
    (wpr_aligned (l.map Candle.high) (l.map Candle.low) (l.map Candle.close) window (by simp) (by simp) hw (by simp only [List.length_map]; omega)).yields) (wpr_causal window)

theorem pmo_or {data data' : List F} (h0 : data <+: data') (win1 win2 : Nat) :
    OR Pre (pmo data win1 win2) (pmo data' win1 win2) := by
  causal [pmo]

macro_rules | `(tactic| causal_fn) => `(tactic| (with_reducible apply pmo_or))

theorem pmo_causal (win1 win2 : Nat) : Causal fun l : List F => pmo l win1 win2 :=
  causal_of_or fun _ _ h => pmo_or h win1 win2

/-- no look-ahead -/
theorem pmo_noLookahead (win1 win2 : Nat) (h1 : 1 ≤ win1) (h2 : 1 ≤ win2) :
    NoLookahead (win1 + win2) fun l : List F => pmo l win1 win2 :=
  noLookahead_of (fun l hl => by simpa only [List.length_map] using
    (pmo_aligned l win1 win2 h1 h2 (by omega)).yields) (pmo_causal win1 win2)

theorem bpTr_or {high high' low low' close close' : List F} (h0 : high <+: high') (h1 : low <+: low') (h2 : close <+: close')  :
    OR Pre (bpTr high low close) (bpTr high' low' close') := by
  causal [bpTr]

macro_rules | `(tactic| causal_fn) => `(tactic| (with_reducible apply bpTr_or))

theorem ultimate_or {high high' low low' close close' : List F} (h0 : high <+: high') (h1 : low <+: low') (h2 : close <+: close') (win1 win2 win3 : Nat) :
    OR Pre (ultimate high low close win1 win2 win3) (ultimate high' low' close' win1 win2 win3) := by
  causal [ultimate]

macro_rules | `(tactic| causal_fn) => `(tactic| (with_reducible apply ultimate_or))

theorem ultimate_causal (win1 win2 win3 : Nat) : Causal fun l : List (Candle F) => ultimate (l.map Candle.high) (l.map Candle.low) (l.map Candle.close) win1 win2 win3 :=
  causal_of_or fun _ _ h => ultimate_or (h.map _) (h.map _) (h.map _) win1 win2 win3

/-- no look-ahead -/
theorem ultimate_noLookahead (win1 win2 win3 : Nat) (hw : 1 ≤ win3) (h1 : win1 ≤ win3) (h2 : win2 ≤ win3) :
    NoLookahead (win3) fun l : List (Candle F) => ultimate (l.map Candle.high) (l.map Candle.low) (l.map Candle.close) win1 win2 win3 :=
  noLookahead_of (fun l hl => by simpa only [List.length_map] using
    (ultimate_aligned (l.map Candle.high) (l.map Candle.low) (l.map Candle.close) win1 win2 win3 (by simp) (by simp) hw h1 h2 (by simp only [List.length_map]; omega)).yields) (ultimate_causal win1 win2 win3)

theorem pgo_or {high high' low low' close close' : List F} (h0 : high <+: high') (h1 : low <+: low') (h2 : close <+: close') (window : Nat) :
    OR Pre (pgo high low close window) (pgo high' low' close' window) := by
  causal [pgo]

macro_rules | `(tactic| causal_fn) => `(tactic| (with_reducible apply pgo_or))

theorem pgo_causal (window : Nat) : Causal fun l : List (Candle F) => pgo (l.map Candle.high) (l.map Candle.low) (l.map Candle.close) window :=
  causal_of_or fun _ _ h => pgo_or (h.map _) (h.map _) (h.map _) window

/-- no look-ahead -/
theorem pgo_noLookahead (window : Nat) (hw : 1 ≤ window) :
    NoLookahead (window + 1) fun l : List (Candle F) => pgo (l.map Candle.high) (l.map Candle.low) (l.map Candle.close) window :=
  noLookahead_of (fun l hl => by simpa only [List.length_map] using
    (pgo_aligned (l.map Candle.high) (l.map Candle.low) (l.map Candle.close) window (by simp) (by simp) hw (by simp only [List.length_map]; omega)).yields) (pgo_causal window)

theorem swing_or {openp openp' high high' low low' close close' : List F} (h0 : openp <+: openp') (h1 : high <+: high') (h2 : low <+: low') (h3 : close <+: close') (limit : F) :
    OR Pre (swing openp high low close limit) (swing openp' high' low' close' limit) := by
  causal [swing]

macro_rules | `(tactic| causal_fn) => `(tactic| (with_reducible apply swing_or))

theorem si_or {openp openp' high high' low low' close close' : List F} (h0 : openp <+: openp') (h1 : high <+: high') (h2 : low <+: low') (h3 : close <+: close') (limit : F) :
    OR Pre (si openp high low close limit) (si openp' high' low' close' limit) := by
  causal [si]

macro_rules | `(tactic| causal_fn) => `(tactic| (with_reducible apply si_or))

theorem si_causal (limit : F) : Causal fun l : List (Candle F) => si (l.map Candle.openp) (l.map Candle.high) (l.map Candle.low) (l.map Candle.close) limit :=
  causal_of_or fun _ _ h => si_or (h.map _) (h.map _) (h.map _) (h.map _) limit

/-- no look-ahead -/
theorem si_noLookahead (limit : F)  :
    NoLookahead (1) fun l : List (Candle F) => si (l.map Candle.openp) (l.map Candle.high) (l.map Candle.low) (l.map Candle.close) limit :=
  noLookahead_of (fun l hl => by simpa only [List.length_map] using
    (si_aligned (l.map Candle.openp) (l.map Candle.high) (l.map Candle.low) (l.map Candle.close) limit (by simp) (by simp) (by simp) (by simp only [List.length_map]; omega)).yields) (si_causal limit)

theorem trix_or {close close' : List F} (h0 : close <+: close') (window : Nat) :
    OR Pre (trix close window) (trix close' window) := by
  causal [trix]

macro_rules | `(tactic| causal_fn) => `(tactic| (with_reducible apply trix_or))

theorem trix_causal (window : Nat) : Causal fun l : List F => trix l window :=
  causal_of_or fun _ _ h => trix_or h window

/-- no look-ahead -/
theorem trix_noLookahead (window : Nat) (hw : 1 ≤ window) :
    NoLookahead (3 * (window - 1) + 1) fun l : List F => trix l window :=
  noLookahead_of (fun l hl => by simpa only [List.length_map] using
    (trix_aligned l window hw (by omega)).yields) (trix_causal window)

theorem tii_or {data data' : List F} (h0 : data <+: data') (window : Nat) :
    OR Pre (tii data window) (tii data' window) := by
  causal [tii]

macro_rules | `(tactic| causal_fn) => `(tactic| (with_reducible apply tii_or))

theorem tii_causal (window : Nat) : Causal fun l : List F => tii l window :=
  causal_of_or fun _ _ h => tii_or h window

/-- no look-ahead -/
theorem tii_noLookahead (window : Nat) (hw : 1 ≤ window) :
    NoLookahead (window - 1) fun l : List F => tii l window :=
  noLookahead_of (fun l hl => by simpa only [List.length_map] using
    (tii_aligned l window hw (by omega)).yields) (tii_causal window)

theorem stoch_or {high high' low low' close close' : List F} (h0 : high <+: high') (h1 : low <+: low') (h2 : close <+: close') (window smooth : Nat) :
    OR Pre (stoch high low close window smooth) (stoch high' low' close' window smooth) := by
  causal [stoch]

macro_rules | `(tactic| causal_fn) => `(tactic| (with_reducible apply stoch_or))

theorem stoch_causal (window smooth : Nat) : Causal fun l : List (Candle F) => stoch (l.map Candle.high) (l.map Candle.low) (l.map Candle.close) window smooth :=
  causal_of_or fun _ _ h => stoch_or (h.map _) (h.map _) (h.map _) window smooth

/-- no look-ahead -/
theorem stoch_noLookahead (window smooth : Nat) (hw : 1 ≤ window) (hs : 1 ≤ smooth) :
    NoLookahead (window - 1 + 2 * (smooth - 1)) fun l : List (Candle F) => stoch (l.map Candle.high) (l.map Candle.low) (l.map Candle.close) window smooth :=
  noLookahead_of (fun l hl => by simpa only [List.length_map] using
    (stoch_aligned (l.map Candle.high) (l.map Candle.low) (l.map Candle.close) window smooth (by simp) (by simp) hw hs (by simp only [List.length_map]; omega)).yields) (stoch_causal window smooth)

theorem stochastic_or {high high' low low' close close' : List F} (h0 : high <+: high') (h1 : low <+: low') (h2 : close <+: close') (window : Nat) :
    OR Pre (stochastic high low close window) (stochastic high' low' close' window) := by
  causal [stochastic]

macro_rules | `(tactic| causal_fn) => `(tactic| (with_reducible apply stochastic_or))

theorem stochastic_causal (window : Nat) : Causal fun l : List (Candle F) => stochastic (l.map Candle.high) (l.map Candle.low) (l.map Candle.close) window :=
  causal_of_or fun _ _ h => stochastic_or (h.map _) (h.map _) (h.map _) window

/-- no look-ahead -/
theorem stochastic_noLookahead (window : Nat) (hw : 1 ≤ window) :
    NoLookahead (window + 3) fun l : List (Candle F) => stochastic (l.map Candle.high) (l.map Candle.low) (l.map Candle.close) window :=
  noLookahead_of (fun l hl => by simpa only [List.length_map] using
    (stochastic_aligned (l.map Candle.high) (l.map Candle.low) (l.map Candle.close) window (by simp) (by simp) hw (by simp only [List.length_map]; omega)).yields) (stochastic_causal window)

theorem kdj_or {high high' low low' close close' : List F} (h0 : high <+: high') (h1 : low <+: low') (h2 : close <+: close') (kWin dWin : Nat) (kf df : Option F) :
    OR Pre (kdj high low close kWin dWin kf df) (kdj high' low' close' kWin dWin kf df) := by
  causal [kdj]

macro_rules | `(tactic| causal_fn) => `(tactic| (with_reducible apply kdj_or))

theorem kdj_causal (kWin dWin : Nat) (kf df : Option F) : Causal fun l : List (Candle F) => kdj (l.map Candle.high) (l.map Candle.low) (l.map Candle.close) kWin dWin kf df :=
  causal_of_or fun _ _ h => kdj_or (h.map _) (h.map _) (h.map _) kWin dWin kf df

/-- no look-ahead -/
theorem kdj_noLookahead (kWin dWin : Nat) (kf df : Option F) (hw : 1 ≤ kWin) (hs : 1 ≤ dWin) :
    NoLookahead (kWin - 1 + 2 * (dWin - 1)) fun l : List (Candle F) => kdj (l.map Candle.high) (l.map Candle.low) (l.map Candle.close) kWin dWin kf df :=
  noLookahead_of (fun l hl => by simpa only [List.length_map] using
    (kdj_aligned (l.map Candle.high) (l.map Candle.low) (l.map Candle.close) kWin dWin kf df (by simp) (by simp) hw hs (by simp only [List.length_map]; omega)).yields) (kdj_causal kWin dWin kf df)

theorem stcRaw_or {series series' : List F} (h0 : series <+: series') (window smooth : Nat) :
    OR Pre (stcRaw series window smooth) (stcRaw series' window smooth) := by
  causal [stcRaw]

macro_rules | `(tactic| causal_fn) => `(tactic| (with_reducible apply stcRaw_or))

theorem stc_or {close close' : List F} (h0 : close <+: close') (window short long : Nat) :
    OR Pre (stc close window short long) (stc close' window short long) := by
  causal [stc]

macro_rules | `(tactic| causal_fn) => `(tactic| (with_reducible apply stc_or))

theorem stc_causal (window short long : Nat) : Causal fun l : List F => stc l window short long :=
  causal_of_or fun _ _ h => stc_or h window short long

/-- no look-ahead -/
theorem stc_noLookahead (window short long : Nat) (hw : 1 ≤ window) (h1 : 1 ≤ short) (h2 : 1 ≤ long) :
    NoLookahead (max (short) (long - 1 + 2 * (window - 1) + 2)) fun l : List F => stc l window short long :=
  noLookahead_of (fun l hl => by simpa only [List.length_map] using
    (stc_aligned l window short long hw h1 h2 (by omega) (by omega)).yields) (stc_causal window short long)

theorem relative_vigor_or {openp openp' high high' low low' close close' : List F} (h0 : openp <+: openp') (h1 : high <+: high') (h2 : low <+: low') (h3 : close <+: close') (window : Nat) :
    OR Pre (relative_vigor openp high low close window) (relative_vigor openp' high' low' close' window) := by
  causal [relative_vigor, vigorSmooth]

macro_rules | `(tactic| causal_fn) => `(tactic| (with_reducible apply relative_vigor_or))

theorem relative_vigor_causal (window : Nat) : Causal fun l : List (Candle F) => relative_vigor (l.map Candle.openp) (l.map Candle.high) (l.map Candle.low) (l.map Candle.close) window :=
  causal_of_or fun _ _ h => relative_vigor_or (h.map _) (h.map _) (h.map _) (h.map _) window

/-- no look-ahead -/
theorem relative_vigor_noLookahead (window : Nat) (hw : 1 ≤ window) :
    NoLookahead (window + 2) fun l : List (Candle F) => relative_vigor (l.map Candle.openp) (l.map Candle.high) (l.map Candle.low) (l.map Candle.close) window :=
  noLookahead_of (fun l hl => by simpa only [List.length_map] using
    (relative_vigor_aligned (l.map Candle.openp) (l.map Candle.high) (l.map Candle.low) (l.map Candle.close) window (by simp) (by simp) (by simp) hw (by simp only [List.length_map]; omega)).yields) (relative_vigor_causal window)

theorem fisher_or {high high' low low' : List F} (h0 : high <+: high') (h1 : low <+: low') (window : Nat) :
    OR Pre (fisher high low window) (fisher high' low' window) := by
  causal [fisher]

macro_rules | `(tactic| causal_fn) => `(tactic| (with_reducible apply fisher_or))

theorem fisher_causal (window : Nat) : Causal fun l : List (Candle F) => fisher (l.map Candle.high) (l.map Candle.low) window :=
  causal_of_or fun _ _ h => fisher_or (h.map _) (h.map _) window

/-- no look-ahead -/
theorem fisher_noLookahead (window : Nat) (hw : 1 ≤ window) :
    NoLookahead (window - 1) fun l : List (Candle F) => fisher (l.map Candle.high) (l.map Candle.low) window :=
  noLookahead_of (fun l hl => by simpa only [List.length_map] using
    (fisher_aligned (l.map Candle.high) (l.map Candle.low) window (by simp) hw (by simp only [List.length_map]; omega)).yields) (fisher_causal window)

theorem smaChain_or (window n : Nat) {l l' : List F} (h : l <+: l') :
    OR (List.Forall₂ Pre) (smaChain window n l) (smaChain window n l') := by
  induction n generalizing l l' with
  | zero => exact OR.some .nil
  | succ n ih =>
    simp only [smaChain, Option.bind_eq_bind]
    refine OR.bind_pre (Smooth.sma_or h window) fun a b hab => ?_
    refine OR.bind (ih hab) fun as bs h => ?_
    exact OR.some (.cons hab h)

omit [FloatOps F] in
theorem or_mapP_get {i : Nat} {l l' : List (List F)} (h : List.Forall₂ Pre l l') :
    OR Eq (mapP (fun s : List F => s[i]?) l) (mapP (fun s : List F => s[i]?) l') := by
  induction h with
  | nil => exact OR.eq_refl _
  | cons hab h ih =>
    intro x y hx hy
    simp only [mapP] at hx hy
    rename_i a b l l'
    cases e1 : a[i]? with
    | none => simp [e1] at hx
    | some u =>
      have e2 := pre_iff.1 hab i u e1
      simp only [e1, e2] at hx hy
      cases e3 : mapP (fun s : List F => s[i]?) l with
      | none => simp [e3] at hx
      | some us =>
        cases e4 : mapP (fun s : List F => s[i]?) l' with
        | none => simp [e4] at hy
        | some vs =>
          simp [e3] at hx
          simp [e4] at hy
          rw [← hx, ← hy, ih us vs e3 e4]

theorem rainbow_or {data data' : List F} (h0 : data <+: data') (window lookback : Nat) :
    OR Pre (rainbow data window lookback) (rainbow data' window lookback) := by
  simp only [rainbow, Option.bind_eq_bind]
  refine OR.bind (smaChain_or window 10 h0) fun a b hab => ?_
  refine OR.bind_same fun k => ?_
  refine OR.bind_pre ?_ fun _ _ h => OR.some (pre_append h)
  refine or_mapP (pre_drop _ (pre_range_length h0)) fun i => ?_
  refine OR.bind_eq (or_mapP_get hab) fun vals => ?_
  repeat' causal_step

macro_rules | `(tactic| causal_fn) => `(tactic| (with_reducible apply rainbow_or))

theorem rainbow_causal (window lookback : Nat) : Causal fun l : List F => rainbow l window lookback :=
  causal_of_or fun _ _ h => rainbow_or h window lookback

/-- no look-ahead -/
theorem rainbow_noLookahead (window lookback : Nat) (hw : 1 ≤ window) (hl : 1 ≤ lookback) (hlb : lookback ≤ (window - 1) * 10 + 1) :
    NoLookahead ((window - 1) * 10 + 1) fun l : List F => rainbow l window lookback :=
  noLookahead_of (fun l hn => by simpa only [List.length_map] using
    (rainbow_aligned l window lookback hw hl hlb (by omega)).yields) (rainbow_causal window lookback)

theorem coppock_or {data data' : List F} (h0 : data <+: data') (window short long : Nat) :
    OR Pre (coppock data window short long) (coppock data' window short long) := by
  causal [coppock]

macro_rules | `(tactic| causal_fn) => `(tactic| (with_reducible apply coppock_or))

theorem coppock_causal (window short long : Nat) : Causal fun l : List F => coppock l window short long :=
  causal_of_or fun _ _ h => coppock_or h window short long

/-- no look-ahead -/
theorem coppock_noLookahead (window short long : Nat) (hw : 1 ≤ window) (hs : short ≤ long) :
    NoLookahead (long + (window - 1)) fun l : List F => coppock l window short long :=
  noLookahead_of (fun l hl => by simpa only [List.length_map] using
    (coppock_aligned l window short long hw hs (by omega)).yields) (coppock_causal window short long)

theorem roc_or {data data' : List F} (h0 : data <+: data') (window : Nat) :
    OR Pre (roc data window) (roc data' window) := by
  causal [roc]

macro_rules | `(tactic| causal_fn) => `(tactic| (with_reducible apply roc_or))

theorem roc_causal (window : Nat) : Causal fun l : List F => roc l window :=
  causal_of_or fun _ _ h => roc_or h window

/-- no look-ahead -/
theorem roc_noLookahead (window : Nat) (hw : 1 ≤ window) :
    NoLookahead (window - 1) fun l : List F => roc l window :=
  noLookahead_of (fun l hl => by simpa only [List.length_map] using
    (roc_aligned l window hw (by omega)).yields) (roc_causal window)

theorem bal_power_or {openp openp' high high' low low' close close' : List F} (h0 : openp <+: openp') (h1 : high <+: high') (h2 : low <+: low') (h3 : close <+: close') (window : Nat) :
    OR Pre (bal_power openp high low close window) (bal_power openp' high' low' close' window) := by
  causal [bal_power]

macro_rules | `(tactic| causal_fn) => `(tactic| (with_reducible apply bal_power_or))

theorem bal_power_causal (window : Nat) : Causal fun l : List (Candle F) => bal_power (l.map Candle.openp) (l.map Candle.high) (l.map Candle.low) (l.map Candle.close) window :=
  causal_of_or fun _ _ h => bal_power_or (h.map _) (h.map _) (h.map _) (h.map _) window

/-- no look-ahead -/
theorem bal_power_noLookahead (window : Nat) (hw : 1 ≤ window) :
    NoLookahead (window) fun l : List (Candle F) => bal_power (l.map Candle.openp) (l.map Candle.high) (l.map Candle.low) (l.map Candle.close) window :=
  noLookahead_of (fun l hl => by simpa only [List.length_map] using
    (bal_power_aligned (l.map Candle.openp) (l.map Candle.high) (l.map Candle.low) (l.map Candle.close) window (by simp) (by simp) (by simp) hw (by simp only [List.length_map]; omega)).yields) (bal_power_causal window)

theorem disparity_or {data data' : List F} (h0 : data <+: data') (window : Nat) :
    OR Pre (disparity data window) (disparity data' window) := by
  causal [disparity]

macro_rules | `(tactic| causal_fn) => `(tactic| (with_reducible apply disparity_or))

theorem disparity_causal (window : Nat) : Causal fun l : List F => disparity l window :=
  causal_of_or fun _ _ h => disparity_or h window

/-- no look-ahead -/
theorem disparity_noLookahead (window : Nat) (hw : 1 ≤ window) :
    NoLookahead (window) fun l : List F => disparity l window :=
  noLookahead_of (fun l hl => by simpa only [List.length_map] using
    (disparity_aligned l window hw (by omega)).yields) (disparity_causal window)

theorem qstick_or {openp openp' close close' : List F} (h0 : openp <+: openp') (h1 : close <+: close') (window : Nat) :
    OR Pre (qstick openp close window) (qstick openp' close' window) := by
  causal [qstick]

macro_rules | `(tactic| causal_fn) => `(tactic| (with_reducible apply qstick_or))

theorem qstick_causal (window : Nat) : Causal fun l : List (Candle F) => qstick (l.map Candle.openp) (l.map Candle.close) window :=
  causal_of_or fun _ _ h => qstick_or (h.map _) (h.map _) window

/-- no look-ahead -/
theorem qstick_noLookahead (window : Nat) (hw : 1 ≤ window) :
    NoLookahead (window) fun l : List (Candle F) => qstick (l.map Candle.openp) (l.map Candle.close) window :=
  noLookahead_of (fun l hl => by simpa only [List.length_map] using
    (qstick_aligned (l.map Candle.openp) (l.map Candle.close) window (by simp) hw (by simp only [List.length_map]; omega)).yields) (qstick_causal window)

theorem cog_or {data data' : List F} (h0 : data <+: data') (window : Nat) :
    OR Pre (cog data window) (cog data' window) := by
  causal [cog]

macro_rules | `(tactic| causal_fn) => `(tactic| (with_reducible apply cog_or))

theorem cog_causal (window : Nat) : Causal fun l : List F => cog l window :=
  causal_of_or fun _ _ h => cog_or h window

/-- no look-ahead -/
theorem cog_noLookahead (window : Nat) (hw : 1 ≤ window) :
    NoLookahead (window - 1) fun l : List F => cog l window :=
  noLookahead_of (fun l hl => by simpa only [List.length_map] using
    (cog_aligned l window hw (by omega)).yields) (cog_causal window)

theorem psych_or {data data' : List F} (h0 : data <+: data') (window : Nat) :
    OR Pre (psych data window) (psych data' window) := by
  causal [psych]

macro_rules | `(tactic| causal_fn) => `(tactic| (with_reducible apply psych_or))

theorem psych_causal (window : Nat) : Causal fun l : List F => psych l window :=
  causal_of_or fun _ _ h => psych_or h window

/-- no look-ahead -/
theorem psych_noLookahead (window : Nat) (hw : 1 ≤ window) :
    NoLookahead (window) fun l : List F => psych l window :=
  noLookahead_of (fun l hl => by simpa only [List.length_map] using
    (psych_aligned l window hw (by omega)).yields) (psych_causal window)

theorem tsi_or {data data' : List F} (h0 : data <+: data') (short long : Nat) :
    OR Pre (tsi data short long) (tsi data' short long) := by
  causal [tsi]

macro_rules | `(tactic| causal_fn) => `(tactic| (with_reducible apply tsi_or))

theorem tsi_causal (short long : Nat) : Causal fun l : List F => tsi l short long :=
  causal_of_or fun _ _ h => tsi_or h short long

/-- no look-ahead -/
theorem tsi_noLookahead (short long : Nat) (h1 : 1 ≤ short) (h2 : 1 ≤ long) :
    NoLookahead (long + short) fun l : List F => tsi l short long :=
  noLookahead_of (fun l hl => by simpa only [List.length_map] using
    (tsi_aligned l short long h1 h2 (by omega)).yields) (tsi_causal short long)

theorem pringRoc_or {data data' : List F} (h0 : data <+: data') (r : Nat) :
    OR Pre (pringRoc data r) (pringRoc data' r) := by
  causal [pringRoc]

macro_rules | `(tactic| causal_fn) => `(tactic| (with_reducible apply pringRoc_or))

theorem addAt_or {r r' : List F} {i : Nat} {v : F} (h : r <+: r') : OR Pre (addAt r i v) (addAt r' i v) := by
  obtain ⟨t, rfl⟩ := h
  intro a b ha hb
  simp only [addAt, Option.bind_eq_bind, Option.bind_eq_some_iff] at ha hb
  obtain ⟨x, hx, ha⟩ := ha
  obtain ⟨y, hy, hb⟩ := hb
  have hi := (List.getElem?_eq_some_iff.1 hx).1
  rw [List.getElem?_append_left hi, hx] at hy
  cases hy
  cases ha
  cases hb
  rw [List.set_append_left _ _ hi]
  exact List.prefix_append _ _

theorem addAt_beyond {r r' s : List F} {i : Nat} {v : F} (h : r <+: r') (hi : r.length ≤ i)
    (hs : addAt r' i v = some s) : r <+: s := by
  obtain ⟨t, rfl⟩ := h
  simp only [addAt, Option.bind_eq_bind, Option.bind_eq_some_iff] at hs
  obtain ⟨x, hx, hs⟩ := hs
  cases hs
  rw [List.set_append_right _ _ hi]
  exact List.prefix_append _ _

theorem addAt_length {r s : List F} {i : Nat} {v : F} (hs : addAt r i v = some s) : s.length = r.length := by
  simp only [addAt, Option.bind_eq_bind, Option.bind_eq_some_iff] at hs
  obtain ⟨x, hx, hs⟩ := hs
  cases hs
  simp

theorem pringFold_length {l : List (Nat × F)} {rocWin roc0 maWin period0 : Nat} {mult : F} {r o : List F}
    (h : l.foldlM (fun res (x : Nat × F) => (usub rocWin roc0).bind fun a =>
        (usub maWin period0).bind fun b => addAt res (x.1 + a + b) (x.2 * mult)) r = some o) :
    o.length = r.length := by
  induction l generalizing r with
  | nil => cases h; rfl
  | cons x l ih =>
    rw [List.foldlM_cons] at h
    simp only [Option.bind_eq_bind, Option.bind_eq_some_iff] at h
    obtain ⟨s, ⟨a, -, b, -, hs⟩, h⟩ := h
    rw [ih h, addAt_length hs]

theorem pringFold_or {vals vals' : List F} (hv : vals <+: vals') {rocWin roc0 maWin period0 : Nat}
    {mult : F} {r r' : List F} (h : r <+: r')
    (hl : ∀ a b, usub rocWin roc0 = some a → usub maWin period0 = some b → r.length ≤ vals.length + a + b) :
    OR Pre
      (((List.range vals.length).zip vals).foldlM (fun res (x : Nat × F) => (usub rocWin roc0).bind fun a =>
        (usub maWin period0).bind fun b => addAt res (x.1 + a + b) (x.2 * mult)) r)
      (((List.range vals'.length).zip vals').foldlM (fun res (x : Nat × F) => (usub rocWin roc0).bind fun a =>
        (usub maWin period0).bind fun b => addAt res (x.1 + a + b) (x.2 * mult)) r') := by
  obtain ⟨t, ht⟩ := pre_zip (pre_range_length hv) hv
  rw [← ht, List.foldlM_append]
  have htail : ∀ x ∈ t, vals.length ≤ x.1 := by
    intro x hx
    obtain ⟨j, hj, rfl⟩ := List.mem_iff_getElem.1 hx
    have : ((List.range vals'.length).zip vals')[vals.length + j]? = some t[j] := by
      rw [← ht, List.getElem?_append_right (by simp)]
      simp [hj]
    rw [List.getElem?_zip_eq_some] at this
    have h1 := this.1
    obtain ⟨h2, h3⟩ := List.getElem?_eq_some_iff.1 h1
    simp at h3
    omega
  intro o o' ho ho'
  simp only [Option.bind_eq_bind, Option.bind_eq_some_iff] at ho'
  obtain ⟨m, hm, ho'⟩ := ho'
  have h1 : o <+: m := by
    refine or_foldlM (R := Pre) h (fun s s' x hs => ?_) o m ho hm
    refine OR.bind_same fun a => OR.bind_same fun b => addAt_or hs
  have h2 : o.length = r.length := pringFold_length ho
  clear hm ho
  clear ht
  induction t generalizing m with
  | nil => cases ho'; exact h1
  | cons x t ih =>
    rw [List.foldlM_cons] at ho'
    simp only [Option.bind_eq_bind, Option.bind_eq_some_iff] at ho'
    obtain ⟨s, ⟨a, ha, b, hb, hs⟩, ho'⟩ := ho'
    have := htail x (by simp)
    have := hl a b ha hb
    exact ih (fun y hy => htail y (by simp [hy])) s ho' (addAt_beyond h1 (by omega) hs)

theorem pringStep_or {data data' : List F} (h0 : data <+: data') {roc0 period0 : Nat} {p : Nat × Nat × F}
    {r r' : List F} (h : r <+: r') (hp : 1 ≤ period0)
    (hl : r.length = data.length - roc0 - (period0 - 1)) (hl' : r'.length = data'.length - roc0 - (period0 - 1)) :
    OR (fun o o' : List F => o <+: o' ∧ o.length = r.length ∧ o'.length = r'.length)
      (pringStep data roc0 period0 r p) (pringStep data' roc0 period0 r' p) := by
  obtain ⟨rocWin, maWin, mult⟩ := p
  intro o o' ho ho'
  obtain ⟨roc, er, lr⟩ := pringRoc_yields data rocWin
  obtain ⟨roc', er', lr'⟩ := pringRoc_yields data' rocWin
  have hroc : roc <+: roc' := pringRoc_or h0 rocWin roc roc' er er'
  simp only [pringStep, er, er', Option.bind_eq_bind, Option.bind_some] at ho ho'
  -- the fold for the longer history, whichever branch the shorter one takes
  have main : ∀ (vals vals' : List F), vals <+: vals' → vals.length = roc.length + 1 - maWin →
      1 ≤ maWin →
      ((List.range vals'.length).zip vals').foldlM (fun res (x : Nat × F) => (usub rocWin roc0).bind fun a =>
        (usub maWin period0).bind fun b => addAt res (x.1 + a + b) (x.2 * mult)) r' = some o' →
      ((List.range vals.length).zip vals).foldlM (fun res (x : Nat × F) => (usub rocWin roc0).bind fun a =>
        (usub maWin period0).bind fun b => addAt res (x.1 + a + b) (x.2 * mult)) r = some o →
      o <+: o' ∧ o.length = r.length ∧ o'.length = r'.length := by
    intro vals vals' hv hlen hm1 f1 f2
    refine ⟨pringFold_or hv h ?_ o o' f2 f1, pringFold_length f2, pringFold_length f1⟩
    intro a b ha hb
    have e1 : rocWin - roc0 = a ∧ roc0 ≤ rocWin := by simp [usub] at ha; exact ⟨ha.2, ha.1⟩
    have e2 : maWin - period0 = b ∧ period0 ≤ maWin := by simp [usub] at hb; exact ⟨hb.2, hb.1⟩
    omega
  have sm : ∀ rc m : List F, Smooth.sma rc maWin = some m → 1 ≤ maWin ∧ m.drop (maWin - 1) =
      (windowsOf maWin rc).map fun w => fsum w / flt maWin := by
    intro rc m hm
    have h1 : 1 ≤ maWin := by
      by_contra hc
      simp [Smooth.sma, usub, show ¬ (1 ≤ maWin) from hc] at hm
    have : Smooth.sma rc maWin = some (nans (maWin - 1) ++ (windowsOf maWin rc).map fun w =>
        fsum w / flt maWin) := by run_model [Smooth.sma]
    rw [this] at hm
    cases hm
    exact ⟨h1, List.drop_left' (by simp)⟩
  cases hc' : roc'.isEmpty with
  | true =>
    have hc : roc.isEmpty = true := by
      have := hroc.length_le
      have h2 : roc'.length = 0 := by simpa using hc'
      simpa using List.length_eq_zero_iff.1 (by omega : roc.length = 0)
    rw [if_pos hc] at ho
    rw [if_pos hc'] at ho'
    cases ho
    cases ho'
    exact ⟨h, rfl, rfl⟩
  | false =>
    rw [if_neg (by simp [hc'])] at ho'
    simp only [Option.bind_eq_some_iff] at ho'
    obtain ⟨m', hm', k, hk, ho'⟩ := ho'
    obtain ⟨m1, sm'⟩ := sm _ _ hm'
    have hk' : k = maWin - 1 := by simp [usub] at hk; exact hk.2.symm
    subst hk'
    rw [sm'] at ho'
    cases hc : roc.isEmpty with
    | true =>
      rw [if_pos hc] at ho
      cases ho
      have hr0 : roc.length = 0 := by simpa using hc
      refine main [] _ List.nil_prefix ?_ m1 ho' rfl
      simp [hr0]
      omega
    | false =>
      rw [if_neg (by simp [hc])] at ho
      simp only [Option.bind_eq_some_iff] at ho
      obtain ⟨m, hm, k, hk, ho⟩ := ho
      obtain ⟨-, sm1⟩ := sm _ _ hm
      have hk' : k = maWin - 1 := by simp [usub] at hk; exact hk.2.symm
      subst hk'
      rw [sm1] at ho
      exact main _ _ ((pre_windowsOf hroc (by omega)).map _) (by simp) m1 ho' ho

theorem prings_or {data data' : List F} (h0 : data <+: data') (rocs periods : List Nat) (mult : List F) :
    OR Pre (prings data rocs periods mult) (prings data' rocs periods mult) := by
  simp only [prings, Option.bind_eq_bind]
  refine OR.bind_same fun roc0 => OR.bind_same fun period0 => ?_
  intro o o' ho ho'
  simp only [Option.bind_eq_some_iff] at ho ho'
  obtain ⟨a, ha, p1, hp, n, hn, res, hres, ho⟩ := ho
  obtain ⟨a', ha', p1', hp', n', hn', res', hres', ho'⟩ := ho'
  rw [hp] at hp'
  cases hp'
  cases ho
  cases ho'
  have hle := h0.length_le
  simp [usub] at ha hp hn ha' hn'
  refine pre_append ?_
  have := or_foldlM (R := fun o o' : List F => o <+: o' ∧ o.length = data.length - roc0 - (period0 - 1) ∧
      o'.length = data'.length - roc0 - (period0 - 1)) (s := List.replicate n (0 : F))
      (t := List.replicate n' (0 : F)) (f := pringStep data roc0 period0) (g := pringStep data' roc0 period0)
      (l := zip3 rocs periods mult) ?_ ?_ res res' hres hres'
  · exact this.1
  · refine ⟨?_, by simp; omega, by simp; omega⟩
    exact ⟨List.replicate (n' - n) 0, by rw [List.replicate_append_replicate]; congr 1; omega⟩
  · rintro s t x ⟨hst, l1, l2⟩
    intro u v hu hv
    have := pringStep_or h0 hst hp.1 l1 l2 u v hu hv
    exact ⟨this.1, by omega, by omega⟩

macro_rules | `(tactic| causal_fn) => `(tactic| (with_reducible apply prings_or))

theorem special_k_or {data data' : List F} (h0 : data <+: data') :
    OR Pre (special_k data) (special_k data') := prings_or h0 _ _ _

macro_rules | `(tactic| causal_fn) => `(tactic| (with_reducible apply special_k_or))

theorem special_k_causal  : Causal fun l : List F => special_k l :=
  causal_of_or fun _ _ h => special_k_or h 

/-- no look-ahead -/
theorem special_k_noLookahead   :
    NoLookahead (19) fun l : List F => special_k l :=
  noLookahead_of (fun l hl => by simpa only [List.length_map] using
    (special_k_aligned l (by omega)).yields) (special_k_causal )

theorem kst_or {data data' : List F} (h0 : data <+: data') (rocs periods : Option (Nat × Nat × Nat × Nat)) :
    OR Pre (kst data rocs periods) (kst data' rocs periods) := by
  causal [kst]

macro_rules | `(tactic| causal_fn) => `(tactic| (with_reducible apply kst_or))

theorem kst_causal (rocs periods : Option (Nat × Nat × Nat × Nat)) : Causal fun l : List F => kst l rocs periods :=
  causal_of_or fun _ _ h => kst_or h rocs periods

/-- no look-ahead -/
theorem kst_noLookahead (rocs periods : Option (Nat × Nat × Nat × Nat)) (r1 r2 r3 r4 p1 p2 p3 p4 : Nat) (e1 : rocs.getD (10, 15, 20, 30) = (r1, r2, r3, r4)) (e2 : periods.getD (10, 10, 10, 15) = (p1, p2, p3, p4)) (hp : 1 ≤ p1) (hr : r1 ≤ r2 ∧ r1 ≤ r3 ∧ r1 ≤ r4) (hpp : p1 ≤ p2 ∧ p1 ≤ p3 ∧ p1 ≤ p4) :
    NoLookahead (r1 + (p1 - 1)) fun l : List F => kst l rocs periods :=
  noLookahead_of (fun l hl => by simpa only [List.length_map] using
    (kst_aligned l rocs periods r1 r2 r3 r4 p1 p2 p3 p4 e1 e2 hp hr hpp (by omega)).yields) (kst_causal rocs periods)

theorem derivative_or {data data' : List F} (h0 : data <+: data') (win1 win2 signal : Nat) :
    OR Pre (derivative data win1 win2 signal) (derivative data' win1 win2 signal) := by
  causal [derivative]

macro_rules | `(tactic| causal_fn) => `(tactic| (with_reducible apply derivative_or))

theorem derivative_causal (win1 win2 signal : Nat) : Causal fun l : List F => derivative l win1 win2 signal :=
  causal_of_or fun _ _ h => derivative_or h win1 win2 signal

/-- no look-ahead -/
theorem derivative_noLookahead (win1 win2 signal : Nat) (h1 : 1 ≤ win1) (h2 : 1 ≤ win2) (h3 : 1 ≤ signal) :
    NoLookahead (2 * win1 - 1 + (win2 - 1) + (signal - 1) + 1) fun l : List F => derivative l win1 win2 signal :=
  noLookahead_of (fun l hl => by simpa only [List.length_map] using
    (derivative_aligned l win1 win2 signal h1 h2 h3 (by omega)).yields) (derivative_causal win1 win2 signal)

theorem cci_or {high high' low low' close close' : List F} (h0 : high <+: high') (h1 : low <+: low') (h2 : close <+: close') (window : Nat) :
    OR Pre (cci high low close window) (cci high' low' close' window) := by
  causal [cci]

macro_rules | `(tactic| causal_fn) => `(tactic| (with_reducible apply cci_or))

theorem cci_causal (window : Nat) : Causal fun l : List (Candle F) => cci (l.map Candle.high) (l.map Candle.low) (l.map Candle.close) window :=
  causal_of_or fun _ _ h => cci_or (h.map _) (h.map _) (h.map _) window

/-- no look-ahead -/
theorem cci_noLookahead (window : Nat) (hw : 1 ≤ window) :
    NoLookahead (window - 1) fun l : List (Candle F) => cci (l.map Candle.high) (l.map Candle.low) (l.map Candle.close) window :=
  noLookahead_of (fun l hl => by simpa only [List.length_map] using
    (cci_aligned (l.map Candle.high) (l.map Candle.low) (l.map Candle.close) window (by simp) (by simp) hw (by simp only [List.length_map]; omega)).yields) (cci_causal window)

theorem qqe_or {data data' : List F} (h0 : data <+: data') (window smoothing : Nat) :
    OR Pre (qqe data window smoothing) (qqe data' window smoothing) := by
  causal [qqe]
  causal [qqeStep]

macro_rules | `(tactic| causal_fn) => `(tactic| (with_reducible apply qqe_or))

theorem qqe_causal (window smoothing : Nat) : Causal fun l : List F => qqe l window smoothing :=
  causal_of_or fun _ _ h => qqe_or h window smoothing

/-- no look-ahead -/
theorem qqe_noLookahead (window smoothing : Nat) (hw : 1 ≤ window) (hs : 1 ≤ smoothing) :
    NoLookahead (3 * window + (smoothing - 1)) fun l : List F => qqe l window smoothing :=
  noLookahead_of (fun l hl => by simpa only [List.length_map] using
    (qqe_aligned l window smoothing hw hs (by omega)).yields) (qqe_causal window smoothing)

theorem deli_or {high high' low low' : List F} (h0 : high <+: high') (h1 : low <+: low') (window : Nat) :
    OR Pre (deli high low window) (deli high' low' window) := by
  causal [deli]

macro_rules | `(tactic| causal_fn) => `(tactic| (with_reducible apply deli_or))

theorem deli_causal (window : Nat) : Causal fun l : List (Candle F) => deli (l.map Candle.high) (l.map Candle.low) window :=
  causal_of_or fun _ _ h => deli_or (h.map _) (h.map _) window

/-- no look-ahead -/
theorem deli_noLookahead (window : Nat) (hw : 1 ≤ window) :
    NoLookahead (3 * window) fun l : List (Candle F) => deli (l.map Candle.high) (l.map Candle.low) window :=
  noLookahead_of (fun l hl => by simpa only [List.length_map] using
    (deli_aligned (l.map Candle.high) (l.map Candle.low) window (by simp) hw (by simp only [List.length_map]; omega)).yields) (deli_causal window)

/-- C09: both lines of `gator` are final up to the last bar of the history plus the smallest offset. -/
theorem gator_stable (jw jo tw to_ lw lo : Nat) (h1 : 1 ≤ jw) (h2 : 1 ≤ tw) (h3 : 1 ≤ lw)
    (past future : List F) (n1 : jw ≤ past.length + 1) (n2 : tw ≤ past.length + 1)
    (n3 : lw ≤ past.length + 1) : ∃ out out', gator past jw jo tw to_ lw lo = some out ∧
      gator (past ++ future) jw jo tw to_ lw lo = some out' ∧
      out.take (past.length + min (min jo to_) lo) <+: out' := by
  obtain ⟨a, a', e, e', p1, p2, p3⟩ := Trend.alligator_lines_stable jw jo tw to_ lw lo h1 h2 h3 past future n1 n2 n3
  refine ⟨_, _, by run_model [gator, e]; rfl, by run_model [gator, e']; rfl, ?_⟩
  have key : ∀ l : List (F × F × F), l = (l.map fun x => x.1).zip ((l.map fun x => x.2.1).zip (l.map fun x => x.2.2)) := by
    intro l
    induction l with
    | nil => rfl
    | cons x l ih => simp [← ih]
  rw [← List.map_take]
  apply List.IsPrefix.map
  rw [key a, key a']
  exact Trend.take_zip_pre (Trend.take_pre_mono p1 (by omega))
    (Trend.take_zip_pre (Trend.take_pre_mono p2 (by omega)) (Trend.take_pre_mono p3 (by omega)))

example (a b c d e f : F) : ∃ out out', gator [a, b, c, d, e] 3 2 2 1 2 1 = some out ∧
      gator [a, b, c, d, e, f] 3 2 2 1 2 1 = some out' ∧ out.take 6 <+: out' :=
  gator_stable 3 2 2 1 2 1 (by decide) (by decide) (by decide) [a, b, c, d, e] [f] (by simp) (by simp) (by simp)

/-- What the statement says on a concrete history. -/
example (a b c d e f : F) : ∃ out out', rsi [a, b, c, d, e] 3 = some out ∧
    rsi [a, b, c, d, e, f] 3 = some out' ∧ out.length = 5 ∧ out <+: out' := by
  obtain ⟨o, o', h1, h2, h3, -, h5⟩ := rsi_noLookahead (F := F) 3 (by decide) [a, b, c, d, e] [f] (by simp)
  exact ⟨o, o', h1, h2, h3, h5⟩

end Traquer.Momentum
