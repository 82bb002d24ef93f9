import Verif.Props.CausalSmooth
import Verif.Props.ShapeVolume
/-!
# C12: no look-ahead in the volume indicators
-/

namespace Traquer.Volume
open FloatLit
variable {F : Type} [FloatOps F]

omit [FloatOps F] in
theorem tailBars_or {high high' low low' close close' volume volume' : List F} (h0 : high <+: high') (h1 : low <+: low') (h2 : close <+: close') (h3 : volume <+: volume')  :
    OR Pre (tailBars high low close volume) (tailBars high' low' close' volume') := by
  causal [tailBars]

macro_rules | `(tactic| causal_fn) => `(tactic| (with_reducible apply tailBars_or))

theorem vforce_or {high high' low low' close close' volume volume' : List F} (h0 : high <+: high') (h1 : low <+: low') (h2 : close <+: close') (h3 : volume <+: volume')  :
    OR Pre (vforce high low close volume) (vforce high' low' close' volume') := by
  causal [vforce]

macro_rules | `(tactic| causal_fn) => `(tactic| (with_reducible apply vforce_or))

theorem vforce_alt_or {high high' low low' close close' volume volume' : List F} (h0 : high <+: high') (h1 : low <+: low') (h2 : close <+: close') (h3 : volume <+: volume')  :
    OR Pre (vforce_alt high low close volume) (vforce_alt high' low' close' volume') := by
  causal [vforce_alt]

macro_rules | `(tactic| causal_fn) => `(tactic| (with_reducible apply vforce_alt_or))

theorem kvo_or {high high' low low' close close' volume volume' : List F} (h0 : high <+: high') (h1 : low <+: low') (h2 : close <+: close') (h3 : volume <+: volume') (short long : Nat) (alt : Option Bool) :
    OR Pre (kvo high low close volume short long alt) (kvo high' low' close' volume' short long alt) := by
  causal [kvo]

macro_rules | `(tactic| causal_fn) => `(tactic| (with_reducible apply kvo_or))

theorem kvo_causal (short long : Nat) (alt : Option Bool) : Causal fun l : List (Candle F) => kvo (l.map Candle.high) (l.map Candle.low) (l.map Candle.close) (l.map Candle.volume) short long alt :=
  causal_of_or fun _ _ h => kvo_or (h.map _) (h.map _) (h.map _) (h.map _) short long alt

/-- no look-ahead -/
theorem kvo_noLookahead (short long : Nat) (alt : Option Bool) (hs : 1 ≤ short) (hlo : 1 ≤ long) :
    NoLookahead (max short long + 1) fun l : List (Candle F) => kvo (l.map Candle.high) (l.map Candle.low) (l.map Candle.close) (l.map Candle.volume) short long alt :=
  noLookahead_of (fun l hl => by simpa only [List.length_map] using
    (kvo_aligned (l.map Candle.high) (l.map Candle.low) (l.map Candle.close) (l.map Candle.volume) short long alt (by simp) (by simp) (by simp) hs hlo (by simp only [List.length_map]; omega)).yields) (kvo_causal short long alt)

theorem wilder_sum_or {data data' : List F} (h0 : data <+: data') (window : Nat) :
    OR Pre (wilder_sum data window) (wilder_sum data' window) := by
  causal [wilder_sum]

macro_rules | `(tactic| causal_fn) => `(tactic| (with_reducible apply wilder_sum_or))

theorem twiggs_or {high high' low low' close close' volume volume' : List F} (h0 : high <+: high') (h1 : low <+: low') (h2 : close <+: close') (h3 : volume <+: volume') (window : Nat) :
    OR Pre (twiggs high low close volume window) (twiggs high' low' close' volume' window) := by
  causal [twiggs]

macro_rules | `(tactic| causal_fn) => `(tactic| (with_reducible apply twiggs_or))

theorem twiggs_causal (window : Nat) : Causal fun l : List (Candle F) => twiggs (l.map Candle.high) (l.map Candle.low) (l.map Candle.close) (l.map Candle.volume) window :=
  causal_of_or fun _ _ h => twiggs_or (h.map _) (h.map _) (h.map _) (h.map _) window

/-- no look-ahead -/
theorem twiggs_noLookahead (window : Nat) (hw : 1 ≤ window) :
    NoLookahead (window) fun l : List (Candle F) => twiggs (l.map Candle.high) (l.map Candle.low) (l.map Candle.close) (l.map Candle.volume) window :=
  noLookahead_of (fun l hl => by simpa only [List.length_map] using
    (twiggs_aligned (l.map Candle.high) (l.map Candle.low) (l.map Candle.close) (l.map Candle.volume) window (by simp) (by simp) (by simp) hw (by simp only [List.length_map]; omega)).yields) (twiggs_causal window)

theorem ad_or {high high' low low' close close' volume volume' : List F} (h0 : high <+: high') (h1 : low <+: low') (h2 : close <+: close') (h3 : volume <+: volume') (alt : Option Bool) :
    OR Pre (ad high low close volume alt) (ad high' low' close' volume' alt) := by
  causal [ad]

macro_rules | `(tactic| causal_fn) => `(tactic| (with_reducible apply ad_or))

theorem ad_causal (alt : Option Bool) : Causal fun l : List (Candle F) => ad (l.map Candle.high) (l.map Candle.low) (l.map Candle.close) (l.map Candle.volume) alt :=
  causal_of_or fun _ _ h => ad_or (h.map _) (h.map _) (h.map _) (h.map _) alt

/-- no look-ahead -/
theorem ad_noLookahead (alt : Option Bool)  :
    NoLookahead (1) fun l : List (Candle F) => ad (l.map Candle.high) (l.map Candle.low) (l.map Candle.close) (l.map Candle.volume) alt :=
  noLookahead_of (fun l hl => by simpa only [List.length_map] using
    (ad_aligned (l.map Candle.high) (l.map Candle.low) (l.map Candle.close) (l.map Candle.volume) alt (by simp) (by simp) (by simp) (by simp only [List.length_map]; omega)).yields) (ad_causal alt)

theorem elder_force_or {close close' volume volume' : List F} (h0 : close <+: close') (h1 : volume <+: volume') (window : Nat) :
    OR Pre (elder_force close volume window) (elder_force close' volume' window) := by
  causal [elder_force]

macro_rules | `(tactic| causal_fn) => `(tactic| (with_reducible apply elder_force_or))

theorem elder_force_causal (window : Nat) : Causal fun l : List (Candle F) => elder_force (l.map Candle.close) (l.map Candle.volume) window :=
  causal_of_or fun _ _ h => elder_force_or (h.map _) (h.map _) window

/-- no look-ahead -/
theorem elder_force_noLookahead (window : Nat) (hw : 1 ≤ window) :
    NoLookahead (window + 1) fun l : List (Candle F) => elder_force (l.map Candle.close) (l.map Candle.volume) window :=
  noLookahead_of (fun l hl => by simpa only [List.length_map] using
    (elder_force_aligned (l.map Candle.close) (l.map Candle.volume) window (by simp) hw (by simp only [List.length_map]; omega)).yields) (elder_force_causal window)

theorem mfi_or {high high' low low' close close' volume volume' : List F} (h0 : high <+: high') (h1 : low <+: low') (h2 : close <+: close') (h3 : volume <+: volume') (window : Nat) :
    OR Pre (mfi high low close volume window) (mfi high' low' close' volume' window) := by
  causal [mfi]

macro_rules | `(tactic| causal_fn) => `(tactic| (with_reducible apply mfi_or))

theorem mfi_causal (window : Nat) : Causal fun l : List (Candle F) => mfi (l.map Candle.high) (l.map Candle.low) (l.map Candle.close) (l.map Candle.volume) window :=
  causal_of_or fun _ _ h => mfi_or (h.map _) (h.map _) (h.map _) (h.map _) window

/-- no look-ahead -/
theorem mfi_noLookahead (window : Nat) (hw : 1 ≤ window) :
    NoLookahead (window) fun l : List (Candle F) => mfi (l.map Candle.high) (l.map Candle.low) (l.map Candle.close) (l.map Candle.volume) window :=
  noLookahead_of (fun l hl => by simpa only [List.length_map] using
    (mfi_aligned (l.map Candle.high) (l.map Candle.low) (l.map Candle.close) (l.map Candle.volume) window (by simp) (by simp) (by simp) hw (by simp only [List.length_map]; omega)).yields) (mfi_causal window)

theorem cmf_or {high high' low low' close close' volume volume' : List F} (h0 : high <+: high') (h1 : low <+: low') (h2 : close <+: close') (h3 : volume <+: volume') (window : Nat) :
    OR Pre (cmf high low close volume window) (cmf high' low' close' volume' window) := by
  causal [cmf]

macro_rules | `(tactic| causal_fn) => `(tactic| (with_reducible apply cmf_or))

theorem cmf_causal (window : Nat) : Causal fun l : List (Candle F) => cmf (l.map Candle.high) (l.map Candle.low) (l.map Candle.close) (l.map Candle.volume) window :=
  causal_of_or fun _ _ h => cmf_or (h.map _) (h.map _) (h.map _) (h.map _) window

/-- no look-ahead -/
theorem cmf_noLookahead (window : Nat) (hw : 1 ≤ window) :
    NoLookahead (window - 1) fun l : List (Candle F) => cmf (l.map Candle.high) (l.map Candle.low) (l.map Candle.close) (l.map Candle.volume) window :=
  noLookahead_of (fun l hl => by simpa only [List.length_map] using
    (cmf_aligned (l.map Candle.high) (l.map Candle.low) (l.map Candle.close) (l.map Candle.volume) window (by simp) (by simp) (by simp) hw (by simp only [List.length_map]; omega)).yields) (cmf_causal window)

theorem tvi_or {close close' volume volume' : List F} (h0 : close <+: close') (h1 : volume <+: volume') (minTick : F) :
    OR Pre (tvi close volume minTick) (tvi close' volume' minTick) := by
  causal [tvi]

macro_rules | `(tactic| causal_fn) => `(tactic| (with_reducible apply tvi_or))

theorem tvi_causal (minTick : F) : Causal fun l : List (Candle F) => tvi (l.map Candle.close) (l.map Candle.volume) minTick :=
  causal_of_or fun _ _ h => tvi_or (h.map _) (h.map _) minTick

/-- no look-ahead -/
theorem tvi_noLookahead (minTick : F)  :
    NoLookahead (1) fun l : List (Candle F) => tvi (l.map Candle.close) (l.map Candle.volume) minTick :=
  noLookahead_of (fun l hl => by simpa only [List.length_map] using
    (tvi_aligned (l.map Candle.close) (l.map Candle.volume) minTick (by simp) (by simp only [List.length_map]; omega)).yields) (tvi_causal minTick)

theorem ease_or {high high' low low' volume volume' : List F} (h0 : high <+: high') (h1 : low <+: low') (h2 : volume <+: volume') (window : Nat) :
    OR Pre (ease high low volume window) (ease high' low' volume' window) := by
  causal [ease]

macro_rules | `(tactic| causal_fn) => `(tactic| (with_reducible apply ease_or))

theorem ease_causal (window : Nat) : Causal fun l : List (Candle F) => ease (l.map Candle.high) (l.map Candle.low) (l.map Candle.volume) window :=
  causal_of_or fun _ _ h => ease_or (h.map _) (h.map _) (h.map _) window

/-- no look-ahead -/
theorem ease_noLookahead (window : Nat) (hw : 1 ≤ window) :
    NoLookahead (window) fun l : List (Candle F) => ease (l.map Candle.high) (l.map Candle.low) (l.map Candle.volume) window :=
  noLookahead_of (fun l hl => by simpa only [List.length_map] using
    (ease_aligned (l.map Candle.high) (l.map Candle.low) (l.map Candle.volume) window (by simp) (by simp) hw (by simp only [List.length_map]; omega)).yields) (ease_causal window)

theorem obv_or {close close' volume volume' : List F} (h0 : close <+: close') (h1 : volume <+: volume')  :
    OR Pre (obv close volume) (obv close' volume') := by
  causal [obv]

macro_rules | `(tactic| causal_fn) => `(tactic| (with_reducible apply obv_or))

theorem obv_causal  : Causal fun l : List (Candle F) => obv (l.map Candle.close) (l.map Candle.volume) :=
  causal_of_or fun _ _ h => obv_or (h.map _) (h.map _) 

/-- no look-ahead -/
theorem obv_noLookahead   :
    NoLookahead (1) fun l : List (Candle F) => obv (l.map Candle.close) (l.map Candle.volume) :=
  noLookahead_of (fun l hl => by simpa only [List.length_map] using
    (obv_aligned (l.map Candle.close) (l.map Candle.volume) (by simp) (by simp only [List.length_map]; omega)).yields) (obv_causal )

theorem pvi_or {data data' volume volume' : List F} (h0 : data <+: data') (h1 : volume <+: volume')  :
    OR Pre (some (pvi data volume)) (some (pvi data' volume')) := by
  causal [pvi]

theorem pvi_causal  : Causal fun l : List (Candle F) => some (pvi (l.map Candle.close) (l.map Candle.volume)) :=
  causal_of_or fun _ _ h => pvi_or (h.map _) (h.map _) 

/-- no look-ahead -/
theorem pvi_noLookahead   :
    NoLookahead (1) fun l : List (Candle F) => some (pvi (l.map Candle.close) (l.map Candle.volume)) :=
  noLookahead_of (fun l hl => by simpa only [List.length_map] using
    (pvi_aligned (l.map Candle.close) (l.map Candle.volume) (by simp) (by simp only [List.length_map]; omega)).yields) (pvi_causal )

theorem nvi_or {data data' volume volume' : List F} (h0 : data <+: data') (h1 : volume <+: volume')  :
    OR Pre (some (nvi data volume)) (some (nvi data' volume')) := by
  causal [nvi]

theorem nvi_causal  : Causal fun l : List (Candle F) => some (nvi (l.map Candle.close) (l.map Candle.volume)) :=
  causal_of_or fun _ _ h => nvi_or (h.map _) (h.map _) 

/-- no look-ahead -/
theorem nvi_noLookahead   :
    NoLookahead (1) fun l : List (Candle F) => some (nvi (l.map Candle.close) (l.map Candle.volume)) :=
  noLookahead_of (fun l hl => by simpa only [List.length_map] using
    (nvi_aligned (l.map Candle.close) (l.map Candle.volume) (by simp) (by simp only [List.length_map]; omega)).yields) (nvi_causal )

theorem vwapStep_or {s : VwapState F} {r r' n : Nat} {xs : List (Nat × Bar F)}
    (hx : ∀ x ∈ xs, x.1 < n) (h : n ≤ r) (h' : n ≤ r') (hs : s.resets = [r]) :
    scanM vwapStep s xs = scanM vwapStep { s with resets := [r'] } xs := by
  induction xs generalizing s with
  | nil => rfl
  | cons x xs ih =>
    obtain ⟨i, b⟩ := x
    have hi : i < n := hx (i, b) (by simp)
    obtain ⟨tpv, vol, resets⟩ := s
    simp only at hs
    subst hs
    have e1 : i ≠ r := by omega
    have e2 : i ≠ r' := by omega
    have := ih (s := ⟨tpv + (b.1 + b.2.1 + b.2.2.1) / 3 * b.2.2.2, vol + b.2.2.2, [r]⟩) (fun x hx' => hx x (by simp [hx'])) rfl
    simp only [scanM, vwapStep, e1, e2, if_false, this]

theorem vwap_or {high high' low low' close close' volume volume' : List F} (h0 : high <+: high')
    (h1 : low <+: low') (h2 : close <+: close') (h3 : volume <+: volume') (resetIdx : Option (List Nat)) :
    OR Pre (vwap high low close volume resetIdx) (vwap high' low' close' volume' resetIdx) := by
  have hz := pre_zip4 h0 h1 h2 h3
  cases resetIdx with
  | some r =>
    simp only [vwap, Option.getD_some]
    exact or_scanM (pre_zip (pre_range_length hz) hz) fun _ _ => OR.eq_refl _
  | none =>
    simp only [vwap, Option.getD_none]
    rw [vwapStep_or (r' := close'.length) (n := close.length) ?_ (Nat.le_refl _) h2.length_le rfl]
    · exact or_scanM (pre_zip (pre_range_length hz) hz) fun _ _ => OR.eq_refl _
    · intro x hx
      obtain ⟨i, b⟩ := x
      have := (List.of_mem_zip hx).1
      simp at this
      simp only
      omega

macro_rules | `(tactic| causal_fn) => `(tactic| (with_reducible apply vwap_or))

theorem vwap_causal (resetIdx : Option (List Nat)) : Causal fun l : List (Candle F) => vwap (l.map Candle.high) (l.map Candle.low) (l.map Candle.close) (l.map Candle.volume) resetIdx :=
  causal_of_or fun _ _ h => vwap_or (h.map _) (h.map _) (h.map _) (h.map _) resetIdx

/-- no look-ahead -/
theorem vwap_noLookahead (resetIdx : Option (List Nat)) (hr : resetIdx ≠ some []) :
    NoLookahead (0) fun l : List (Candle F) => vwap (l.map Candle.high) (l.map Candle.low) (l.map Candle.close) (l.map Candle.volume) resetIdx :=
  noLookahead_of (fun l hl => by simpa only [List.length_map] using
    (vwap_aligned (l.map Candle.high) (l.map Candle.low) (l.map Candle.close) (l.map Candle.volume) resetIdx (by simp) (by simp) (by simp) hr).yields) (vwap_causal resetIdx)

theorem vwma_or {data data' volume volume' : List F} (h0 : data <+: data') (h1 : volume <+: volume') (window : Nat) :
    OR Pre (vwma data volume window) (vwma data' volume' window) := by
  causal [vwma]

macro_rules | `(tactic| causal_fn) => `(tactic| (with_reducible apply vwma_or))

theorem vwma_causal (window : Nat) : Causal fun l : List (Candle F) => vwma (l.map Candle.close) (l.map Candle.volume) window :=
  causal_of_or fun _ _ h => vwma_or (h.map _) (h.map _) window

/-- no look-ahead -/
theorem vwma_noLookahead (window : Nat) (hw : 1 ≤ window) :
    NoLookahead (window - 1) fun l : List (Candle F) => vwma (l.map Candle.close) (l.map Candle.volume) window :=
  noLookahead_of (fun l hl => by simpa only [List.length_map] using
    (vwma_aligned (l.map Candle.close) (l.map Candle.volume) window (by simp) hw (by simp only [List.length_map]; omega)).yields) (vwma_causal window)

theorem vpt_or {data data' volume volume' : List F} (h0 : data <+: data') (h1 : volume <+: volume')  :
    OR Pre (vpt data volume) (vpt data' volume') := by
  causal [vpt]

macro_rules | `(tactic| causal_fn) => `(tactic| (with_reducible apply vpt_or))

theorem vpt_causal  : Causal fun l : List (Candle F) => vpt (l.map Candle.close) (l.map Candle.volume) :=
  causal_of_or fun _ _ h => vpt_or (h.map _) (h.map _) 

/-- no look-ahead -/
theorem vpt_noLookahead   :
    NoLookahead (1) fun l : List (Candle F) => vpt (l.map Candle.close) (l.map Candle.volume) :=
  noLookahead_of (fun l hl => by simpa only [List.length_map] using
    (vpt_aligned (l.map Candle.close) (l.map Candle.volume) (by simp) (by simp only [List.length_map]; omega)).yields) (vpt_causal )

theorem bw_mfi_pre {high high' low low' volume volume' : List F} (h0 : high <+: high') (h1 : low <+: low') (h2 : volume <+: volume')  : bw_mfi high low volume <+: bw_mfi high' low' volume' := by
  simp only [bw_mfi]
  repeat' causal_step

/-- no look-ahead -/
theorem bw_mfi_noLookahead  : NoLookahead 0 fun l : List (Candle F) => some (bw_mfi (l.map Candle.high) (l.map Candle.low) (l.map Candle.volume)) :=
  noLookahead_of (fun l _ => ⟨_, rfl, by simpa using bw_mfi_length (l.map Candle.high) (l.map Candle.low) (l.map Candle.volume) (by simp) (by simp)⟩)
    (causal_of_or fun _ _ h => OR.some (bw_mfi_pre (h.map _) (h.map _) (h.map _)))

/-- What the statement says on a concrete history. -/
example (a b c d : Candle F) : ∃ out out', obv ([a, b, c].map Candle.close) ([a, b, c].map Candle.volume) =
      some out ∧ obv ([a, b, c, d].map Candle.close) ([a, b, c, d].map Candle.volume) = some out' ∧
    out.length = 3 ∧ out <+: out' := by
  obtain ⟨o, o', h1, h2, h3, -, h5⟩ := obv_noLookahead (F := F) [a, b, c] [d] (by simp)
  exact ⟨o, o', h1, h2, h3, h5⟩

end Traquer.Volume
