import Verif.Lemmas.Causal
import Verif.Props.ShapeSmooth
/-!
# C08: no look-ahead in the moving averages
-/

namespace Traquer.Smooth
open FloatLit
variable {F : Type} [FloatOps F]

theorem ewma_or {data data' : List F} (h0 : data <+: data') (window : Nat) :
    OR Pre (ewma data window) (ewma data' window) := by
  causal [ewma]

macro_rules | `(tactic| causal_fn) => `(tactic| (with_reducible apply ewma_or))

theorem ewma_causal (window : Nat) : Causal fun l : List F => ewma l window :=
  causal_of_or fun _ _ h => ewma_or h window

/-- no look-ahead -/
theorem ewma_noLookahead (window : Nat) (h : 1 ≤ window) :
    NoLookahead (window) fun l : List F => ewma l window :=
  noLookahead_of (fun l hl => by simpa only [List.length_map] using
    (ewma_aligned l window h (by omega)).yields) (ewma_causal window)

theorem sma_or {data data' : List F} (h0 : data <+: data') (window : Nat) :
    OR Pre (sma data window) (sma data' window) := by
  causal [sma]

macro_rules | `(tactic| causal_fn) => `(tactic| (with_reducible apply sma_or))

theorem sma_causal (window : Nat) : Causal fun l : List F => sma l window :=
  causal_of_or fun _ _ h => sma_or h window

/-- no look-ahead -/
theorem sma_noLookahead (window : Nat) (h : 1 ≤ window) :
    NoLookahead (window - 1) fun l : List F => sma l window :=
  noLookahead_of (fun l hl => by simpa only [List.length_map] using
    (sma_aligned l window h (by omega)).yields) (sma_causal window)

theorem dema_or {data data' : List F} (h0 : data <+: data') (window : Nat) :
    OR Pre (dema data window) (dema data' window) := by
  causal [dema]

macro_rules | `(tactic| causal_fn) => `(tactic| (with_reducible apply dema_or))

theorem dema_causal (window : Nat) : Causal fun l : List F => dema l window :=
  causal_of_or fun _ _ h => dema_or h window

/-- no look-ahead -/
theorem dema_noLookahead (window : Nat) (h : 1 ≤ window) :
    NoLookahead (2 * window - 1) fun l : List F => dema l window :=
  noLookahead_of (fun l hl => by simpa only [List.length_map] using
    (dema_aligned l window h (by omega)).yields) (dema_causal window)

theorem tema_or {data data' : List F} (h0 : data <+: data') (window : Nat) :
    OR Pre (tema data window) (tema data' window) := by
  causal [tema]

macro_rules | `(tactic| causal_fn) => `(tactic| (with_reducible apply tema_or))

theorem tema_causal (window : Nat) : Causal fun l : List F => tema l window :=
  causal_of_or fun _ _ h => tema_or h window

/-- no look-ahead -/
theorem tema_noLookahead (window : Nat) (h : 1 ≤ window) :
    NoLookahead (3 * window - 2) fun l : List F => tema l window :=
  noLookahead_of (fun l hl => by simpa only [List.length_map] using
    (tema_aligned l window h (by omega)).yields) (tema_causal window)

theorem wma_or {data data' : List F} (h0 : data <+: data') (window : Nat) :
    OR Pre (wma data window) (wma data' window) := by
  causal [wma]

macro_rules | `(tactic| causal_fn) => `(tactic| (with_reducible apply wma_or))

theorem wma_causal (window : Nat) : Causal fun l : List F => wma l window :=
  causal_of_or fun _ _ h => wma_or h window

/-- no look-ahead -/
theorem wma_noLookahead (window : Nat) (h : 1 ≤ window) :
    NoLookahead (window - 1) fun l : List F => wma l window :=
  noLookahead_of (fun l hl => by simpa only [List.length_map] using
    (wma_aligned l window h (by omega)).yields) (wma_causal window)

theorem pwma_or {data data' : List F} (h0 : data <+: data') (window : Nat) :
    OR Pre (pwma data window) (pwma data' window) := by
  causal [pwma]

macro_rules | `(tactic| causal_fn) => `(tactic| (with_reducible apply pwma_or))

theorem pwma_causal (window : Nat) : Causal fun l : List F => pwma l window :=
  causal_of_or fun _ _ h => pwma_or h window

/-- no look-ahead -/
theorem pwma_noLookahead (window : Nat) (h : 1 ≤ window) (hp : window ≤ 63) :
    NoLookahead (window - 1) fun l : List F => pwma l window :=
  noLookahead_of (fun l hl => by simpa only [List.length_map] using
    (pwma_aligned l window h hp (by omega)).yields) (pwma_causal window)

theorem fwma_or {data data' : List F} (h0 : data <+: data') (window : Nat) :
    OR Pre (fwma data window) (fwma data' window) := by
  causal [fwma]

macro_rules | `(tactic| causal_fn) => `(tactic| (with_reducible apply fwma_or))

theorem fwma_causal (window : Nat) : Causal fun l : List F => fwma l window :=
  causal_of_or fun _ _ h => fwma_or h window

/-- no look-ahead -/
theorem fwma_noLookahead (window : Nat) (h : 2 ≤ window) :
    NoLookahead (window - 1) fun l : List F => fwma l window :=
  noLookahead_of (fun l hl => by simpa only [List.length_map] using
    (fwma_aligned l window h (by omega)).yields) (fwma_causal window)

theorem lrf_or {data data' : List F} (h0 : data <+: data') (window : Nat) :
    OR Pre (lrf data window) (lrf data' window) := by
  causal [lrf]

macro_rules | `(tactic| causal_fn) => `(tactic| (with_reducible apply lrf_or))

theorem lrf_causal (window : Nat) : Causal fun l : List F => lrf l window :=
  causal_of_or fun _ _ h => lrf_or h window

/-- no look-ahead -/
theorem lrf_noLookahead (window : Nat) (h : 1 ≤ window) :
    NoLookahead (window - 1) fun l : List F => lrf l window :=
  noLookahead_of (fun l hl => by simpa only [List.length_map] using
    (lrf_aligned l window h (by omega)).yields) (lrf_causal window)

theorem wilder_or {data data' : List F} (h0 : data <+: data') (window : Nat) :
    OR Pre (wilder data window) (wilder data' window) := by
  causal [wilder]

macro_rules | `(tactic| causal_fn) => `(tactic| (with_reducible apply wilder_or))

theorem wilder_causal (window : Nat) : Causal fun l : List F => wilder l window :=
  causal_of_or fun _ _ h => wilder_or h window

/-- no look-ahead -/
theorem wilder_noLookahead (window : Nat) (h : 1 ≤ window) :
    NoLookahead (window - 1) fun l : List F => wilder l window :=
  noLookahead_of (fun l hl => by simpa only [List.length_map] using
    (wilder_aligned l window h (by omega)).yields) (wilder_causal window)

theorem trima_or {data data' : List F} (h0 : data <+: data') (window : Nat) :
    OR Pre (trima data window) (trima data' window) := by
  causal [trima]

macro_rules | `(tactic| causal_fn) => `(tactic| (with_reducible apply trima_or))

theorem trima_causal (window : Nat) : Causal fun l : List F => trima l window :=
  causal_of_or fun _ _ h => trima_or h window

/-- no look-ahead -/
theorem trima_noLookahead (window : Nat) (h : 1 ≤ window) :
    NoLookahead (window - 1) fun l : List F => trima l window :=
  noLookahead_of (fun l hl => by simpa only [List.length_map] using
    (trima_aligned l window h (by omega)).yields) (trima_causal window)

theorem hull_or {data data' : List F} (h0 : data <+: data') (window : Nat) :
    OR Pre (hull data window) (hull data' window) := by
  causal [hull]

macro_rules | `(tactic| causal_fn) => `(tactic| (with_reducible apply hull_or))

theorem hull_causal (window : Nat) : Causal fun l : List F => hull l window :=
  causal_of_or fun _ _ h => hull_or h window

/-- no look-ahead -/
theorem hull_noLookahead (window r : Nat) (h : 1 ≤ window) (hr : toUsize (floor (sqrt (flt window : F))) = r) (h1 : 1 ≤ r) :
    NoLookahead (window + r - 2) fun l : List F => hull l window :=
  noLookahead_of (fun l hl => by simpa only [List.length_map] using
    (hull_aligned l window r h hr h1 (by omega)).yields) (hull_causal window)

theorem cmoRaw_or {data data' : List F} (h0 : data <+: data') (window : Nat) :
    OR Pre (cmoRaw data window) (cmoRaw data' window) := by
  causal [cmoRaw, gainLoss]

macro_rules | `(tactic| causal_fn) => `(tactic| (with_reducible apply cmoRaw_or))

theorem vma_or {data data' : List F} (h0 : data <+: data') (window : Nat) :
    OR Pre (vma data window) (vma data' window) := by
  causal [vma]

macro_rules | `(tactic| causal_fn) => `(tactic| (with_reducible apply vma_or))

theorem vma_causal (window : Nat) : Causal fun l : List F => vma l window :=
  causal_of_or fun _ _ h => vma_or h window

/-- no look-ahead -/
theorem vma_noLookahead (window : Nat)  :
    NoLookahead (max window 9) fun l : List F => vma l window :=
  noLookahead_of (fun l hl => by simpa only [List.length_map] using
    (vma_aligned l window (by omega)).yields) (vma_causal window)

theorem stdDevRaw_or {data data' : List F} (h0 : data <+: data') (window : Nat) :
    OR Pre (Distribution.stdDevRaw data window) (Distribution.stdDevRaw data' window) := by
  causal [Distribution.stdDevRaw]

macro_rules | `(tactic| causal_fn) => `(tactic| (with_reducible apply stdDevRaw_or))

theorem vidya_or {data data' : List F} (h0 : data <+: data') (window : Nat) :
    OR Pre (vidya data window) (vidya data' window) := by
  causal [vidya]

macro_rules | `(tactic| causal_fn) => `(tactic| (with_reducible apply vidya_or))

theorem vidya_causal (window : Nat) : Causal fun l : List F => vidya l window :=
  causal_of_or fun _ _ h => vidya_or h window

/-- no look-ahead -/
theorem vidya_noLookahead (window : Nat)  :
    NoLookahead (23) fun l : List F => vidya l window :=
  noLookahead_of (fun l hl => by simpa only [List.length_map] using
    (vidya_aligned l window (by omega)).yields) (vidya_causal window)

theorem zlma_or {data data' : List F} (h0 : data <+: data') (window : Nat) :
    OR Pre (zlma data window) (zlma data' window) := by
  causal [zlma]

macro_rules | `(tactic| causal_fn) => `(tactic| (with_reducible apply zlma_or))

theorem zlma_causal (window : Nat) : Causal fun l : List F => zlma l window :=
  causal_of_or fun _ _ h => zlma_or h window

/-- no look-ahead -/
theorem zlma_noLookahead (window : Nat) (h : 1 ≤ window) :
    NoLookahead (window + (window - 1) / 2) fun l : List F => zlma l window :=
  noLookahead_of (fun l hl => by simpa only [List.length_map] using
    (zlma_aligned l window h (by omega)).yields) (zlma_causal window)

theorem kama_or {data data' : List F} (h0 : data <+: data') (window : Nat) (short long : Option Nat) :
    OR Pre (kama data window short long) (kama data' window short long) := by
  causal [kama, effRatio]

macro_rules | `(tactic| causal_fn) => `(tactic| (with_reducible apply kama_or))

theorem kama_causal (window : Nat) (short long : Option Nat) : Causal fun l : List F => kama l window short long :=
  causal_of_or fun _ _ h => kama_or h window short long

/-- no look-ahead -/
theorem kama_noLookahead (window : Nat) (short long : Option Nat) (h : 1 ≤ window) :
    NoLookahead (window - 1) fun l : List F => kama l window short long :=
  noLookahead_of (fun l hl => by simpa only [List.length_map] using
    (kama_aligned l window short long h (by omega)).yields) (kama_causal window short long)

theorem alma_or {data data' : List F} (h0 : data <+: data') (window : Nat) (sigma : F) (mu : Option F) :
    OR Pre (alma data window sigma mu) (alma data' window sigma mu) := by
  causal [alma]

macro_rules | `(tactic| causal_fn) => `(tactic| (with_reducible apply alma_or))

theorem alma_causal (window : Nat) (sigma : F) (mu : Option F) : Causal fun l : List F => alma l window sigma mu :=
  causal_of_or fun _ _ h => alma_or h window sigma mu

/-- no look-ahead -/
theorem alma_noLookahead (window : Nat) (sigma : F) (mu : Option F) (h : 1 ≤ window) :
    NoLookahead (window) fun l : List F => alma l window sigma mu :=
  noLookahead_of (fun l hl => by simpa only [List.length_map] using
    (alma_aligned l window sigma mu h (by omega)).yields) (alma_causal window sigma mu)

theorem mdma_or {data data' : List F} (h0 : data <+: data') (window : Nat) :
    OR Pre (mdma data window) (mdma data' window) := by
  causal [mdma]

macro_rules | `(tactic| causal_fn) => `(tactic| (with_reducible apply mdma_or))

theorem mdma_causal (window : Nat) : Causal fun l : List F => mdma l window :=
  causal_of_or fun _ _ h => mdma_or h window

/-- no look-ahead -/
theorem mdma_noLookahead (window : Nat)  :
    NoLookahead (1) fun l : List F => mdma l window :=
  noLookahead_of (fun l hl => by simpa only [List.length_map] using
    (mdma_aligned l window (by omega)).yields) (mdma_causal window)

theorem hwma_or {data data' : List F} (h0 : data <+: data') (alpha beta gamma : Option F) :
    OR Pre (hwma data alpha beta gamma) (hwma data' alpha beta gamma) := by
  causal [hwma]

macro_rules | `(tactic| causal_fn) => `(tactic| (with_reducible apply hwma_or))

theorem hwma_causal (alpha beta gamma : Option F) : Causal fun l : List F => hwma l alpha beta gamma :=
  causal_of_or fun _ _ h => hwma_or h alpha beta gamma

/-- no look-ahead -/
theorem hwma_noLookahead (alpha beta gamma : Option F)  :
    NoLookahead (1) fun l : List F => hwma l alpha beta gamma :=
  noLookahead_of (fun l hl => by simpa only [List.length_map] using
    (hwma_aligned l alpha beta gamma (by omega)).yields) (hwma_causal alpha beta gamma)

theorem ssf_or {data data' : List F} (h0 : data <+: data') (window : Nat) (poles : Option Bool) :
    OR Pre (ssf data window poles) (ssf data' window poles) := by
  causal [ssf]

macro_rules | `(tactic| causal_fn) => `(tactic| (with_reducible apply ssf_or))

theorem ssf_causal (window : Nat) (poles : Option Bool) : Causal fun l : List F => ssf l window poles :=
  causal_of_or fun _ _ h => ssf_or h window poles

/-- no look-ahead -/
theorem ssf_noLookahead (window : Nat) (poles : Option Bool)  :
    NoLookahead (3) fun l : List F => ssf l window poles :=
  noLookahead_of (fun l hl => by simpa only [List.length_map] using
    (ssf_aligned l window poles (by omega)).yields) (ssf_causal window poles)

theorem t3_or {data data' : List F} (h0 : data <+: data') (window : Nat) (factor : Option F) :
    OR Pre (t3 data window factor) (t3 data' window factor) := by
  causal [t3]

macro_rules | `(tactic| causal_fn) => `(tactic| (with_reducible apply t3_or))

theorem t3_causal (window : Nat) (factor : Option F) : Causal fun l : List F => t3 l window factor :=
  causal_of_or fun _ _ h => t3_or h window factor

/-- no look-ahead -/
theorem t3_noLookahead (window : Nat) (factor : Option F) (h : 1 ≤ window) :
    NoLookahead (6 * (window - 1) + 1) fun l : List F => t3 l window factor :=
  noLookahead_of (fun l hl => by simpa only [List.length_map] using
    (t3_aligned l window factor h (by omega)).yields) (t3_causal window factor)


/-- The successful result of `frama`, `none` for a panic and for the returned error. -/
def framaOk (data : List F) (window : Nat) : Option (List F) :=
  (frama data window).bind fun r => r.toOption

theorem framaOk_or {data data' : List F} (h0 : data <+: data') (window : Nat) :
    OR Pre (framaOk data window) (framaOk data' window) := by
  unfold framaOk frama
  split
  · intro a b ha; simp [Except.toOption] at ha
  · simp only [Option.bind_eq_bind, Option.bind_assoc, Option.bind_some, Except.toOption]
    repeat' causal_step

theorem framaOk_causal (window : Nat) : Causal fun l : List F => framaOk l window :=
  causal_of_or fun _ _ h => framaOk_or h window

/-- no look-ahead -/
theorem frama_noLookahead (window : Nat) (h : 2 ≤ window) (he : window % 2 = 0) :
    NoLookahead (window - 1) fun l : List F => framaOk l window :=
  noLookahead_of (fun l hl => by
    obtain ⟨o, e, o', e', ll, -⟩ := frama_aligned l window h he (by omega)
    cases e'
    exact ⟨o, by simp [framaOk, e, Except.toOption], ll⟩) (framaOk_causal window)

theorem ma_or {data data' : List F} (h0 : data <+: data') (window : Nat) (mode : MaMode) :
    OR Pre (ma data window mode) (ma data' window mode) := by
  cases mode <;> simp only [ma] <;> causal_fn <;> assumption

macro_rules | `(tactic| causal_fn) => `(tactic| (with_reducible apply ma_or))

theorem ma_causal (window : Nat) (mode : MaMode) : Causal fun l : List F => ma l window mode :=
  causal_of_or fun _ _ h => ma_or h window mode

/-- no look-ahead -/
theorem ma_noLookahead (window r : Nat) (mode : MaMode) (h : 1 ≤ window)
    (hr : toUsize (floor (sqrt (flt window : F))) = r) (h1 : 1 ≤ r) (hp : mode = .Pascal → window ≤ 63) :
    NoLookahead (maWarmUp window r mode + 1) fun l : List F => ma l window mode :=
  noLookahead_of (fun l hl => (ma_aligned l window r mode h hr h1 hp hl).yields) (ma_causal window mode)

/-- no look-ahead -/
theorem kernel_noLookahead (sigma : F) : NoLookahead 0 fun l : List F => some (kernel l sigma) :=
  noLookahead_of (fun l _ => ⟨_, rfl, kernel_length l sigma⟩) (causal_of_or fun l l' h => by
    apply OR.some
    rw [Pre, pre_iff]
    intro i x hx
    simp only [kernel, List.getElem?_map, Option.map_eq_some_iff] at hx ⊢
    obtain ⟨j, hj, rfl⟩ := hx
    obtain ⟨hi, rfl⟩ := List.getElem?_eq_some_iff.1 hj
    simp only [List.length_range, List.getElem_range] at hi hj ⊢
    have hl := h.length_le
    refine ⟨i, List.getElem?_range (by omega), ?_⟩
    obtain ⟨t, rfl⟩ := h
    rw [List.take_append_of_le_length (by omega)])

set_option maxHeartbeats 2000000 in
theorem mama_or {data data' : List F} (h0 : data <+: data') (fast slow : Option F) :
    OR Pre (mama data fast slow) (mama data' fast slow) := by
  causal [mama, mamaSmooth]
  causal [mamaStep]

/-- mama never revises an answer (whether it answers is C28). -/
theorem mama_causal (fast slow : Option F) : Causal fun l : List F => mama l fast slow :=
  causal_of_or fun _ _ h => mama_or h fast slow

/-! ## The hypotheses are met by ordinary calls -/

example : NoLookahead 3 fun l : List F => ewma l 3 := ewma_noLookahead 3 (by decide)
example : NoLookahead 3 fun l : List F => frama l 4 |>.bind fun r => r.toOption :=
  frama_noLookahead 4 (by decide) (by decide)
/-- What the statement says on a concrete history: one more bar leaves the five values unchanged. -/
example (a b c d e f : F) : ∃ out out', sma [a, b, c, d, e] 3 = some out ∧
    sma [a, b, c, d, e, f] 3 = some out' ∧ out.length = 5 ∧ out <+: out' := by
  obtain ⟨o, o', h1, h2, h3, -, h5⟩ := sma_noLookahead 3 (by decide) [a, b, c, d, e] [f] (by simp)
  exact ⟨o, o', h1, h2, h3, h5⟩

end Traquer.Smooth
