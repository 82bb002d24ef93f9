import Verif.Props.CausalSmooth
import Verif.Props.ShapeStats
/-!
# C13: no look-ahead in the statistics and correlations
-/

namespace Traquer.Distribution
open FloatLit
variable {F : Type} [FloatOps F]

theorem variance_or {data data' : List F} (h0 : data <+: data') (window : Nat) :
    OR Pre (variance data window) (variance data' window) := by
  causal [variance]

macro_rules | `(tactic| causal_fn) => `(tactic| (with_reducible apply variance_or))

theorem variance_causal (window : Nat) : Causal fun l : List F => variance l window :=
  causal_of_or fun _ _ h => variance_or h window

/-- no look-ahead -/
theorem variance_noLookahead (window : Nat) (hw : 1 ≤ window) :
    NoLookahead (window - 1) fun l : List F => variance l window :=
  noLookahead_of (fun l hl => by simpa only [List.length_map] using
    (variance_aligned l window hw (by omega)).yields) (variance_causal window)

theorem std_dev_or {data data' : List F} (h0 : data <+: data') (window : Nat) :
    OR Pre (std_dev data window) (std_dev data' window) := by
  causal [std_dev]

macro_rules | `(tactic| causal_fn) => `(tactic| (with_reducible apply std_dev_or))

theorem std_dev_causal (window : Nat) : Causal fun l : List F => std_dev l window :=
  causal_of_or fun _ _ h => std_dev_or h window

/-- no look-ahead -/
theorem std_dev_noLookahead (window : Nat) (hw : 1 ≤ window) :
    NoLookahead (window - 1) fun l : List F => std_dev l window :=
  noLookahead_of (fun l hl => by simpa only [List.length_map] using
    (std_dev_aligned l window hw (by omega)).yields) (std_dev_causal window)

theorem zscore_or {data data' : List F} (h0 : data <+: data') (window : Nat) :
    OR Pre (zscore data window) (zscore data' window) := by
  causal [zscore]

macro_rules | `(tactic| causal_fn) => `(tactic| (with_reducible apply zscore_or))

theorem zscore_causal (window : Nat) : Causal fun l : List F => zscore l window :=
  causal_of_or fun _ _ h => zscore_or h window

/-- no look-ahead -/
theorem zscore_noLookahead (window : Nat) (hw : 1 ≤ window) :
    NoLookahead (window - 1) fun l : List F => zscore l window :=
  noLookahead_of (fun l hl => by simpa only [List.length_map] using
    (zscore_aligned l window hw (by omega)).yields) (zscore_causal window)

theorem mad_or {data data' : List F} (h0 : data <+: data') (window : Nat) :
    OR Pre (mad data window) (mad data' window) := by
  causal [mad]

macro_rules | `(tactic| causal_fn) => `(tactic| (with_reducible apply mad_or))

theorem mad_causal (window : Nat) : Causal fun l : List F => mad l window :=
  causal_of_or fun _ _ h => mad_or h window

/-- no look-ahead -/
theorem mad_noLookahead (window : Nat) (hw : 1 ≤ window) :
    NoLookahead (window - 1) fun l : List F => mad l window :=
  noLookahead_of (fun l hl => by simpa only [List.length_map] using
    (mad_aligned l window hw (by omega)).yields) (mad_causal window)

theorem cv_or {data data' : List F} (h0 : data <+: data') (window : Nat) :
    OR Pre (cv data window) (cv data' window) := by
  causal [cv]

macro_rules | `(tactic| causal_fn) => `(tactic| (with_reducible apply cv_or))

theorem cv_causal (window : Nat) : Causal fun l : List F => cv l window :=
  causal_of_or fun _ _ h => cv_or h window

/-- no look-ahead -/
theorem cv_noLookahead (window : Nat) (hw : 1 ≤ window) :
    NoLookahead (window - 1) fun l : List F => cv l window :=
  noLookahead_of (fun l hl => by simpa only [List.length_map] using
    (cv_aligned l window hw (by omega)).yields) (cv_causal window)

theorem kurtosis_or {data data' : List F} (h0 : data <+: data') (window : Nat) :
    OR Pre (kurtosis data window) (kurtosis data' window) := by
  causal [kurtosis]

macro_rules | `(tactic| causal_fn) => `(tactic| (with_reducible apply kurtosis_or))

theorem kurtosis_causal (window : Nat) : Causal fun l : List F => kurtosis l window :=
  causal_of_or fun _ _ h => kurtosis_or h window

/-- no look-ahead -/
theorem kurtosis_noLookahead (window : Nat) (hw : 3 ≤ window) :
    NoLookahead (window - 1) fun l : List F => kurtosis l window :=
  noLookahead_of (fun l hl => by simpa only [List.length_map] using
    (kurtosis_aligned l window hw (by omega)).yields) (kurtosis_causal window)

theorem skew_or {data data' : List F} (h0 : data <+: data') (window : Nat) :
    OR Pre (skew data window) (skew data' window) := by
  causal [skew]

macro_rules | `(tactic| causal_fn) => `(tactic| (with_reducible apply skew_or))

theorem skew_causal (window : Nat) : Causal fun l : List F => skew l window :=
  causal_of_or fun _ _ h => skew_or h window

/-- no look-ahead -/
theorem skew_noLookahead (window : Nat) (hw : 2 ≤ window) :
    NoLookahead (window - 1) fun l : List F => skew l window :=
  noLookahead_of (fun l hl => by simpa only [List.length_map] using
    (skew_aligned l window hw (by omega)).yields) (skew_causal window)

theorem approx_entropy_or {data data' : List F} (h0 : data <+: data') (window : Nat) (run : Option Nat)
    (tol : F) : OR Pre (approx_entropy data window run (some tol)) (approx_entropy data' window run (some tol)) := by
  causal [approx_entropy, tolOr]

theorem approx_entropy_causal (window : Nat) (run : Option Nat) (tol : F) :
    Causal fun l : List F => approx_entropy l window run (some tol) :=
  causal_of_or fun _ _ h => approx_entropy_or h window run tol

/-- no look-ahead, with an explicit tolerance (see `approx_entropy_lookahead` for the default). -/
theorem approx_entropy_noLookahead (window : Nat) (run : Option Nat) (tol : F)
    (hm : run.getD 2 + 1 ≤ window) (hw : window - run.getD 2 < 255) :
    NoLookahead (window - 1) fun l : List F => approx_entropy l window run (some tol) :=
  noLookahead_of (fun l hl => (approx_entropy_aligned l window run (some tol) hm hw (by omega)
    (.inl (by simp))).yields) (approx_entropy_causal window run tol)

theorem sample_entropy_or {data data' : List F} (h0 : data <+: data') (window : Nat) (run : Option Nat)
    (tol : F) : OR Pre (sample_entropy data window run (some tol)) (sample_entropy data' window run (some tol)) := by
  causal [sample_entropy, tolOr]

theorem sample_entropy_causal (window : Nat) (run : Option Nat) (tol : F) :
    Causal fun l : List F => sample_entropy l window run (some tol) :=
  causal_of_or fun _ _ h => sample_entropy_or h window run tol

/-- no look-ahead, with an explicit tolerance (see `sample_entropy_lookahead` for the default). -/
theorem sample_entropy_noLookahead (window : Nat) (run : Option Nat) (tol : F)
    (hm : run.getD 2 + 1 ≤ window) (hw : window - run.getD 2 < 23) :
    NoLookahead (window - 1) fun l : List F => sample_entropy l window run (some tol) :=
  noLookahead_of (fun l hl => (sample_entropy_aligned l window run (some tol) hm hw (by omega)
    (.inl (by simp))).yields) (sample_entropy_causal window run tol)

theorem quantile_or {data data' : List F} (h0 : data <+: data') (window : Nat) (q : F) :
    OR Pre (quantile data window q) (quantile data' window q) := by
  causal [quantile, quantileT]

theorem quantile_causal (window : Nat) (q : F) : Causal fun l : List F => quantile l window q :=
  causal_of_or fun _ _ h => quantile_or h window q

theorem median_causal (window : Nat) : Causal fun l : List F => median l window :=
  quantile_causal window 50

end Traquer.Distribution

namespace Traquer.Regression
open FloatLit
variable {F : Type} [FloatOps F]

theorem mse_pre {data data' estimate estimate' : List F} (h0 : data <+: data') (h1 : estimate <+: estimate')  : mse data estimate <+: mse data' estimate' := by
  simp only [mse, runningError]
  repeat' causal_step

/-- no look-ahead -/
theorem mse_noLookahead  : NoLookahead 0 fun l : List (F × F) => some (mse (l.map Prod.fst) (l.map Prod.snd)) :=
  noLookahead_of (fun l _ => ⟨_, rfl, by simpa using mse_length (l.map Prod.fst) (l.map Prod.snd) (by simp)⟩)
    (causal_of_or fun _ _ h => OR.some (mse_pre (h.map _) (h.map _)))

theorem rmse_pre {data data' estimate estimate' : List F} (h0 : data <+: data') (h1 : estimate <+: estimate')  : rmse data estimate <+: rmse data' estimate' := by
  simp only [rmse, runningError]
  repeat' causal_step

/-- no look-ahead -/
theorem rmse_noLookahead  : NoLookahead 0 fun l : List (F × F) => some (rmse (l.map Prod.fst) (l.map Prod.snd)) :=
  noLookahead_of (fun l _ => ⟨_, rfl, by simpa using rmse_length (l.map Prod.fst) (l.map Prod.snd) (by simp)⟩)
    (causal_of_or fun _ _ h => OR.some (rmse_pre (h.map _) (h.map _)))

theorem mae_pre {data data' estimate estimate' : List F} (h0 : data <+: data') (h1 : estimate <+: estimate')  : mae data estimate <+: mae data' estimate' := by
  simp only [mae, runningError]
  repeat' causal_step

/-- no look-ahead -/
theorem mae_noLookahead  : NoLookahead 0 fun l : List (F × F) => some (mae (l.map Prod.fst) (l.map Prod.snd)) :=
  noLookahead_of (fun l _ => ⟨_, rfl, by simpa using mae_length (l.map Prod.fst) (l.map Prod.snd) (by simp)⟩)
    (causal_of_or fun _ _ h => OR.some (mae_pre (h.map _) (h.map _)))

theorem mape_pre {data data' estimate estimate' : List F} (h0 : data <+: data') (h1 : estimate <+: estimate')  : mape data estimate <+: mape data' estimate' := by
  simp only [mape, runningError]
  repeat' causal_step

/-- no look-ahead -/
theorem mape_noLookahead  : NoLookahead 0 fun l : List (F × F) => some (mape (l.map Prod.fst) (l.map Prod.snd)) :=
  noLookahead_of (fun l _ => ⟨_, rfl, by simpa using mape_length (l.map Prod.fst) (l.map Prod.snd) (by simp)⟩)
    (causal_of_or fun _ _ h => OR.some (mape_pre (h.map _) (h.map _)))

theorem smape_pre {data data' estimate estimate' : List F} (h0 : data <+: data') (h1 : estimate <+: estimate')  : smape data estimate <+: smape data' estimate' := by
  simp only [smape, runningError]
  repeat' causal_step

/-- no look-ahead -/
theorem smape_noLookahead  : NoLookahead 0 fun l : List (F × F) => some (smape (l.map Prod.fst) (l.map Prod.snd)) :=
  noLookahead_of (fun l _ => ⟨_, rfl, by simpa using smape_length (l.map Prod.fst) (l.map Prod.snd) (by simp)⟩)
    (causal_of_or fun _ _ h => OR.some (smape_pre (h.map _) (h.map _)))

theorem emae_pre {data data' estimate estimate' : List F} (h0 : data <+: data') (h1 : estimate <+: estimate')  : emae data estimate <+: emae data' estimate' := by
  simp only [emae]
  repeat' causal_step

/-- no look-ahead -/
theorem emae_noLookahead  : NoLookahead 0 fun l : List (F × F) => some (emae (l.map Prod.fst) (l.map Prod.snd)) :=
  noLookahead_of (fun l _ => ⟨_, rfl, by simpa using emae_length (l.map Prod.fst) (l.map Prod.snd) (by simp)⟩)
    (causal_of_or fun _ _ h => OR.some (emae_pre (h.map _) (h.map _)))

theorem mda_or {data data' estimate estimate' : List F} (h0 : data <+: data') (h1 : estimate <+: estimate')  :
    OR Pre (mda data estimate) (mda data' estimate') := by
  causal [mda]

macro_rules | `(tactic| causal_fn) => `(tactic| (with_reducible apply mda_or))

theorem mda_causal  : Causal fun l : List (F × F) => mda (l.map Prod.fst) (l.map Prod.snd) :=
  causal_of_or fun _ _ h => mda_or (h.map _) (h.map _) 

/-- no look-ahead -/
theorem mda_noLookahead   :
    NoLookahead (1) fun l : List (F × F) => mda (l.map Prod.fst) (l.map Prod.snd) :=
  noLookahead_of (fun l hl => by simpa only [List.length_map] using
    (mda_aligned (l.map Prod.fst) (l.map Prod.snd) (by simp) (by simp only [List.length_map]; omega)).yields) (mda_causal )

theorem mase_or {data data' estimate estimate' : List F} (h0 : data <+: data') (h1 : estimate <+: estimate')  :
    OR Pre (some (mase data estimate)) (some (mase data' estimate')) := by
  causal [mase, mae, maeNaive, runningError]

theorem mase_causal  : Causal fun l : List (F × F) => some (mase (l.map Prod.fst) (l.map Prod.snd)) :=
  causal_of_or fun _ _ h => mase_or (h.map _) (h.map _) 

/-- no look-ahead -/
theorem mase_noLookahead   :
    NoLookahead (1) fun l : List (F × F) => some (mase (l.map Prod.fst) (l.map Prod.snd)) :=
  noLookahead_of (fun l hl => by simpa only [List.length_map] using
    (mase_aligned (l.map Prod.fst) (l.map Prod.snd) (by simp) (by simp only [List.length_map]; omega)).yields) (mase_causal )

end Traquer.Regression

namespace Traquer.Correlation
open FloatLit
variable {F : Type} [FloatOps F]

theorem pcc_or {s1 s1' s2 s2' : List F} (h0 : s1 <+: s1') (h1 : s2 <+: s2') (window : Nat) :
    OR Pre (pcc s1 s2 window) (pcc s1' s2' window) := by
  causal [pcc]

macro_rules | `(tactic| causal_fn) => `(tactic| (with_reducible apply pcc_or))

theorem pcc_causal (window : Nat) : Causal fun l : List (F × F) => pcc (l.map Prod.fst) (l.map Prod.snd) window :=
  causal_of_or fun _ _ h => pcc_or (h.map _) (h.map _) window

/-- no look-ahead -/
theorem pcc_noLookahead (window : Nat) (hw : 1 ≤ window) :
    NoLookahead (window - 1) fun l : List (F × F) => pcc (l.map Prod.fst) (l.map Prod.snd) window :=
  noLookahead_of (fun l hl => by simpa only [List.length_map] using
    (pcc_aligned (l.map Prod.fst) (l.map Prod.snd) window (by simp) hw (by simp only [List.length_map]; omega)).yields) (pcc_causal window)

theorem rsq_or {s1 s1' s2 s2' : List F} (h0 : s1 <+: s1') (h1 : s2 <+: s2') (window : Nat) :
    OR Pre (rsq s1 s2 window) (rsq s1' s2' window) := by
  causal [rsq]

macro_rules | `(tactic| causal_fn) => `(tactic| (with_reducible apply rsq_or))

theorem rsq_causal (window : Nat) : Causal fun l : List (F × F) => rsq (l.map Prod.fst) (l.map Prod.snd) window :=
  causal_of_or fun _ _ h => rsq_or (h.map _) (h.map _) window

/-- no look-ahead -/
theorem rsq_noLookahead (window : Nat) (hw : 1 ≤ window) :
    NoLookahead (window - 1) fun l : List (F × F) => rsq (l.map Prod.fst) (l.map Prod.snd) window :=
  noLookahead_of (fun l hl => by simpa only [List.length_map] using
    (rsq_aligned (l.map Prod.fst) (l.map Prod.snd) window (by simp) hw (by simp only [List.length_map]; omega)).yields) (rsq_causal window)

theorem beta_or {s1 s1' s2 s2' : List F} (h0 : s1 <+: s1') (h1 : s2 <+: s2') (window : Nat) :
    OR Pre (beta s1 s2 window) (beta s1' s2' window) := by
  causal [beta, returns]

macro_rules | `(tactic| causal_fn) => `(tactic| (with_reducible apply beta_or))

theorem beta_causal (window : Nat) : Causal fun l : List (F × F) => beta (l.map Prod.fst) (l.map Prod.snd) window :=
  causal_of_or fun _ _ h => beta_or (h.map _) (h.map _) window

/-- no look-ahead -/
theorem beta_noLookahead (window : Nat) (hw : 1 ≤ window) :
    NoLookahead (2 * (window - 1) + 1) fun l : List (F × F) => beta (l.map Prod.fst) (l.map Prod.snd) window :=
  noLookahead_of (fun l hl => by simpa only [List.length_map] using
    (beta_aligned (l.map Prod.fst) (l.map Prod.snd) window (by simp) hw (by simp only [List.length_map]; omega)).yields) (beta_causal window)

theorem perf_or {s1 s1' s2 s2' : List F} (h0 : s1 <+: s1') (h1 : s2 <+: s2') (window : Nat) :
    OR Pre (perf s1 s2 window) (perf s1' s2' window) := by
  causal [perf]

macro_rules | `(tactic| causal_fn) => `(tactic| (with_reducible apply perf_or))

theorem perf_causal (window : Nat) : Causal fun l : List (F × F) => perf (l.map Prod.fst) (l.map Prod.snd) window :=
  causal_of_or fun _ _ h => perf_or (h.map _) (h.map _) window

/-- no look-ahead -/
theorem perf_noLookahead (window : Nat) (hw : 1 ≤ window) :
    NoLookahead (window - 1) fun l : List (F × F) => perf (l.map Prod.fst) (l.map Prod.snd) window :=
  noLookahead_of (fun l hl => by simpa only [List.length_map] using
    (perf_aligned (l.map Prod.fst) (l.map Prod.snd) window (by simp) hw (by simp only [List.length_map]; omega)).yields) (perf_causal window)

theorem rsc_pre {s1 s1' s2 s2' : List F} (h0 : s1 <+: s1') (h1 : s2 <+: s2')  : rsc s1 s2 <+: rsc s1' s2' := by
  simp only [rsc]
  repeat' causal_step

/-- no look-ahead -/
theorem rsc_noLookahead  : NoLookahead 0 fun l : List (F × F) => some (rsc (l.map Prod.fst) (l.map Prod.snd)) :=
  noLookahead_of (fun l _ => ⟨_, rfl, by simpa using rsc_length (l.map Prod.fst) (l.map Prod.snd) (by simp)⟩)
    (causal_of_or fun _ _ h => OR.some (rsc_pre (h.map _) (h.map _)))

theorem krcc_or {s1 s1' s2 s2' : List F} (h0 : s1 <+: s1') (h1 : s2 <+: s2') (window : Nat) :
    OR Pre (krcc s1 s2 window) (krcc s1' s2' window) := by
  causal [krcc]

macro_rules | `(tactic| causal_fn) => `(tactic| (with_reducible apply krcc_or))

theorem krcc_causal (window : Nat) : Causal fun l : List (F × F) => krcc (l.map Prod.fst) (l.map Prod.snd) window :=
  causal_of_or fun _ _ h => krcc_or (h.map _) (h.map _) window

/-- no look-ahead -/
theorem krcc_noLookahead (window : Nat) (hw : 1 ≤ window) :
    NoLookahead (window - 1) fun l : List (F × F) => krcc (l.map Prod.fst) (l.map Prod.snd) window :=
  noLookahead_of (fun l hl => by simpa only [List.length_map] using
    (krcc_aligned (l.map Prod.fst) (l.map Prod.snd) window (by simp) hw (by simp only [List.length_map]; omega)).yields) (krcc_causal window)

theorem dcor_or {s1 s1' s2 s2' : List F} (h0 : s1 <+: s1') (h1 : s2 <+: s2') (window : Nat) :
    OR Pre (dcor s1 s2 window) (dcor s1' s2' window) := by
  causal [dcor]

macro_rules | `(tactic| causal_fn) => `(tactic| (with_reducible apply dcor_or))

theorem dcor_causal (window : Nat) : Causal fun l : List (F × F) => dcor (l.map Prod.fst) (l.map Prod.snd) window :=
  causal_of_or fun _ _ h => dcor_or (h.map _) (h.map _) window

/-- no look-ahead -/
theorem dcor_noLookahead (window : Nat) (hw : 1 ≤ window) :
    NoLookahead (window - 1) fun l : List (F × F) => dcor (l.map Prod.fst) (l.map Prod.snd) window :=
  noLookahead_of (fun l hl => by simpa only [List.length_map] using
    (dcor_aligned (l.map Prod.fst) (l.map Prod.snd) window (by simp) hw (by simp only [List.length_map]; omega)).yields) (dcor_causal window)

theorem mic_or {s1 s1' s2 s2' : List F} (h0 : s1 <+: s1') (h1 : s2 <+: s2') (ho : HashOrder) (window : Nat) :
    OR Pre (mic ho s1 s2 window) (mic ho s1' s2' window) := by
  causal [mic]

macro_rules | `(tactic| causal_fn) => `(tactic| (with_reducible apply mic_or))

theorem mic_causal (ho : HashOrder) (window : Nat) : Causal fun l : List (F × F) => mic ho (l.map Prod.fst) (l.map Prod.snd) window :=
  causal_of_or fun _ _ h => mic_or (h.map _) (h.map _) ho window

/-- no look-ahead -/
theorem mic_noLookahead (ho : HashOrder) (window : Nat) (hw : 1 ≤ window) :
    NoLookahead (window - 1) fun l : List (F × F) => mic ho (l.map Prod.fst) (l.map Prod.snd) window :=
  noLookahead_of (fun l hl => by simpa only [List.length_map] using
    (mic_aligned ho (l.map Prod.fst) (l.map Prod.snd) window (by simp) hw (by simp only [List.length_map]; omega)).yields) (mic_causal ho window)

theorem srcc_or (srt : Distribution.Sorter F) {s1 s1' s2 s2' : List F} (h0 : s1 <+: s1') (h1 : s2 <+: s2')
    (window : Nat) : OR Pre (srcc srt s1 s2 window) (srcc srt s1' s2' window) := by
  causal [srcc]

theorem srcc_causal (srt : Distribution.Sorter F) (window : Nat) :
    Causal fun l : List (F × F) => srcc srt (l.map Prod.fst) (l.map Prod.snd) window :=
  causal_of_or fun _ _ h => srcc_or srt (h.map _) (h.map _) window

theorem hoeffd_or (srt : Distribution.Sorter F) {s1 s1' s2 s2' : List F} (h0 : s1 <+: s1') (h1 : s2 <+: s2')
    (window : Nat) : OR Pre (hoeffd srt s1 s2 window) (hoeffd srt s1' s2' window) := by
  causal [hoeffd]

theorem hoeffd_causal (srt : Distribution.Sorter F) (window : Nat) :
    Causal fun l : List (F × F) => hoeffd srt (l.map Prod.fst) (l.map Prod.snd) window :=
  causal_of_or fun _ _ h => hoeffd_or srt (h.map _) (h.map _) window

/-- What the statement says on a concrete history. -/
example (a b c d : F × F) : ∃ out out', pcc ([a, b, c].map Prod.fst) ([a, b, c].map Prod.snd) 2 = some out ∧
    pcc ([a, b, c, d].map Prod.fst) ([a, b, c, d].map Prod.snd) 2 = some out' ∧
    out.length = 3 ∧ out <+: out' := by
  obtain ⟨o, o', h1, h2, h3, -, h5⟩ := pcc_noLookahead (F := F) 2 (by decide) [a, b, c] [d] (by simp)
  exact ⟨o, o', h1, h2, h3, h5⟩

end Traquer.Correlation
