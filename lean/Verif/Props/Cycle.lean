import Verif.Lemmas.Cycle
import Verif.Props.LocalSmooth
import Verif.Props.LocalStats
import Verif.Props.LocalVolatility
import Verif.Props.LocalMomentum
/-!
# A series that repeats gives a reading that repeats (C101)

Every function whose value depends on the last bars only (C63) turns a cycle into a cycle, in every arithmetic.
-/

namespace Traquer.Smooth
open FloatLit
variable {F : Type} [FloatOps F]

/-- C101: `sma`. -/
theorem sma_cycle {w : Nat} (hw : 1 ≤ w) : KeepsCycle w fun l : List F => sma l w :=
  (sma_local hw).keepsCycle

example (x y : F) : ∃ out, (fun l => sma l 3) [x, y, x, y, x, y, x, y] = some out ∧ out[7]? = out[5]? :=
  (sma_cycle (by decide)).shown ⟨_, rfl⟩ (by decide)

/-- C101: `wma`. -/
theorem wma_cycle {w : Nat} (hw : 1 ≤ w) : KeepsCycle w fun l : List F => wma l w :=
  (wma_local hw).keepsCycle

example (x y : F) : ∃ out, (fun l => wma l 3) [x, y, x, y, x, y, x, y] = some out ∧ out[7]? = out[5]? :=
  (wma_cycle (by decide)).shown ⟨_, rfl⟩ (by decide)

/-- C101: `lrf`. -/
theorem lrf_cycle {w : Nat} (hw : 1 ≤ w) : KeepsCycle w fun l : List F => lrf l w :=
  (lrf_local hw).keepsCycle

example (x y : F) : ∃ out, (fun l => lrf l 3) [x, y, x, y, x, y, x, y] = some out ∧ out[7]? = out[5]? :=
  (lrf_cycle (by decide)).shown ⟨_, rfl⟩ (by decide)

/-- C101: `pwma`. -/
theorem pwma_cycle {w : Nat} (hw : 1 ≤ w) : KeepsCycle w fun l : List F => pwma l w :=
  (pwma_local hw).keepsCycle

example (x y : F) : ∃ out, (fun l => pwma l 3) [x, y, x, y, x, y, x, y] = some out ∧ out[7]? = out[5]? :=
  (pwma_cycle (by decide)).shown ⟨_, rfl⟩ (by decide)

/-- C101: `fwma`. -/
theorem fwma_cycle {w : Nat} (hw : 1 ≤ w) : KeepsCycle w fun l : List F => fwma l w :=
  (fwma_local hw).keepsCycle

example (x y : F) : ∃ out, (fun l => fwma l 3) [x, y, x, y, x, y, x, y] = some out ∧ out[7]? = out[5]? :=
  (fwma_cycle (by decide)).shown ⟨_, rfl⟩ (by decide)

/-- C101: `trima`. -/
theorem trima_cycle {w : Nat} (hw : 1 ≤ w) : KeepsCycle w fun l : List F => trima l w :=
  (trima_local hw).keepsCycle

example (x y : F) : ∃ out, (fun l => trima l 3) [x, y, x, y, x, y, x, y] = some out ∧ out[7]? = out[5]? :=
  (trima_cycle (by decide)).shown ⟨_, rfl⟩ (by decide)

/-- C101: `hull`. -/
theorem hull_cycle {w : Nat} (hw : 1 ≤ w) : KeepsCycle (w + (toUsize (floor (sqrt (flt w : F))) - 1)) fun l : List F => hull l w :=
  (hull_local hw).keepsCycle

/-- C101: `alma`. -/
theorem alma_cycle {w : Nat} (sigma : F) (mu : Option F) : KeepsCycle (w + 1) fun l : List F => alma l w sigma mu :=
  (alma_local sigma mu).keepsCycle

example (x y sigma : F) (mu : Option F) : ∃ out, (fun l => alma l 2 sigma mu) [x, y, x, y, x, y, x, y] = some out ∧ out[7]? = out[5]? :=
  (alma_cycle sigma mu).shown ⟨_, rfl⟩ (by decide)

/-- C101: `kernel`. -/
theorem kernel_cycle (sigma : F) : KeepsCycle 255 fun l : List F => some (kernel l sigma) :=
  (kernel_local sigma).keepsCycle

end Traquer.Smooth

namespace Traquer
end Traquer

namespace Traquer.Distribution
open FP FloatLit
variable {F : Type} [FloatOps F]

/-- C101: `variance`. -/
theorem variance_cycle {w : Nat} (hw : 1 ≤ w) : KeepsCycle w fun l : List F => variance l w :=
  (variance_local hw).keepsCycle

example (x y : F) : ∃ out, (fun l => variance l 3) [x, y, x, y, x, y, x, y] = some out ∧ out[7]? = out[5]? :=
  (variance_cycle (by decide)).shown ⟨_, rfl⟩ (by decide)

/-- C101: `std_dev`. -/
theorem std_dev_cycle {w : Nat} (hw : 1 ≤ w) : KeepsCycle w fun l : List F => std_dev l w :=
  (std_dev_local hw).keepsCycle

example (x y : F) : ∃ out, (fun l => std_dev l 3) [x, y, x, y, x, y, x, y] = some out ∧ out[7]? = out[5]? :=
  (std_dev_cycle (by decide)).shown ⟨_, rfl⟩ (by decide)

/-- C101: `zscore`. -/
theorem zscore_cycle {w : Nat} (hw : 1 ≤ w) : KeepsCycle w fun l : List F => zscore l w :=
  (zscore_local hw).keepsCycle

example (x y : F) : ∃ out, (fun l => zscore l 3) [x, y, x, y, x, y, x, y] = some out ∧ out[7]? = out[5]? :=
  (zscore_cycle (by decide)).shown ⟨_, rfl⟩ (by decide)

/-- C101: `mad`. -/
theorem mad_cycle {w : Nat} (hw : 1 ≤ w) : KeepsCycle w fun l : List F => mad l w :=
  (mad_local hw).keepsCycle

example (x y : F) : ∃ out, (fun l => mad l 3) [x, y, x, y, x, y, x, y] = some out ∧ out[7]? = out[5]? :=
  (mad_cycle (by decide)).shown ⟨_, rfl⟩ (by decide)

/-- C101: `cv`. -/
theorem cv_cycle {w : Nat} (hw : 1 ≤ w) : KeepsCycle w fun l : List F => cv l w :=
  (cv_local hw).keepsCycle

example (x y : F) : ∃ out, (fun l => cv l 3) [x, y, x, y, x, y, x, y] = some out ∧ out[7]? = out[5]? :=
  (cv_cycle (by decide)).shown ⟨_, rfl⟩ (by decide)

/-- C101: `kurtosis`. -/
theorem kurtosis_cycle {w : Nat} (hw : 1 ≤ w) : KeepsCycle w fun l : List F => kurtosis l w :=
  (kurtosis_local hw).keepsCycle

/-- C101: `skew`. -/
theorem skew_cycle {w : Nat} (hw : 1 ≤ w) : KeepsCycle w fun l : List F => skew l w :=
  (skew_local hw).keepsCycle

example (x y : F) : ∃ out, (fun l => skew l 3) [x, y, x, y, x, y, x, y] = some out ∧ out[7]? = out[5]? :=
  (skew_cycle (by decide)).shown ⟨_, rfl⟩ (by decide)

/-- C101: `quantile`. -/
theorem quantile_cycle {w : Nat} (hw : 1 ≤ w) (q' : F) : KeepsCycle w fun l : List F => quantile l w q' :=
  (quantile_local hw q').keepsCycle

/-- C101: `median`. -/
theorem median_cycle {w : Nat} (hw : 1 ≤ w) : KeepsCycle w fun l : List F => median l w :=
  (median_local hw).keepsCycle

/-- C101: `approx_entropy`. -/
theorem approx_entropy_cycle {w : Nat} (hw : 1 ≤ w) (m : Option Nat) (t : F) : KeepsCycle w fun l : List F => approx_entropy l w m (some t) :=
  (approx_entropy_local hw m t).keepsCycle

/-- C101: `sample_entropy`. -/
theorem sample_entropy_cycle {w : Nat} (hw : 1 ≤ w) (m : Option Nat) (t : F) : KeepsCycle w fun l : List F => sample_entropy l w m (some t) :=
  (sample_entropy_local hw m t).keepsCycle

end Traquer.Distribution

namespace Traquer.Correlation
open FP FloatLit
open Traquer.Distribution
variable {F : Type} [FloatOps F]

/-- C101: `pcc`. -/
theorem pcc_cycle {w : Nat} (hw : 1 ≤ w) : KeepsCycle w fun l : List (F × F) => pcc (l.map (·.1)) (l.map (·.2)) w :=
  (pcc_local hw).keepsCycle

/-- C101: `rsq`. -/
theorem rsq_cycle {w : Nat} (hw : 1 ≤ w) : KeepsCycle w fun l : List (F × F) => rsq (l.map (·.1)) (l.map (·.2)) w :=
  (rsq_local hw).keepsCycle

/-- C101: `beta`. -/
theorem beta_cycle {w : Nat} (hw : 1 ≤ w) : KeepsCycle (2 * w) fun l : List (F × F) => beta (l.map (·.1)) (l.map (·.2)) w :=
  (beta_local hw).keepsCycle

/-- C101: `perf`. -/
theorem perf_cycle {w : Nat} (hw : 1 ≤ w) : KeepsCycle w fun l : List (F × F) => perf (l.map (·.1)) (l.map (·.2)) w :=
  (perf_local hw).keepsCycle

/-- C101: `rsc`. -/
theorem rsc_cycle : KeepsCycle 1 fun l : List (F × F) => some (rsc (l.map (·.1)) (l.map (·.2))) :=
  (rsc_local).keepsCycle

/-- C101: `srcc`. -/
theorem srcc_cycle (srt : Sorter F) {w : Nat} (hw : 1 ≤ w) : KeepsCycle w fun l : List (F × F) => srcc srt (l.map (·.1)) (l.map (·.2)) w :=
  (srcc_local srt hw).keepsCycle

/-- C101: `krcc`. -/
theorem krcc_cycle {w : Nat} (hw : 1 ≤ w) : KeepsCycle w fun l : List (F × F) => krcc (l.map (·.1)) (l.map (·.2)) w :=
  (krcc_local hw).keepsCycle

/-- C101: `hoeffd`. -/
theorem hoeffd_cycle (srt : Sorter F) {w : Nat} (hw : 1 ≤ w) : KeepsCycle w fun l : List (F × F) => hoeffd srt (l.map (·.1)) (l.map (·.2)) w :=
  (hoeffd_local srt hw).keepsCycle

/-- C101: `dcor`. -/
theorem dcor_cycle {w : Nat} (hw : 1 ≤ w) : KeepsCycle w fun l : List (F × F) => dcor (l.map (·.1)) (l.map (·.2)) w :=
  (dcor_local hw).keepsCycle

end Traquer.Correlation

namespace Traquer.Volatility
open FP FloatLit
variable {F : Type} [FloatOps F]

/-- C101: `tr`. -/
theorem tr_cycle : KeepsCycle 2 fun l : List (Candle F) => tr (l.map (·.high)) (l.map (·.low)) (l.map (·.close)) :=
  (tr_local).keepsCycle

example (x y : Candle F) : ∃ out, (fun l => tr (l.map (·.high)) (l.map (·.low)) (l.map (·.close))) [x, y, x, y, x, y, x, y] = some out ∧ out[7]? = out[5]? :=
  (tr_cycle).shown ⟨_, rfl⟩ (by decide)

/-- C101: `gri`. -/
theorem gri_cycle {w : Nat} (hw : 1 ≤ w) : KeepsCycle w fun l : List (Candle F) => gri (l.map (·.high)) (l.map (·.low)) w :=
  (gri_local hw).keepsCycle

example (x y : Candle F) : ∃ out, (fun l => gri (l.map (·.high)) (l.map (·.low)) 3) [x, y, x, y, x, y, x, y] = some out ∧ out[7]? = out[5]? :=
  (gri_cycle (by decide)).shown ⟨_, rfl⟩ (by decide)

/-- C101: `typical`. -/
theorem typical_cycle {w : Nat} (hw : 1 ≤ w) : KeepsCycle w fun l : List (Candle F) => typical (l.map (·.high)) (l.map (·.low)) (l.map (·.close)) w :=
  (typical_local hw).keepsCycle

example (x y : Candle F) : ∃ out, (fun l => typical (l.map (·.high)) (l.map (·.low)) (l.map (·.close)) 3) [x, y, x, y, x, y, x, y] = some out ∧ out[7]? = out[5]? :=
  (typical_cycle (by decide)).shown ⟨_, rfl⟩ (by decide)

/-- C101: `std_dev`. -/
theorem std_dev_cycle {w : Nat} (hw : 1 ≤ w) (dev : Option F) : KeepsCycle w fun l : List F => std_dev l w dev :=
  (std_dev_local hw dev).keepsCycle

example (x y : F) (dev : Option F) : ∃ out, (fun l => std_dev l 3 dev) [x, y, x, y, x, y, x, y] = some out ∧ out[7]? = out[5]? :=
  (std_dev_cycle (by decide) dev).shown ⟨_, rfl⟩ (by decide)

/-- C101: `bbands_sma`. -/
theorem bbands_sma_cycle {w : Nat} (hw : 1 ≤ w) (dev : Option F) : KeepsCycle w fun l : List F => bbands l w dev (some .SMA) :=
  (bbands_sma_local hw dev).keepsCycle

example (x y : F) (dev : Option F) : ∃ out, (fun l => bbands l 3 dev (some .SMA)) [x, y, x, y, x, y, x, y] = some out ∧ out[7]? = out[5]? :=
  (bbands_sma_cycle (by decide) dev).shown ⟨_, rfl⟩ (by decide)

/-- C101: `donchian`. -/
theorem donchian_cycle {w : Nat} (hw : 1 ≤ w) : KeepsCycle w fun l : List (Candle F) => donchian (l.map (·.high)) (l.map (·.low)) w :=
  (donchian_local hw).keepsCycle

example (x y : Candle F) : ∃ out, (fun l => donchian (l.map (·.high)) (l.map (·.low)) 3) [x, y, x, y, x, y, x, y] = some out ∧ out[7]? = out[5]? :=
  (donchian_cycle (by decide)).shown ⟨_, rfl⟩ (by decide)

/-- C101: `hv`. -/
theorem hv_cycle {w : Nat} (hw : 1 ≤ w) (dev : Option F) : KeepsCycle (w + 1) fun l : List F => hv l w dev :=
  (hv_local hw dev).keepsCycle

example (x y : F) (dev : Option F) : ∃ out, (fun l => hv l 2 dev) [x, y, x, y, x, y, x, y] = some out ∧ out[7]? = out[5]? :=
  (hv_cycle (by decide) dev).shown ⟨_, rfl⟩ (by decide)

/-- C101: `chop`. -/
theorem chop_cycle {w : Nat} (hw : 1 ≤ w) : KeepsCycle (w + 1) fun l : List (Candle F) => chop (l.map (·.high)) (l.map (·.low)) (l.map (·.close)) w :=
  (chop_local hw).keepsCycle

example (x y : Candle F) : ∃ out, (fun l => chop (l.map (·.high)) (l.map (·.low)) (l.map (·.close)) 2) [x, y, x, y, x, y, x, y] = some out ∧ out[7]? = out[5]? :=
  (chop_cycle (by decide)).shown ⟨_, rfl⟩ (by decide)

/-- C101: `vhf`. -/
theorem vhf_cycle {w : Nat} (hw : 1 ≤ w) : KeepsCycle (w + 1) fun l : List (Candle F) => vhf (l.map (·.high)) (l.map (·.low)) (l.map (·.close)) w :=
  (vhf_local hw).keepsCycle

example (x y : Candle F) : ∃ out, (fun l => vhf (l.map (·.high)) (l.map (·.low)) (l.map (·.close)) 2) [x, y, x, y, x, y, x, y] = some out ∧ out[7]? = out[5]? :=
  (vhf_cycle (by decide)).shown ⟨_, rfl⟩ (by decide)

/-- C101: `wcp`. -/
theorem wcp_cycle : KeepsCycle 1 fun l : List (Candle F) => some (wcp (l.map (·.high)) (l.map (·.low)) (l.map (·.close))) :=
  (wcp_local).keepsCycle

example (x y : Candle F) : ∃ out, (fun l => some (wcp (l.map (·.high)) (l.map (·.low)) (l.map (·.close)))) [x, y, x, y, x, y, x, y] = some out ∧ out[7]? = out[5]? :=
  (wcp_cycle).shown ⟨_, rfl⟩ (by decide)

/-- C101: `cc_hv`. -/
theorem cc_hv_cycle {w : Nat} (hw : 1 ≤ w) : KeepsCycle (w + 1) fun l : List F => cc_hv l w :=
  (cc_hv_local hw).keepsCycle

example (x y : F) : ∃ out, (fun l => cc_hv l 2) [x, y, x, y, x, y, x, y] = some out ∧ out[7]? = out[5]? :=
  (cc_hv_cycle (by decide)).shown ⟨_, rfl⟩ (by decide)

/-- C101: `gkyz_hv`. -/
theorem gkyz_hv_cycle {w : Nat} (hw : 1 ≤ w) : KeepsCycle (w + 1) fun l : List (Candle F) => gkyz_hv (l.map (·.openp)) (l.map (·.high)) (l.map (·.low)) (l.map (·.close)) w :=
  (gkyz_hv_local hw).keepsCycle

example (x y : Candle F) : ∃ out, (fun l => gkyz_hv (l.map (·.openp)) (l.map (·.high)) (l.map (·.low)) (l.map (·.close)) 2) [x, y, x, y, x, y, x, y] = some out ∧ out[7]? = out[5]? :=
  (gkyz_hv_cycle (by decide)).shown ⟨_, rfl⟩ (by decide)

end Traquer.Volatility

namespace Traquer.Volume
open FloatLit
variable {F : Type} [FloatOps F]

/-- C101: `cmf`. -/
theorem cmf_cycle {w : Nat} (hw : 1 ≤ w) : KeepsCycle w fun l : List (Candle F) => cmf (l.map (·.high)) (l.map (·.low)) (l.map (·.close)) (l.map (·.volume)) w :=
  (cmf_local hw).keepsCycle

example (x y : Candle F) : ∃ out, (fun l => cmf (l.map (·.high)) (l.map (·.low)) (l.map (·.close)) (l.map (·.volume)) 3) [x, y, x, y, x, y, x, y] = some out ∧ out[7]? = out[5]? :=
  (cmf_cycle (by decide)).shown ⟨_, rfl⟩ (by decide)

/-- C101: `vwma`. -/
theorem vwma_cycle {w : Nat} (hw : 1 ≤ w) : KeepsCycle w fun l : List (F × F) => vwma (l.map (·.1)) (l.map (·.2)) w :=
  (vwma_local hw).keepsCycle

example (x y : F × F) : ∃ out, (fun l => vwma (l.map (·.1)) (l.map (·.2)) 3) [x, y, x, y, x, y, x, y] = some out ∧ out[7]? = out[5]? :=
  (vwma_cycle (by decide)).shown ⟨_, rfl⟩ (by decide)

/-- C101: `bw_mfi`. -/
theorem bw_mfi_cycle : KeepsCycle 1 fun l : List (Candle F) => some (bw_mfi (l.map (·.high)) (l.map (·.low)) (l.map (·.volume))) :=
  (bw_mfi_local).keepsCycle

example (x y : Candle F) : ∃ out, (fun l => some (bw_mfi (l.map (·.high)) (l.map (·.low)) (l.map (·.volume)))) [x, y, x, y, x, y, x, y] = some out ∧ out[7]? = out[5]? :=
  (bw_mfi_cycle).shown ⟨_, rfl⟩ (by decide)

/-- C101: `mfi`. -/
theorem mfi_cycle {w : Nat} (hw : 1 ≤ w) : KeepsCycle (w + 1) fun l : List (Candle F) => mfi (l.map (·.high)) (l.map (·.low)) (l.map (·.close)) (l.map (·.volume)) w :=
  (mfi_local hw).keepsCycle

/-- C101: `ease`. -/
theorem ease_cycle {w : Nat} (hw : 1 ≤ w) : KeepsCycle (w + 1) fun l : List (Candle F) => ease (l.map (·.high)) (l.map (·.low)) (l.map (·.volume)) w :=
  (ease_local hw).keepsCycle

end Traquer.Volume

namespace Traquer
end Traquer

namespace Traquer.Momentum
open FP FloatLit
open Traquer.Volatility (trueRange)
variable {F : Type} [FloatOps F]

/-- C101: `cfo`. -/
theorem cfo_cycle {w : Nat} (hw : 1 ≤ w) : KeepsCycle w fun l : List F => cfo l w :=
  (cfo_local hw).keepsCycle

example (x y : F) : ∃ out, (fun l => cfo l 3) [x, y, x, y, x, y, x, y] = some out ∧ out[7]? = out[5]? :=
  (cfo_cycle (by decide)).shown ⟨_, rfl⟩ (by decide)

/-- C101: `wpr`. -/
theorem wpr_cycle {w : Nat} (hw : 1 ≤ w) : KeepsCycle w fun l : List (Candle F) => wpr (l.map (·.high)) (l.map (·.low)) (l.map (·.close)) w :=
  (wpr_local hw).keepsCycle

example (x y : Candle F) : ∃ out, (fun l => wpr (l.map (·.high)) (l.map (·.low)) (l.map (·.close)) 3) [x, y, x, y, x, y, x, y] = some out ∧ out[7]? = out[5]? :=
  (wpr_cycle (by decide)).shown ⟨_, rfl⟩ (by decide)

/-- C101: `roc`. -/
theorem roc_cycle {w : Nat} (hw : 1 ≤ w) : KeepsCycle w fun l : List F => roc l w :=
  (roc_local hw).keepsCycle

example (x y : F) : ∃ out, (fun l => roc l 3) [x, y, x, y, x, y, x, y] = some out ∧ out[7]? = out[5]? :=
  (roc_cycle (by decide)).shown ⟨_, rfl⟩ (by decide)

/-- C101: `cog`. -/
theorem cog_cycle {w : Nat} (hw : 1 ≤ w) : KeepsCycle w fun l : List F => cog l w :=
  (cog_local hw).keepsCycle

example (x y : F) : ∃ out, (fun l => cog l 3) [x, y, x, y, x, y, x, y] = some out ∧ out[7]? = out[5]? :=
  (cog_cycle (by decide)).shown ⟨_, rfl⟩ (by decide)

/-- C101: `cci`. -/
theorem cci_cycle {w : Nat} (hw : 1 ≤ w) : KeepsCycle w fun l : List (Candle F) => cci (l.map (·.high)) (l.map (·.low)) (l.map (·.close)) w :=
  (cci_local hw).keepsCycle

example (x y : Candle F) : ∃ out, (fun l => cci (l.map (·.high)) (l.map (·.low)) (l.map (·.close)) 3) [x, y, x, y, x, y, x, y] = some out ∧ out[7]? = out[5]? :=
  (cci_cycle (by decide)).shown ⟨_, rfl⟩ (by decide)

/-- C101: `psych`. -/
theorem psych_cycle {w : Nat} (hw : 1 ≤ w) : KeepsCycle (w + 1) fun l : List F => psych l w :=
  (psych_local hw).keepsCycle

example (x y : F) : ∃ out, (fun l => psych l 2) [x, y, x, y, x, y, x, y] = some out ∧ out[7]? = out[5]? :=
  (psych_cycle (by decide)).shown ⟨_, rfl⟩ (by decide)

/-- C101: `tii`. -/
theorem tii_cycle {w : Nat} (hw : 1 ≤ w) : KeepsCycle (w + (w + 1) / 2 - 1) fun l : List F => tii l w :=
  (tii_local hw).keepsCycle

example (x y : F) : ∃ out, (fun l => tii l 2) [x, y, x, y, x, y, x, y] = some out ∧ out[7]? = out[5]? :=
  (tii_cycle (by decide)).shown ⟨_, rfl⟩ (by decide)

/-- C101: `ultimate`. -/
theorem ultimate_cycle {win1 win2 win3 : Nat} (hw : 1 ≤ win3) : KeepsCycle (win3 + 1) fun l : List (Candle F) => ultimate (l.map (·.high)) (l.map (·.low)) (l.map (·.close)) win1 win2 win3 :=
  (ultimate_local hw).keepsCycle

example (x y : Candle F) : ∃ out, (fun l => ultimate (l.map (·.high)) (l.map (·.low)) (l.map (·.close)) 1 2 2) [x, y, x, y, x, y, x, y] = some out ∧ out[7]? = out[5]? :=
  (ultimate_cycle (by decide)).shown ⟨_, rfl⟩ (by decide)

/-- C101: `si`. -/
theorem si_cycle (limit : F) : KeepsCycle 2 fun l : List (Candle F) => si (l.map (·.openp)) (l.map (·.high)) (l.map (·.low)) (l.map (·.close)) limit :=
  (si_local limit).keepsCycle

example (x y : Candle F) (limit : F) : ∃ out, (fun l => si (l.map (·.openp)) (l.map (·.high)) (l.map (·.low)) (l.map (·.close)) limit) [x, y, x, y, x, y, x, y] = some out ∧ out[7]? = out[5]? :=
  (si_cycle limit).shown ⟨_, rfl⟩ (by decide)

/-- C101: `stochastic`. -/
theorem stochastic_cycle {w : Nat} (hw : 1 ≤ w) : KeepsCycle (w + 4) fun l : List (Candle F) => stochastic (l.map (·.high)) (l.map (·.low)) (l.map (·.close)) w :=
  (stochastic_local hw).keepsCycle

/-- C101: `kdj`. -/
theorem kdj_cycle {w s : Nat} (hw : 1 ≤ w) (kf df : Option F) : KeepsCycle (w + 2 * (s - 1)) fun l : List (Candle F) => kdj (l.map (·.high)) (l.map (·.low)) (l.map (·.close)) w s kf df :=
  (kdj_local hw kf df).keepsCycle

/-- C101: `relative_vigor`. -/
theorem relative_vigor_cycle {w : Nat} (hw : 1 ≤ w) : KeepsCycle (w + 3) fun l : List (Candle F) => relative_vigor (l.map (·.openp)) (l.map (·.high)) (l.map (·.low)) (l.map (·.close)) w :=
  (relative_vigor_local hw).keepsCycle

/-- C101: `coppock`. -/
theorem coppock_cycle {w short long : Nat} (hw : 1 ≤ w) : KeepsCycle (max short long + w) fun l : List F => coppock l w short long :=
  (coppock_local hw).keepsCycle

/-- C101: `rainbow`. -/
theorem rainbow_cycle {w lookback : Nat} : KeepsCycle (max (10 * (w - 1) + 1) lookback) fun l : List F => rainbow l w lookback :=
  (rainbow_local).keepsCycle

end Traquer.Momentum

namespace Traquer.Trend
open FP FloatLit
open Traquer.Volatility (trueRange)
variable {F : Type} [FloatOps F]

/-- C101: `shinohara`. -/
theorem shinohara_cycle {w : Nat} (hw : 1 ≤ w) : KeepsCycle (w + 1) fun l : List (Candle F) => shinohara (l.map (·.high)) (l.map (·.low)) (l.map (·.close)) w :=
  (shinohara_local hw).keepsCycle

example (x y : Candle F) : ∃ out, (fun l => shinohara (l.map (·.high)) (l.map (·.low)) (l.map (·.close)) 2) [x, y, x, y, x, y, x, y] = some out ∧ out[7]? = out[5]? :=
  (shinohara_cycle (by decide)).shown ⟨_, rfl⟩ (by decide)

/-- C101: `vortex`. -/
theorem vortex_cycle {w : Nat} (hw : 1 ≤ w) : KeepsCycle (w + 1) fun l : List (Candle F) => vortex (l.map (·.high)) (l.map (·.low)) (l.map (·.close)) w :=
  (vortex_local hw).keepsCycle

example (x y : Candle F) : ∃ out, (fun l => vortex (l.map (·.high)) (l.map (·.low)) (l.map (·.close)) 2) [x, y, x, y, x, y, x, y] = some out ∧ out[7]? = out[5]? :=
  (vortex_cycle (by decide)).shown ⟨_, rfl⟩ (by decide)

/-- C101: `rwi`. -/
theorem rwi_cycle {w : Nat} (hw : 1 ≤ w) : KeepsCycle (w + 1) fun l : List (Candle F) => rwi (l.map (·.high)) (l.map (·.low)) (l.map (·.close)) w :=
  (rwi_local hw).keepsCycle

example (x y : Candle F) : ∃ out, (fun l => rwi (l.map (·.high)) (l.map (·.low)) (l.map (·.close)) 2) [x, y, x, y, x, y, x, y] = some out ∧ out[7]? = out[5]? :=
  (rwi_cycle (by decide)).shown ⟨_, rfl⟩ (by decide)

/-- C101: `aroon`. -/
theorem aroon_cycle {w : Nat} : KeepsCycle (w + 1) fun l : List (Candle F) => aroon (l.map (·.high)) (l.map (·.low)) w :=
  (aroon_local).keepsCycle

/-- C101: `ulcer`. -/
theorem ulcer_cycle {w : Nat} (hw : 1 ≤ w) : KeepsCycle (2 * w - 1) fun l : List F => ulcer l w :=
  (ulcer_local hw).keepsCycle

example (x y : F) : ∃ out, (fun l => ulcer l 2) [x, y, x, y, x, y, x, y] = some out ∧ out[7]? = out[5]? :=
  (ulcer_cycle (by decide)).shown ⟨_, rfl⟩ (by decide)

/-- C101: `dpo`. -/
theorem dpo_cycle {w : Nat} (hw : 1 ≤ w) : KeepsCycle w fun l : List F => dpo l w none :=
  (dpo_local hw).keepsCycle

/-- C101: `hurst`. -/
theorem hurst_cycle {w : Nat} (hw : 1 ≤ w) (m : Option Nat) : KeepsCycle w fun l : List F => hurst l w m :=
  (hurst_local hw m).keepsCycle

end Traquer.Trend

namespace Traquer
open FP FloatLit
variable {F : Type} [FloatOps F]

example (x sigma : F) : (Smooth.kernel (List.replicate 300 x) sigma)[298 + 1]? = (Smooth.kernel (List.replicate 300 x) sigma)[298]? :=
  Smooth.kernel_cycle sigma 1 _ _ (fun j hj => by
    rw [List.length_replicate] at hj
    rw [List.getElem?_replicate, List.getElem?_replicate, if_pos hj, if_pos (by omega)]) rfl 298 (by decide) (by rw [List.length_replicate]; decide)

example (x y : F) (hs : toUsize (floor (sqrt (flt 3 : F))) = 1) : ∃ out, (fun l => Smooth.hull l 3) [x, y, x, y, x, y, x, y] = some out ∧
    out[7]? = out[5]? := by
  have h := Smooth.hull_cycle (F := F) (w := 3) (by decide)
  rw [hs] at h
  exact h.shown (by simp only [Smooth.hull, hs]; exact ⟨_, rfl⟩) (by decide)

open Distribution FP in
example : ∃ out, (fun l => Correlation.srcc (tieSorter true) (l.map (·.1)) (l.map (·.2)) 4) [(fin (ρ := Rounding.exact) 1, fin 5), (fin 2, fin 3), (fin 1, fin 5), (fin 2, fin 3), (fin 1, fin 5), (fin 2, fin 3), (fin 1, fin 5), (fin 2, fin 3)] =
    some out ∧ out[7]? = out[5]? :=
  (Correlation.srcc_cycle (tieSorter true) (by decide)).shown
    (Correlation.srcc_aligned (tieSorter true) (tieSorter_valid true) _ _ 4 (by simp) (by decide) (by simp)
      (NoNaN.of_fins (by simp [Fins, FP.Finite])) (NoNaN.of_fins (by simp [Fins, FP.Finite]))).answers (by decide)

open Distribution FP in
example : ∃ out, (fun l => Correlation.hoeffd (tieSorter true) (l.map (·.1)) (l.map (·.2)) 5) [(fin (ρ := Rounding.exact) 1, fin 5), (fin 2, fin 3), (fin 1, fin 5), (fin 2, fin 3), (fin 1, fin 5), (fin 2, fin 3), (fin 1, fin 5), (fin 2, fin 3)] =
    some out ∧ out[7]? = out[5]? :=
  (Correlation.hoeffd_cycle (tieSorter true) (by decide)).shown
    (Correlation.hoeffd_aligned (tieSorter true) (tieSorter_valid true) _ _ 5 (by simp) (by decide) (by decide) (by simp)
      (NoNaN.of_fins (by simp [Fins, FP.Finite])) (NoNaN.of_fins (by simp [Fins, FP.Finite]))).answers (by decide)

open Trend in
example (x y : XF) : ∃ out, (fun l => hurst l 3 (some 1)) [x, y, x, y, x, y, x, y] = some out ∧ out[7]? = out[5]? := by
  obtain ⟨n, hs, -, -⟩ := hurst_scales 1 3 (Nat.le_refl 1) (by norm_num)
  have hp : ∀ x ∈ (List.range n).map (scaleAt 1), 1 ≤ x := by
    intro x hx
    obtain ⟨k, -, rfl⟩ := List.mem_map.1 hx
    rw [scaleAt, Nat.one_le_floor_iff]
    rw [Nat.cast_one, one_mul]
    exact Real.one_le_rpow (by norm_num) (by positivity)
  exact (hurst_cycle (by decide) (some 1)).shown (hurst_aligned _ 3 (some 1) _ hs hp (by decide) (by simp)).answers (by decide)

example (x y : F) : ∃ out, (fun l => Distribution.kurtosis l 4) [x, y, x, y, x, y, x, y] = some out ∧ out[7]? = out[5]? :=
  (Distribution.kurtosis_cycle (by decide)).shown ⟨_, rfl⟩ (by decide)

example (x y r : XF) : ∃ out, (fun l => Distribution.quantile l 3 r) [x, y, x, y, x, y, x, y] = some out ∧ out[7]? = out[5]? :=
  (Distribution.quantile_cycle (by decide) r).shown (Distribution.quantile_aligned _ 3 r (by decide) (by norm_num) (by simp)).answers (by decide)

example (x y : XF) : ∃ out, (fun l => Distribution.median l 3) [x, y, x, y, x, y, x, y] = some out ∧ out[7]? = out[5]? :=
  (Distribution.median_cycle (by decide)).shown (Distribution.median_aligned _ 3 (by decide) (by norm_num) (by simp)).answers (by decide)

example (x y t : F) : ∃ out, (fun l => Distribution.approx_entropy l 3 (some 1) (some t)) [x, y, x, y, x, y, x, y] = some out ∧ out[7]? = out[5]? :=
  (Distribution.approx_entropy_cycle (by decide) (some 1) t).shown
    (Distribution.approx_entropy_aligned _ 3 (some 1) (some t) (by decide) (by decide) (by simp) (by simp)).answers (by decide)

example (x y t : F) : ∃ out, (fun l => Distribution.sample_entropy l 3 (some 1) (some t)) [x, y, x, y, x, y, x, y] = some out ∧ out[7]? = out[5]? :=
  (Distribution.sample_entropy_cycle (by decide) (some 1) t).shown
    (Distribution.sample_entropy_aligned _ 3 (some 1) (some t) (by decide) (by decide) (by simp) (by simp)).answers (by decide)

example (x y : F × F) : ∃ out, (fun l => Correlation.pcc (l.map (·.1)) (l.map (·.2)) 3) [x, y, x, y, x, y, x, y] = some out ∧ out[7]? = out[5]? :=
  (Correlation.pcc_cycle (by decide)).shown ⟨_, rfl⟩ (by decide)

example (x y : F × F) : ∃ out, (fun l => Correlation.rsq (l.map (·.1)) (l.map (·.2)) 3) [x, y, x, y, x, y, x, y] = some out ∧ out[7]? = out[5]? :=
  (Correlation.rsq_cycle (by decide)).shown ⟨_, rfl⟩ (by decide)

example (x y : F × F) : ∃ out, (fun l => Correlation.beta (l.map (·.1)) (l.map (·.2)) 2) [x, y, x, y, x, y, x, y] = some out ∧ out[7]? = out[5]? :=
  (Correlation.beta_cycle (by decide)).shown ⟨_, rfl⟩ (by decide)

example (x y : F × F) : ∃ out, (fun l => Correlation.perf (l.map (·.1)) (l.map (·.2)) 3) [x, y, x, y, x, y, x, y] = some out ∧ out[7]? = out[5]? :=
  (Correlation.perf_cycle (by decide)).shown ⟨_, rfl⟩ (by decide)

example (x y : F × F) : ∃ out, (fun l => some (Correlation.rsc (l.map (·.1)) (l.map (·.2)))) [x, y, x, y, x, y, x, y] = some out ∧ out[7]? = out[5]? :=
  Correlation.rsc_cycle.shown ⟨_, rfl⟩ (by decide)

example (x y : F × F) : ∃ out, (fun l => Correlation.krcc (l.map (·.1)) (l.map (·.2)) 3) [x, y, x, y, x, y, x, y] = some out ∧ out[7]? = out[5]? :=
  (Correlation.krcc_cycle (by decide)).shown ⟨_, rfl⟩ (by decide)

example (x y : F × F) : ∃ out, (fun l => Correlation.dcor (l.map (·.1)) (l.map (·.2)) 3) [x, y, x, y, x, y, x, y] = some out ∧ out[7]? = out[5]? :=
  (Correlation.dcor_cycle (by decide)).shown ⟨_, rfl⟩ (by decide)

example (x y : Candle F) : ∃ out, (fun l => Momentum.stochastic (l.map (·.high)) (l.map (·.low)) (l.map (·.close)) 2) [x, y, x, y, x, y, x, y] = some out ∧
    out[7]? = out[5]? := (Momentum.stochastic_cycle (by decide)).shown ⟨_, rfl⟩ (by decide)

example (x y : Candle F) (kf df : Option F) : ∃ out, (fun l => Momentum.kdj (l.map (·.high)) (l.map (·.low)) (l.map (·.close)) 2 2 kf df)
    [x, y, x, y, x, y, x, y] = some out ∧ out[7]? = out[5]? := (Momentum.kdj_cycle (by decide) kf df).shown ⟨_, rfl⟩ (by decide)

example (x y : Candle F) : ∃ out, (fun l => Momentum.relative_vigor (l.map (·.openp)) (l.map (·.high)) (l.map (·.low)) (l.map (·.close)) 2)
    [x, y, x, y, x, y, x, y] = some out ∧ out[7]? = out[5]? := (Momentum.relative_vigor_cycle (by decide)).shown ⟨_, rfl⟩ (by decide)

example (x y : F) : ∃ out, (fun l => Momentum.coppock l 2 2 3) [x, y, x, y, x, y, x, y] = some out ∧ out[7]? = out[5]? :=
  (Momentum.coppock_cycle (by decide)).shown ⟨_, rfl⟩ (by decide)

example (x y : F) : ∃ out, (fun l => Momentum.rainbow l 1 1) [x, y, x, y, x, y, x, y] = some out ∧ out[7]? = out[5]? :=
  Momentum.rainbow_cycle.shown (Momentum.rainbow_aligned _ 1 1 (by decide) (by decide) (by decide) (by simp)).yields.answers (by decide)

example (x y : Candle F) : ∃ out, (fun l => Trend.aroon (l.map (·.high)) (l.map (·.low)) 2) [x, y, x, y, x, y, x, y] = some out ∧ out[7]? = out[5]? :=
  Trend.aroon_cycle.shown (Trend.aroon_aligned _ _ 2 (by simp) (by simp)).yields.answers (by decide)

example (x y : F) : ∃ out, (fun l => Trend.dpo l 4 none) [x, y, x, y, x, y, x, y] = some out ∧ out[7]? = out[5]? :=
  (Trend.dpo_cycle (by decide)).shown ⟨_, rfl⟩ (by decide)

example (x y : Candle F) : ∃ out, (fun l => Volume.mfi (l.map (·.high)) (l.map (·.low)) (l.map (·.close)) (l.map (·.volume)) 2)
    [x, y, x, y, x, y, x, y] = some out ∧ out[7]? = out[5]? := (Volume.mfi_cycle (by decide)).shown ⟨_, rfl⟩ (by decide)

example (x y : Candle F) : ∃ out, (fun l => Volume.ease (l.map (·.high)) (l.map (·.low)) (l.map (·.volume)) 2)
    [x, y, x, y, x, y, x, y] = some out ∧ out[7]? = out[5]? := (Volume.ease_cycle (by decide)).shown ⟨_, rfl⟩ (by decide)

end Traquer
