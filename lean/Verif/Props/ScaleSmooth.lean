import Verif.Lemmas.Units
import Verif.Model.Smooth
/-!
# C78: a change of units, moving averages
-/

namespace Traquer.Smooth
open FP FloatLit
variable {ρ : Rounding} {k : ℝ} [ρ.Scales k] {n : ℤ} {data data' : List (FP ρ)}

theorem ewma_units (h : Each (Scaled k n) data data') (window : ℕ) : Alike (Each (Scaled k n)) (ewma data window) (ewma data' window) := by
  units [ewma]

units_rule ewma_units

theorem sma_units (h : Each (Scaled k n) data data') (window : ℕ) : Alike (Each (Scaled k n)) (sma data window) (sma data' window) := by
  units [sma]

units_rule sma_units

theorem dema_units (h : Each (Scaled k n) data data') (window : ℕ) : Alike (Each (Scaled k n)) (dema data window) (dema data' window) := by
  units [dema]

theorem tema_units (h : Each (Scaled k n) data data') (window : ℕ) : Alike (Each (Scaled k n)) (tema data window) (tema data' window) := by
  units [tema]

units_rule dema_units
units_rule tema_units

/-- the weighted sum of a window -/
theorem dot_units (weights : List (FP ρ)) (h : Each (Scaled k n) data data') : Scaled k n (dot weights data) (dot weights data') := by
  units [dot]

units_rule dot_units

/-- one window of lrf -/
theorem lrfWin_units (window : ℕ) (h : Each (Scaled k n) data data') : Scaled k n (lrfWin window data) (lrfWin window data') := by
  have hf : Both (Scaled k n) (Scaled k n)
      ((((List.range' 1 window).map fun x => (flt x : FP ρ)).zip data).foldl
        (fun (st : FP ρ × FP ρ) (cv : FP ρ × FP ρ) => (st.1 + cv.2, st.2 + cv.1 * cv.2)) (0, 0))
      ((((List.range' 1 window).map fun x => (flt x : FP ρ)).zip data').foldl
        (fun (st : FP ρ × FP ρ) (cv : FP ρ × FP ρ) => (st.1 + cv.2, st.2 + cv.1 * cv.2)) (0, 0)) := by
    repeat' units_step
  simp only [lrfWin]
  revert hf
  generalize List.foldl _ _ _ = a
  generalize List.foldl _ _ _ = b
  rintro ⟨h1, h2⟩
  repeat' units_step

units_rule lrfWin_units

/-- one window of the standard deviation -/
theorem stdDevWin_units (window : ℕ) (h : Each (Scaled k n) data data') :
    Scaled k n (Distribution.stdDevWin window data) (Distribution.stdDevWin window data') := by
  units [Distribution.stdDevWin, Distribution.winMean, Distribution.powDev]

units_rule stdDevWin_units

/-- the standard deviations -/
theorem stdDevRaw_units (h : Each (Scaled k n) data data') (window : ℕ) :
    Alike (Each (Scaled k n)) (Distribution.stdDevRaw data window) (Distribution.stdDevRaw data' window) := by
  units [Distribution.stdDevRaw]

units_rule stdDevRaw_units

/-- running gains and losses -/
theorem gainLoss_units (h : Each (Scaled k n) data data') :
    Each (Both (Scaled k n) (Scaled k n)) (gainLoss data) (gainLoss data') := by
  units [gainLoss]

units_rule gainLoss_units

/-- the momentum used by vma -/
theorem cmoRaw_units (h : Each (Scaled k n) data data') (window : ℕ) :
    Alike (Each (Scaled k 0)) (cmoRaw data window) (cmoRaw data' window) := by
  units [cmoRaw]

units_rule cmoRaw_units

theorem wma_units (h : Each (Scaled k n) data data') (window : ℕ) : Alike (Each (Scaled k n)) (wma data window) (wma data' window) := by
  units [wma]

units_rule wma_units

theorem pwma_units (h : Each (Scaled k n) data data') (window : ℕ) : Alike (Each (Scaled k n)) (pwma data window) (pwma data' window) := by
  units [pwma]

units_rule pwma_units

theorem wilder_units (h : Each (Scaled k n) data data') (window : ℕ) : Alike (Each (Scaled k n)) (wilder data window) (wilder data' window) := by
  units [wilder]

units_rule wilder_units

theorem hull_units (h : Each (Scaled k n) data data') (window : ℕ) : Alike (Each (Scaled k n)) (hull data window) (hull data' window) := by
  units [hull]

units_rule hull_units

theorem vidya_units (h : Each (Scaled k n) data data') (window : ℕ) : Alike (Each (Scaled k n)) (vidya data window) (vidya data' window) := by
  units [vidya]

units_rule vidya_units

theorem vma_units (h : Each (Scaled k n) data data') (window : ℕ) : Alike (Each (Scaled k n)) (vma data window) (vma data' window) := by
  units [vma]

units_rule vma_units

theorem lrf_units (h : Each (Scaled k n) data data') (window : ℕ) : Alike (Each (Scaled k n)) (lrf data window) (lrf data' window) := by
  units [lrf]

units_rule lrf_units

theorem trima_units (h : Each (Scaled k n) data data') (window : ℕ) : Alike (Each (Scaled k n)) (trima data window) (trima data' window) := by
  units [trima]

units_rule trima_units

theorem zlma_units (h : Each (Scaled k n) data data') (window : ℕ) : Alike (Each (Scaled k n)) (zlma data window) (zlma data' window) := by
  units [zlma]

units_rule zlma_units

theorem fwma_units (h : Each (Scaled k n) data data') (window : ℕ) : Alike (Each (Scaled k n)) (fwma data window) (fwma data' window) := by
  units [fwma]

theorem kernel_units (h : Each (Scaled k n) data data') (sigma : FP ρ) : Each (Scaled k n) (kernel data sigma) (kernel data' sigma) := by
  have hf : ∀ {past past' : List (FP ρ)}, Each (Scaled k n) past past' →
      Scaled k n (kernelAt (kernelWeights sigma) past) (kernelAt (kernelWeights sigma) past') := by
    intro past past' hp
    rw [kernelAt, kernelAt, hp.length]
    generalize kernelWeights sigma = ws
    repeat' units_step
  simp only [kernel]
  refine each_map (each_range h.length) (forall_eq_rel fun i => hf ?_)
  repeat' units_step

theorem effRatio_units (h : Each (Scaled k n) data data') : Alike (Scaled k 0) (effRatio data) (effRatio data') := by
  units [effRatio]

units_rule effRatio_units

theorem kama_units (h : Each (Scaled k n) data data') (window : ℕ) (short long : Option ℕ) :
    Alike (Each (Scaled k n)) (kama data window short long) (kama data' window short long) := by
  units [kama]

theorem alma_units (h : Each (Scaled k n) data data') (window : ℕ) (sigma : FP ρ) (mu : Option (FP ρ)) :
    Alike (Each (Scaled k n)) (alma data window sigma mu) (alma data' window sigma mu) := by
  simp only [alma, Option.bind_eq_bind]
  refine Alike.bind Alike.same (forall_eq_rel fun j => ?_)
  generalize almaWeights window sigma _ = ws
  repeat' units_step

theorem mdma_units (h : Each (Scaled k n) data data') (window : ℕ) : Alike (Each (Scaled k n)) (mdma data window) (mdma data' window) := by
  units [mdma]

theorem hwma_units (h : Each (Scaled k n) data data') (alpha beta gamma : Option (FP ρ)) :
    Alike (Each (Scaled k n)) (hwma data alpha beta gamma) (hwma data' alpha beta gamma) := by
  units [hwma]

theorem ssf_units (h : Each (Scaled k n) data data') (window : ℕ) (triPoles : Option Bool) :
    Alike (Each (Scaled k n)) (ssf data window triPoles) (ssf data' window triPoles) := by
  units [ssf]

theorem t3_units (h : Each (Scaled k n) data data') (window : ℕ) (factor : Option (FP ρ)) :
    Alike (Each (Scaled k n)) (t3 data window factor) (t3 data' window factor) := by
  units [t3]

theorem ma_units (h : Each (Scaled k n) data data') (window : ℕ) (mode : MaMode) :
    Alike (Each (Scaled k n)) (ma data window mode) (ma data' window mode) := by
  cases mode <;> simp only [ma] <;> repeat' units_step

units_rule ma_units

end Traquer.Smooth
