import Verif.Spec.Chain
import Verif.Props.GapStats
import Verif.Props.LocalSmooth
import Verif.Props.LocalStats
import Verif.Props.LocalMomentum
import Verif.Props.ShapeStats
import Verif.Props.ShapeMomentum
import Verif.Props.PoisonMore
/-!
# Which indicators can be fed with the output of another one
-/

namespace Traquer
open FloatLit
variable {F : Type} [FloatOps F] [NaNLaws F]

theorem chains_of {W : Nat} {g : List F → Option (List F)} (hW : 1 ≤ W) (hl : DependsOnLast W g) (hg : GapShows W IsNaN g)
    (ha : ∀ d : List F, W ≤ d.length → Aligned d.length (W - 1) (g d)) : Chains W g := by
  intro k d hd
  obtain ⟨out, ho, hn, -, hw⟩ := ha (nans k ++ d) (by simp; omega)
  obtain ⟨out', ho', hn', -, hw'⟩ := ha d hd
  rw [List.length_append, nans_length] at hn
  have bad : ∀ t, t < k → (nans k ++ d)[t]? = some nan := fun t ht => by
    rw [List.getElem?_append_left (by simpa using ht), nans, List.getElem?_replicate, if_pos ht]
  refine ⟨out, out', ho, ho', hn, hn', fun j y hj hy => hg _ j nan (bad j hj) NaNLaws.nan_isNaN out ho j y le_rfl (by omega) hy,
    fun i y y' hy hy' => ?_⟩
  have hi' : i < d.length := hn' ▸ (List.getElem?_eq_some_iff.1 hy').1
  rcases Nat.lt_or_ge i (W - 1) with hi | hi
  · refine Or.inr ⟨?_, hw' inferInstance _ ?_⟩
    · rcases Nat.eq_zero_or_pos k with rfl | hk
      · have e : (nans 0 ++ d : List F) = d := rfl
        rw [e, ho'] at ho
        cases ho
        refine hw' inferInstance _ ?_
        rw [List.mem_iff_getElem?]
        exact ⟨i, by rw [List.getElem?_take_of_lt hi, ← hy, Nat.zero_add]⟩
      · exact hg _ (k - 1) nan (bad (k - 1) (by omega)) NaNLaws.nan_isNaN out ho (k + i) y (by omega) (by omega) hy
    · rw [List.mem_iff_getElem?]
      exact ⟨i, by rw [List.getElem?_take_of_lt hi, hy']⟩
  · refine Or.inl ?_
    have := hl (nans k ++ d) d (k + i) i out out' ho ho' (by omega) (by omega) (by simp; omega) hi' (by
      rw [recent, recent, show k + i + 1 - W = k + (i + 1 - W) by omega, List.drop_append, nans_length,
        List.drop_eq_nil_of_le (by simp), List.nil_append, Nat.add_sub_cancel_left])
    rw [hy, hy'] at this
    exact Option.some.inj this

theorem neverChains_of {g : List F → Option (List F)} (h : PoisonedBy 0 IsNaN g) : NeverChains g := fun k d hk out ho y hy => by
  obtain ⟨j, hj⟩ := List.mem_iff_getElem?.1 hy
  refine h _ 0 nan (Nat.le_refl 0) ?_ NaNLaws.nan_isNaN out ho j y (Nat.zero_le j) hj
  rw [List.getElem?_append_left (by simp; omega), nans, List.getElem?_replicate, if_pos (by omega)]

end Traquer

namespace Traquer.Smooth
open FloatLit
variable {F : Type} [FloatOps F] [NaNLaws F]

theorem sma_chains {w : Nat} (hw : 1 ≤ w) : Chains w fun l : List F => sma l w :=
  chains_of (by omega) (sma_local (by omega)) (sma_gapShows w) fun d hd => sma_aligned d w hw (by omega)

example (a b c x : F) : ∃ out out', sma [nan, nan, a, b, c, x] 3 = some out ∧ sma [a, b, c, x] 3 = some out' ∧
    ∀ i y y', out[2 + i]? = some y → out'[i]? = some y' → y = y' ∨ (isNaN y = true ∧ isNaN y' = true) := by
  obtain ⟨out, out', h, h', -, -, -, hv⟩ := sma_chains (F := F) (w := 3) (by decide) 2 [a, b, c, x] (by simp)
  exact ⟨out, out', h, h', hv⟩

theorem wma_chains {w : Nat} (hw : 1 ≤ w) : Chains w fun l : List F => wma l w :=
  chains_of (by omega) (wma_local (by omega)) (wma_gapShows w) fun d hd => wma_aligned d w hw (by omega)

example (a b c x : F) : ∃ out out', wma [nan, nan, a, b, c, x] 3 = some out ∧ wma [a, b, c, x] 3 = some out' ∧
    ∀ i y y', out[2 + i]? = some y → out'[i]? = some y' → y = y' ∨ (isNaN y = true ∧ isNaN y' = true) := by
  obtain ⟨out, out', h, h', -, -, -, hv⟩ := wma_chains (F := F) (w := 3) (by decide) 2 [a, b, c, x] (by simp)
  exact ⟨out, out', h, h', hv⟩

theorem pwma_chains {w : Nat} (hw : 1 ≤ w) (hp : w ≤ 63) : Chains w fun l : List F => pwma l w :=
  chains_of (by omega) (pwma_local (by omega)) (pwma_gapShows w) fun d hd => pwma_aligned d w hw hp (by omega)

example (a b c x : F) : ∃ out out', pwma [nan, nan, a, b, c, x] 3 = some out ∧ pwma [a, b, c, x] 3 = some out' ∧
    ∀ i y y', out[2 + i]? = some y → out'[i]? = some y' → y = y' ∨ (isNaN y = true ∧ isNaN y' = true) := by
  obtain ⟨out, out', h, h', -, -, -, hv⟩ := pwma_chains (F := F) (w := 3) (by decide) (by decide) 2 [a, b, c, x] (by simp)
  exact ⟨out, out', h, h', hv⟩

theorem fwma_chains {w : Nat} (hw : 2 ≤ w) : Chains w fun l : List F => fwma l w :=
  chains_of (by omega) (fwma_local (by omega)) (fwma_gapShows w) fun d hd => fwma_aligned d w hw (by omega)

example (a b c x : F) : ∃ out out', fwma [nan, nan, a, b, c, x] 3 = some out ∧ fwma [a, b, c, x] 3 = some out' ∧
    ∀ i y y', out[2 + i]? = some y → out'[i]? = some y' → y = y' ∨ (isNaN y = true ∧ isNaN y' = true) := by
  obtain ⟨out, out', h, h', -, -, -, hv⟩ := fwma_chains (F := F) (w := 3) (by decide) 2 [a, b, c, x] (by simp)
  exact ⟨out, out', h, h', hv⟩

theorem lrf_chains {w : Nat} (hw : 1 ≤ w) : Chains w fun l : List F => lrf l w :=
  chains_of (by omega) (lrf_local (by omega)) (lrf_gapShows w) fun d hd => lrf_aligned d w hw (by omega)

example (a b c x : F) : ∃ out out', lrf [nan, nan, a, b, c, x] 3 = some out ∧ lrf [a, b, c, x] 3 = some out' ∧
    ∀ i y y', out[2 + i]? = some y → out'[i]? = some y' → y = y' ∨ (isNaN y = true ∧ isNaN y' = true) := by
  obtain ⟨out, out', h, h', -, -, -, hv⟩ := lrf_chains (F := F) (w := 3) (by decide) 2 [a, b, c, x] (by simp)
  exact ⟨out, out', h, h', hv⟩

theorem trima_chains {w : Nat} (hw : 1 ≤ w) : Chains w fun l : List F => trima l w :=
  chains_of (by omega) (trima_local (by omega)) (trima_gapShows w) fun d hd => trima_aligned d w hw (by omega)

example (a b c x : F) : ∃ out out', trima [nan, nan, a, b, c, x] 3 = some out ∧ trima [a, b, c, x] 3 = some out' ∧
    ∀ i y y', out[2 + i]? = some y → out'[i]? = some y' → y = y' ∨ (isNaN y = true ∧ isNaN y' = true) := by
  obtain ⟨out, out', h, h', -, -, -, hv⟩ := trima_chains (F := F) (w := 3) (by decide) 2 [a, b, c, x] (by simp)
  exact ⟨out, out', h, h', hv⟩

theorem ewma_neverChains (w : Nat) : NeverChains fun l : List F => ewma l w := neverChains_of (ewma_poisoned w)

theorem wilder_neverChains {w : Nat} (hw : 2 ≤ w) : NeverChains fun l : List F => wilder l w := neverChains_of (wilder_poisoned hw)

theorem dema_neverChains (w : Nat) : NeverChains fun l : List F => dema l w := neverChains_of (dema_poisoned w)

theorem tema_neverChains (w : Nat) : NeverChains fun l : List F => tema l w := neverChains_of (tema_poisoned w)

theorem t3_neverChains (w : Nat) (f : Option F) : NeverChains fun l : List F => t3 l w f := neverChains_of (t3_poisoned w f)

theorem zlma_neverChains (w : Nat) : NeverChains fun l : List F => zlma l w := neverChains_of (zlma_poisoned w)

theorem mdma_neverChains (w : Nat) : NeverChains fun l : List F => mdma l w := neverChains_of (mdma_poisoned w)

theorem hwma_neverChains (a b c : Option F) : NeverChains fun l : List F => hwma l a b c := neverChains_of (hwma_poisoned a b c)

theorem ssf_neverChains (w : Nat) (tri : Option Bool) : NeverChains fun l : List F => ssf l w tri := neverChains_of (ssf_poisoned w tri)

example (a b c x : F) (out : List F) (h : ewma [nan, nan, a, b, c, x] 2 = some out) : ∀ y ∈ out, isNaN y = true :=
  ewma_neverChains 2 2 [a, b, c, x] (by decide) out h

end Traquer.Smooth

namespace Traquer.Distribution
open FloatLit
variable {F : Type} [FloatOps F] [NaNLaws F]

theorem variance_chains {w : Nat} (hw : 1 ≤ w) : Chains w fun l : List F => variance l w :=
  chains_of (by omega) (variance_local (by omega)) (variance_gapShows w) fun d hd => variance_aligned d w hw (by omega)

example (a b c x : F) : ∃ out out', variance [nan, nan, a, b, c, x] 3 = some out ∧ variance [a, b, c, x] 3 = some out' ∧
    ∀ i y y', out[2 + i]? = some y → out'[i]? = some y' → y = y' ∨ (isNaN y = true ∧ isNaN y' = true) := by
  obtain ⟨out, out', h, h', -, -, -, hv⟩ := variance_chains (F := F) (w := 3) (by decide) 2 [a, b, c, x] (by simp)
  exact ⟨out, out', h, h', hv⟩

theorem std_dev_chains {w : Nat} (hw : 1 ≤ w) : Chains w fun l : List F => std_dev l w :=
  chains_of (by omega) (std_dev_local (by omega)) (std_dev_gapShows w) fun d hd => std_dev_aligned d w hw (by omega)

example (a b c x : F) : ∃ out out', std_dev [nan, nan, a, b, c, x] 3 = some out ∧ std_dev [a, b, c, x] 3 = some out' ∧
    ∀ i y y', out[2 + i]? = some y → out'[i]? = some y' → y = y' ∨ (isNaN y = true ∧ isNaN y' = true) := by
  obtain ⟨out, out', h, h', -, -, -, hv⟩ := std_dev_chains (F := F) (w := 3) (by decide) 2 [a, b, c, x] (by simp)
  exact ⟨out, out', h, h', hv⟩

theorem zscore_chains {w : Nat} (hw : 1 ≤ w) : Chains w fun l : List F => zscore l w :=
  chains_of (by omega) (zscore_local (by omega)) (zscore_gapShows w) fun d hd => zscore_aligned d w hw (by omega)

example (a b c x : F) : ∃ out out', zscore [nan, nan, a, b, c, x] 3 = some out ∧ zscore [a, b, c, x] 3 = some out' ∧
    ∀ i y y', out[2 + i]? = some y → out'[i]? = some y' → y = y' ∨ (isNaN y = true ∧ isNaN y' = true) := by
  obtain ⟨out, out', h, h', -, -, -, hv⟩ := zscore_chains (F := F) (w := 3) (by decide) 2 [a, b, c, x] (by simp)
  exact ⟨out, out', h, h', hv⟩

theorem mad_chains {w : Nat} (hw : 1 ≤ w) : Chains w fun l : List F => mad l w :=
  chains_of (by omega) (mad_local (by omega)) (mad_gapShows w) fun d hd => mad_aligned d w hw (by omega)

example (a b c x : F) : ∃ out out', mad [nan, nan, a, b, c, x] 3 = some out ∧ mad [a, b, c, x] 3 = some out' ∧
    ∀ i y y', out[2 + i]? = some y → out'[i]? = some y' → y = y' ∨ (isNaN y = true ∧ isNaN y' = true) := by
  obtain ⟨out, out', h, h', -, -, -, hv⟩ := mad_chains (F := F) (w := 3) (by decide) 2 [a, b, c, x] (by simp)
  exact ⟨out, out', h, h', hv⟩

theorem cv_chains {w : Nat} (hw : 1 ≤ w) : Chains w fun l : List F => cv l w :=
  chains_of (by omega) (cv_local (by omega)) (cv_gapShows w) fun d hd => cv_aligned d w hw (by omega)

example (a b c x : F) : ∃ out out', cv [nan, nan, a, b, c, x] 3 = some out ∧ cv [a, b, c, x] 3 = some out' ∧
    ∀ i y y', out[2 + i]? = some y → out'[i]? = some y' → y = y' ∨ (isNaN y = true ∧ isNaN y' = true) := by
  obtain ⟨out, out', h, h', -, -, -, hv⟩ := cv_chains (F := F) (w := 3) (by decide) 2 [a, b, c, x] (by simp)
  exact ⟨out, out', h, h', hv⟩

theorem kurtosis_chains {w : Nat} (hw : 3 ≤ w) : Chains w fun l : List F => kurtosis l w :=
  chains_of (by omega) (kurtosis_local (by omega)) (kurtosis_gapShows w) fun d hd => kurtosis_aligned d w hw (by omega)

example (a b c x : F) : ∃ out out', kurtosis [nan, nan, a, b, c, x] 4 = some out ∧ kurtosis [a, b, c, x] 4 = some out' ∧
    ∀ i y y', out[2 + i]? = some y → out'[i]? = some y' → y = y' ∨ (isNaN y = true ∧ isNaN y' = true) := by
  obtain ⟨out, out', h, h', -, -, -, hv⟩ := kurtosis_chains (F := F) (w := 4) (by decide) 2 [a, b, c, x] (by simp)
  exact ⟨out, out', h, h', hv⟩

theorem skew_chains {w : Nat} (hw : 2 ≤ w) : Chains w fun l : List F => skew l w :=
  chains_of (by omega) (skew_local (by omega)) (skew_gapShows w) fun d hd => skew_aligned d w hw (by omega)

example (a b c x : F) : ∃ out out', skew [nan, nan, a, b, c, x] 3 = some out ∧ skew [a, b, c, x] 3 = some out' ∧
    ∀ i y y', out[2 + i]? = some y → out'[i]? = some y' → y = y' ∨ (isNaN y = true ∧ isNaN y' = true) := by
  obtain ⟨out, out', h, h', -, -, -, hv⟩ := skew_chains (F := F) (w := 3) (by decide) 2 [a, b, c, x] (by simp)
  exact ⟨out, out', h, h', hv⟩

end Traquer.Distribution

namespace Traquer.Momentum
open FloatLit
variable {F : Type} [FloatOps F] [NaNLaws F]

theorem cfo_chains {w : Nat} (hw : 1 ≤ w) : Chains w fun l : List F => cfo l w :=
  chains_of (by omega) (cfo_local (by omega)) (cfo_gapShows w) fun d hd => cfo_aligned d w hw (by omega)

example (a b c x : F) : ∃ out out', cfo [nan, nan, a, b, c, x] 3 = some out ∧ cfo [a, b, c, x] 3 = some out' ∧
    ∀ i y y', out[2 + i]? = some y → out'[i]? = some y' → y = y' ∨ (isNaN y = true ∧ isNaN y' = true) := by
  obtain ⟨out, out', h, h', -, -, -, hv⟩ := cfo_chains (F := F) (w := 3) (by decide) 2 [a, b, c, x] (by simp)
  exact ⟨out, out', h, h', hv⟩

theorem cog_chains {w : Nat} (hw : 1 ≤ w) : Chains w fun l : List F => cog l w :=
  chains_of (by omega) (cog_local (by omega)) (cog_gapShows w) fun d hd => cog_aligned d w hw (by omega)

example (a b c x : F) : ∃ out out', cog [nan, nan, a, b, c, x] 3 = some out ∧ cog [a, b, c, x] 3 = some out' ∧
    ∀ i y y', out[2 + i]? = some y → out'[i]? = some y' → y = y' ∨ (isNaN y = true ∧ isNaN y' = true) := by
  obtain ⟨out, out', h, h', -, -, -, hv⟩ := cog_chains (F := F) (w := 3) (by decide) 2 [a, b, c, x] (by simp)
  exact ⟨out, out', h, h', hv⟩

theorem macd_neverChains (short long : Nat) : NeverChains fun l : List F => macd l short long := neverChains_of (macd_poisoned short long)

theorem ppo_neverChains (short long : Nat) : NeverChains fun l : List F => ppo l short long := neverChains_of (ppo_poisoned short long)

theorem disparity_neverChains (w : Nat) : NeverChains fun l : List F => disparity l w := neverChains_of (disparity_poisoned w)

theorem trix_neverChains (w : Nat) : NeverChains fun l : List F => trix l w := neverChains_of (trix_poisoned w)

theorem tsi_neverChains (short long : Nat) : NeverChains fun l : List F => tsi l short long := neverChains_of (tsi_poisoned short long)

example (a b c x : F) (out : List F) (h : macd [nan, nan, a, b, c, x] 2 3 = some out) : ∀ y ∈ out, isNaN y = true :=
  macd_neverChains 2 3 2 [a, b, c, x] (by decide) out h

end Traquer.Momentum
