import Verif.Props.GapSmooth
import Verif.Model.Correlation
import Verif.Model.Volatility
import Verif.Model.Volume
import Verif.Lemmas.FoldMax
import Verif.Props.PoisonNot
/-!
# A NaN price shows in every statistic over a window that contains it
-/

namespace Traquer.Distribution
open FloatLit
variable {F : Type} [FloatOps F] [NaNLaws F] {i W w : Nat} {l o v : List F}

theorem powi_gap {x : F} (h : isNaN x = true) {n : Nat} (hn : n = 2 ∨ n = 3 ∨ n = 4) : isNaN (powi x n) = true := by
  rcases hn with rfl | rfl | rfl
  · rw [show powi x 2 = 1 * (x * x) by simp [powi, powiLoop]]; nanp
  · rw [show powi x 3 = 1 * x * (x * x) by simp [powi, powiLoop]]; nanp
  · rw [show powi x 4 = 1 * (x * x * (x * x)) by simp [powi, powiLoop]]; nanp

theorem winMean_gap (h : Has IsNaN v) : isNaN (winMean v w) = true := by
  have := has_fsum h
  simp only [winMean]
  nanp

theorem powDev_gap {m : F} {n : Nat} (h : Has IsNaN v) (hn : n = 2 ∨ n = 3 ∨ n = 4) : isNaN (powDev v m n) = true := by
  refine has_foldl h (fun s x hs => by nanp) fun s x hx => ?_
  have h' : isNaN x = true := hx
  have : isNaN (powi (x - m) n) = true := powi_gap (by nanp) hn
  nanp

theorem stdDevWin_gap (h : Has IsNaN v) : isNaN (stdDevWin w v) = true := by
  have := powDev_gap (m := winMean v w) h (Or.inl rfl : 2 = 2 ∨ 2 = 3 ∨ 2 = 4)
  simp only [stdDevWin]
  nanp

theorem variance_gap (h : Gap 0 IsNaN i W l) (hW : 1 ≤ W) (ho : variance l w = some o) : Gap 0 IsNaN i (W + (w - 1)) o := by
  simp only [variance] at ho
  unslice ho
  obtain ⟨hw, -, ho⟩ := ho
  cases ho
  refine (Gap.map (h.windowsOf w hW hw) fun v hv => ?_).nans
  have := powDev_gap (m := winMean v w) hv.1 (Or.inl rfl : 2 = 2 ∨ 2 = 3 ∨ 2 = 4)
  show isNaN _ = true
  nanp

theorem stdDevRaw_gap {k : Nat} (h : Gap k IsNaN i W l) (hW : 1 ≤ W) (ho : stdDevRaw l w = some o) : Gap (k + (w - 1)) IsNaN i (W + (w - 1)) o := by
  simp only [stdDevRaw] at ho
  unslice ho
  obtain ⟨hw, ho⟩ := ho
  cases ho
  refine Gap.map (h.windowsOf w hW hw) fun v hv => ?_
  exact stdDevWin_gap hv.1

theorem std_dev_gap (h : Gap 0 IsNaN i W l) (hW : 1 ≤ W) (ho : std_dev l w = some o) : Gap 0 IsNaN i (W + (w - 1)) o := by
  simp only [std_dev] at ho
  unslice ho
  obtain ⟨hw, ho⟩ := ho
  obtain ⟨r, hr, ho⟩ := Option.bind_eq_some_iff.1 ho
  cases ho
  exact (stdDevRaw_gap h hW hr).nans

theorem zscore_gap (h : Gap 0 IsNaN i W l) (hW : 1 ≤ W) (ho : zscore l w = some o) : Gap 0 IsNaN i (W + (w - 1)) o := by
  simp only [zscore] at ho
  unslice ho
  obtain ⟨hw, -, ho⟩ := ho
  obtain ⟨r, hr, ho⟩ := Option.bind_eq_some_iff.1 ho
  cases ho
  refine (Gap.mapP (h.windowsOf w hW hw) hr fun v y hv hy => ?_).nans
  obtain ⟨z, -, hy⟩ := Option.bind_eq_some_iff.1 hy
  cases hy
  have := winMean_gap (w := w) hv.1
  show isNaN _ = true
  nanp

theorem mad_gap (h : Gap 0 IsNaN i W l) (hW : 1 ≤ W) (ho : mad l w = some o) : Gap 0 IsNaN i (W + (w - 1)) o := by
  simp only [mad] at ho
  unslice ho
  obtain ⟨hw, -, ho⟩ := ho
  cases ho
  refine (Gap.map (h.windowsOf w hW hw) fun v hv => ?_).nans
  have : isNaN (v.foldl (fun acc x => acc + fabs (x - winMean v w)) 0) = true :=
    has_foldl hv.1 (fun s x hs => by nanp) fun s x hx => by
      have h' : isNaN x = true := hx
      nanp
  show isNaN _ = true
  nanp

theorem cv_gap (h : Gap 0 IsNaN i W l) (hW : 1 ≤ W) (ho : cv l w = some o) : Gap 0 IsNaN i (W + (w - 1)) o := by
  simp only [cv] at ho
  unslice ho
  obtain ⟨hw, -, ho⟩ := ho
  cases ho
  refine (Gap.map (h.windowsOf w hW hw) fun v hv => ?_).nans
  have := winMean_gap (w := w) hv.1
  show isNaN _ = true
  nanp

theorem kurtosis_gap (h : Gap 0 IsNaN i W l) (hW : 1 ≤ W) (ho : kurtosis l w = some o) : Gap 0 IsNaN i (W + (w - 1)) o := by
  simp only [kurtosis] at ho
  unslice ho
  obtain ⟨hw, -, -, -, ho⟩ := ho
  cases ho
  refine (Gap.map (h.windowsOf w hW hw) fun v hv => ?_).nans
  have := powDev_gap (m := winMean v w) hv.1 (Or.inl rfl : 2 = 2 ∨ 2 = 3 ∨ 2 = 4)
  show isNaN _ = true
  nanp

theorem skew_gap (h : Gap 0 IsNaN i W l) (hW : 1 ≤ W) (ho : skew l w = some o) : Gap 0 IsNaN i (W + (w - 1)) o := by
  simp only [skew] at ho
  unslice ho
  obtain ⟨hw, -, ho⟩ := ho
  obtain ⟨r, hr, ho⟩ := Option.bind_eq_some_iff.1 ho
  cases ho
  refine (Gap.mapP (h.windowsOf w hW hw) hr fun v y hv hy => ?_).nans
  obtain ⟨-, hy⟩ := usub_bind_some.1 hy
  cases hy
  have := powDev_gap (m := winMean v w) hv.1 (Or.inr (Or.inl rfl) : 3 = 2 ∨ 3 = 3 ∨ 3 = 4)
  show isNaN _ = true
  nanp

/-- The statistics of a window with a NaN price in it are NaN. -/
theorem variance_gapShows (w : Nat) : GapShows w IsNaN fun l : List F => variance l w := gapShows_of fun bars i out h ho => by
  have := variance_gap h (Nat.le_refl 1) ho
  exact this.weaken (by omega)

example (a b c x : F) (out : List F) (h : (fun l : List F => variance l 3) [a, b, nan, c, x] = some out) : ∀ j y, 2 ≤ j → j < 2 + 3 → out[j]? = some y → isNaN y = true :=
  variance_gapShows 3 [a, b, nan, c, x] 2 nan rfl NaNLaws.nan_isNaN out h

theorem std_dev_gapShows (w : Nat) : GapShows w IsNaN fun l : List F => std_dev l w := gapShows_of fun bars i out h ho => by
  have := std_dev_gap h (Nat.le_refl 1) ho
  exact this.weaken (by omega)

example (a b c x : F) (out : List F) (h : (fun l : List F => std_dev l 3) [a, b, nan, c, x] = some out) : ∀ j y, 2 ≤ j → j < 2 + 3 → out[j]? = some y → isNaN y = true :=
  std_dev_gapShows 3 [a, b, nan, c, x] 2 nan rfl NaNLaws.nan_isNaN out h

theorem zscore_gapShows (w : Nat) : GapShows w IsNaN fun l : List F => zscore l w := gapShows_of fun bars i out h ho => by
  have := zscore_gap h (Nat.le_refl 1) ho
  exact this.weaken (by omega)

example (a b c x : F) (out : List F) (h : (fun l : List F => zscore l 3) [a, b, nan, c, x] = some out) : ∀ j y, 2 ≤ j → j < 2 + 3 → out[j]? = some y → isNaN y = true :=
  zscore_gapShows 3 [a, b, nan, c, x] 2 nan rfl NaNLaws.nan_isNaN out h

theorem mad_gapShows (w : Nat) : GapShows w IsNaN fun l : List F => mad l w := gapShows_of fun bars i out h ho => by
  have := mad_gap h (Nat.le_refl 1) ho
  exact this.weaken (by omega)

example (a b c x : F) (out : List F) (h : (fun l : List F => mad l 3) [a, b, nan, c, x] = some out) : ∀ j y, 2 ≤ j → j < 2 + 3 → out[j]? = some y → isNaN y = true :=
  mad_gapShows 3 [a, b, nan, c, x] 2 nan rfl NaNLaws.nan_isNaN out h

theorem cv_gapShows (w : Nat) : GapShows w IsNaN fun l : List F => cv l w := gapShows_of fun bars i out h ho => by
  have := cv_gap h (Nat.le_refl 1) ho
  exact this.weaken (by omega)

example (a b c x : F) (out : List F) (h : (fun l : List F => cv l 3) [a, b, nan, c, x] = some out) : ∀ j y, 2 ≤ j → j < 2 + 3 → out[j]? = some y → isNaN y = true :=
  cv_gapShows 3 [a, b, nan, c, x] 2 nan rfl NaNLaws.nan_isNaN out h

theorem kurtosis_gapShows (w : Nat) : GapShows w IsNaN fun l : List F => kurtosis l w := gapShows_of fun bars i out h ho => by
  have := kurtosis_gap h (Nat.le_refl 1) ho
  exact this.weaken (by omega)

example (a b c x : F) (out : List F) (h : (fun l : List F => kurtosis l 4) [a, b, nan, c, x] = some out) : ∀ j y, 2 ≤ j → j < 2 + 4 → out[j]? = some y → isNaN y = true :=
  kurtosis_gapShows 4 [a, b, nan, c, x] 2 nan rfl NaNLaws.nan_isNaN out h

theorem skew_gapShows (w : Nat) : GapShows w IsNaN fun l : List F => skew l w := gapShows_of fun bars i out h ho => by
  have := skew_gap h (Nat.le_refl 1) ho
  exact this.weaken (by omega)

example (a b c x : F) (out : List F) (h : (fun l : List F => skew l 3) [a, b, nan, c, x] = some out) : ∀ j y, 2 ≤ j → j < 2 + 3 → out[j]? = some y → isNaN y = true :=
  skew_gapShows 3 [a, b, nan, c, x] 2 nan rfl NaNLaws.nan_isNaN out h

end Traquer.Distribution

namespace Traquer.Volatility
open FloatLit
variable {F : Type} [FloatOps F] [NaNLaws F] {i W w : Nat} {l o v : List F}

theorem std_dev_gap {dev : Option F} (h : Gap 0 IsNaN i W l) (hW : 1 ≤ W) (ho : std_dev l w dev = some o) : Gap 0 IsNaN i (W + (w - 1)) o := by
  simp only [std_dev, Option.bind_eq_bind] at ho
  obtain ⟨r, hr, ho⟩ := Option.bind_eq_some_iff.1 ho
  cases ho
  refine Gap.map (Distribution.std_dev_gap h hW hr) fun x hx => ?_
  have : isNaN x = true := hx
  show isNaN _ = true
  nanp

theorem std_dev_gapShows (w : Nat) (dev : Option F) : GapShows w IsNaN fun l : List F => std_dev l w dev := gapShows_of fun bars i out h ho => by
  have := std_dev_gap h (Nat.le_refl 1) ho
  exact this.weaken (by omega)

example (a b c x : F) (out : List F) (h : std_dev [a, b, nan, c, x] 3 none = some out) : ∀ j y, 2 ≤ j → j < 2 + 3 → out[j]? = some y → isNaN y = true :=
  std_dev_gapShows 3 none [a, b, nan, c, x] 2 nan rfl NaNLaws.nan_isNaN out h

theorem bbands_gap {dev : Option F} {m : Option Smooth.MaMode} {o : List (F × F × F)} (h : Gap 0 IsNaN i 1 l) (ho : bbands l w dev m = some o) :
    Gap 0 (fun y : F × F × F => isNaN y.1 = true ∧ isNaN y.2.2 = true) i w o := by
  simp only [bbands, Option.bind_eq_bind] at ho
  obtain ⟨m, hm, ho⟩ := Option.bind_eq_some_iff.1 ho
  obtain ⟨s, hs, ho⟩ := Option.bind_eq_some_iff.1 ho
  cases ho
  refine Gap.map (Gap.zip_right ((std_dev_gap h (Nat.le_refl 1) hs).weaken (by omega))) fun x hx => ?_
  have : isNaN x.2 = true := hx
  exact ⟨by show isNaN (_ + _) = true; nanp, by show isNaN (_ - _) = true; nanp⟩

/-- The bands around any average: both outer lines. -/
theorem bbands_gapShows (w : Nat) (dev : Option F) (m : Option Smooth.MaMode) :
    GapShows w IsNaN (fun l : List F => (bbands l w dev m).map (·.map (·.1))) ∧
    GapShows w IsNaN (fun l : List F => (bbands l w dev m).map (·.map (·.2.2))) := by
  constructor <;> refine gapShows_of fun bars i out h ho => ?_ <;>
  · obtain ⟨o, hq, rfl⟩ := Option.map_eq_some_iff.1 ho
    refine Gap.map (bbands_gap h hq) fun y hy => ?_
    first | exact hy.1 | exact hy.2

example (a b c x : F) (out : List (F × F × F)) (h : bbands [a, b, nan, c, x] 3 none none = some out) :
    ∀ j y, 2 ≤ j → j < 2 + 3 → (out.map (·.1))[j]? = some y → isNaN y = true :=
  (bbands_gapShows 3 none none).1 [a, b, nan, c, x] 2 nan rfl NaNLaws.nan_isNaN _ (by simp [h])

theorem hlc_gap {bars : List (Candle F)} (h : Gap 0 (fun b : Candle F => isNaN b.high = true ∨ isNaN b.low = true ∨ isNaN b.close = true) i 1 bars) :
    Gap 0 IsNaN i 1 ((zip3 (bars.map (·.high)) (bars.map (·.low)) (bars.map (·.close))).map fun x : F × F × F => (x.1 + x.2.1 + x.2.2) / 3) := by
  have e : zip3 (bars.map (·.high)) (bars.map (·.low)) (bars.map (·.close)) = bars.map fun b => (b.high, b.low, b.close) := by
    simp [zip3_eq, List.zip_map', Function.comp_def]
  rw [e, List.map_map]
  refine Gap.map h fun b hb => ?_
  show isNaN (_ / 3) = true
  rcases hb with hb | hb | hb <;> simp only [Function.comp_apply] <;> nanp

theorem typical_gapShows (w : Nat) : GapShows w (fun b : Candle F => isNaN b.high = true ∨ isNaN b.low = true ∨ isNaN b.close = true)
    fun l => typical (l.map (·.high)) (l.map (·.low)) (l.map (·.close)) w := gapShows_of fun bars i out h ho => by
  have := Smooth.sma_gap (hlc_gap h) (Nat.le_refl 1) ho
  exact this.weaken (by omega)

example (a b c : F) (out : List F) (h : typical [a, b, c] [a, nan, c] [a, b, c] 2 = some out) : ∀ j y, 1 ≤ j → j < 1 + 2 → out[j]? = some y → isNaN y = true :=
  typical_gapShows 2 [⟨a, a, a, a, a⟩, ⟨b, b, nan, b, b⟩, ⟨c, c, c, c, c⟩] 1 ⟨b, b, nan, b, b⟩ rfl (.inr (.inl NaNLaws.nan_isNaN)) out h

end Traquer.Volatility

namespace Traquer.Momentum
open FloatLit
variable {F : Type} [FloatOps F] [NaNLaws F] {i W w : Nat} {l o v : List F}

theorem cfo_gapShows (w : Nat) : GapShows w IsNaN fun l : List F => cfo l w := gapShows_of fun bars i out h ho => by
  simp only [cfo, Option.bind_eq_bind] at ho
  obtain ⟨r, hr, ho⟩ := Option.bind_eq_some_iff.1 ho
  cases ho
  refine Gap.map (Gap.zip_left ((Smooth.lrf_gap h (Nat.le_refl 1) hr).weaken (by omega))) fun x hx => ?_
  have : isNaN x.1 = true := hx
  show isNaN _ = true
  nanp

example (a b c x : F) (out : List F) (h : cfo [a, b, nan, c, x] 3 = some out) : ∀ j y, 2 ≤ j → j < 2 + 3 → out[j]? = some y → isNaN y = true :=
  cfo_gapShows 3 [a, b, nan, c, x] 2 nan rfl NaNLaws.nan_isNaN out h

theorem cog_gapShows (w : Nat) : GapShows w IsNaN fun l : List F => cog l w := gapShows_of fun bars i out h ho => by
  simp only [cog] at ho
  unslice ho
  obtain ⟨hw, -, ho⟩ := ho
  cases ho
  refine ((Gap.map (h.windowsOf w (Nat.le_refl 1) hw) fun v hv => ?_).nans).weaken (W := 1 + (w - 1)) (by omega)
  have := has_fsum hv.1
  show isNaN _ = true
  nanp

example (a b c x : F) (out : List F) (h : cog [a, b, nan, c, x] 3 = some out) : ∀ j y, 2 ≤ j → j < 2 + 3 → out[j]? = some y → isNaN y = true :=
  cog_gapShows 3 [a, b, nan, c, x] 2 nan rfl NaNLaws.nan_isNaN out h

end Traquer.Momentum

namespace Traquer
variable {F : Type} [FloatOps F] [NaNLaws F] {i W w : Nat} {α : Type}

/-- Windows of two series read off the same bars. -/
theorem windowsOf_zip_map (w : Nat) (bars : List α) (f g : α → F) :
    (windowsOf w (bars.map f)).zip (windowsOf w (bars.map g)) = (windowsOf w bars).map fun v => (v.map f, v.map g) := by
  rw [windowsOf_map, windowsOf_map, List.zip_map']

end Traquer

namespace Traquer.Volume
open FloatLit
variable {F : Type} [FloatOps F] [NaNLaws F] {i W w : Nat}

/-- The volume weighted mean of `(price, volume)` bars. -/
theorem vwma_gapShows (w : Nat) : GapShows w (fun b : F × F => isNaN b.1 = true ∨ isNaN b.2 = true) fun l => vwma (l.map (·.1)) (l.map (·.2)) w :=
  gapShows_of fun bars i out h ho => by
  simp only [vwma] at ho
  unslice ho
  obtain ⟨hw, -, -, ho⟩ := ho
  cases ho
  rw [windowsOf_zip_map, List.map_map]
  refine ((Gap.map (h.windowsOf w (Nat.le_refl 1) hw) fun v hv => ?_).nans).weaken (W := 1 + (w - 1)) (by omega)
  have : isNaN (((v.map (·.1)).zip (v.map (·.2))).foldl (fun (acc : F) (x : F × F) => acc + x.1 * x.2) 0) = true := by
    rw [List.zip_map']
    refine has_foldl (bad := fun b : F × F => isNaN b.1 = true ∨ isNaN b.2 = true) ?_ (fun s x hs => by nanp) fun s x hx => ?_
    · simpa using hv.1
    · rcases hx with hx | hx <;> nanp
  show isNaN (_ / _) = true
  nanp

example (a b c : F) (out : List F) (h : vwma [a, b, c] [a, nan, c] 2 = some out) : ∀ j y, 1 ≤ j → j < 1 + 2 → out[j]? = some y → isNaN y = true :=
  vwma_gapShows 2 [(a, a), (b, nan), (c, c)] 1 (b, nan) rfl (.inr NaNLaws.nan_isNaN) out h

theorem cmf_gapShows (w : Nat) :
    GapShows w (fun b : Candle F => isNaN b.high = true ∨ isNaN b.low = true ∨ isNaN b.close = true ∨ isNaN b.volume = true)
      fun l => cmf (l.map (·.high)) (l.map (·.low)) (l.map (·.close)) (l.map (·.volume)) w := gapShows_of fun bars i out h ho => by
  have e : zip4 (bars.map (·.high)) (bars.map (·.low)) (bars.map (·.close)) (bars.map (·.volume)) =
      bars.map fun b => (b.high, b.low, b.close, b.volume) := by
    simp [zip4_eq, List.zip_map', Function.comp_def]
  simp only [cmf, e, List.map_map] at ho
  unslice ho
  obtain ⟨hw, -, -, ho⟩ := ho
  cases ho
  rw [windowsOf_zip_map, List.map_map]
  refine ((Gap.map (h.windowsOf w (Nat.le_refl 1) hw) fun v hv => ?_).nans).weaken (W := 1 + (w - 1)) (by omega)
  have := has_fsum (has_map (g := fun b : Candle F => b.volume * ((b.close - b.low) - (b.high - b.close)) / (b.high - b.low)) hv.1 fun b hb => by
    rcases hb with hb | hb | hb | hb <;> nanp)
  show isNaN (_ / _) = true
  exact NaNLaws.div_left _ _ this

example (a b c : F) (out : List F) (h : cmf [a, b, c] [a, nan, c] [a, b, c] [a, b, c] 2 = some out) :
    ∀ j y, 1 ≤ j → j < 1 + 2 → out[j]? = some y → isNaN y = true :=
  cmf_gapShows 2 [⟨a, a, a, a, a⟩, ⟨b, b, nan, b, b⟩, ⟨c, c, c, c, c⟩] 1 ⟨b, b, nan, b, b⟩ rfl (.inr (.inl NaNLaws.nan_isNaN)) out h

end Traquer.Volume

namespace Traquer.Correlation
open FloatLit
variable {F : Type} [FloatOps F] [NaNLaws F] {i W w : Nat}

theorem pccWin_gap {v : List (F × F)} (h : Has (fun b : F × F => isNaN b.1 = true ∨ isNaN b.2 = true) v) :
    isNaN (pccWin w (v.map (·.1)) (v.map (·.2))) = true := by
  have : isNaN (pccSums (v.map (·.1)) (v.map (·.2))).xy = true := by
    rw [pccSums, List.zip_map']
    refine foldl_isNaN (p := fun s : PccSums F => isNaN s.xy = true) (q := fun b : F × F => isNaN b.1 = true ∨ isNaN b.2 = true) ?_ ?_
      (Or.inr (by simpa [Has] using h))
    · intro s x hs; show isNaN (_ + _) = true; nanp
    · intro s x hx
      show isNaN (_ + _) = true
      rcases hx with hx | hx <;> nanp
  simp only [pccWin]
  nanp

theorem pcc_gap {bars : List (F × F)} {o : List F} (h : Gap 0 (fun b : F × F => isNaN b.1 = true ∨ isNaN b.2 = true) i 1 bars)
    (ho : pcc (bars.map (·.1)) (bars.map (·.2)) w = some o) : Gap 0 IsNaN i w o := by
  simp only [pcc] at ho
  unslice ho
  obtain ⟨hw, -, -, ho⟩ := ho
  cases ho
  rw [windowsOf_zip_map, List.map_map]
  refine ((Gap.map (h.windowsOf w (Nat.le_refl 1) hw) fun v hv => ?_).nans).weaken (W := 1 + (w - 1)) (by omega)
  exact pccWin_gap hv.1

/-- A NaN in either series shows in Pearson's coefficient, … -/
theorem pcc_gapShows (w : Nat) : GapShows w (fun b : F × F => isNaN b.1 = true ∨ isNaN b.2 = true) fun l => pcc (l.map (·.1)) (l.map (·.2)) w :=
  gapShows_of fun _ _ _ h ho => pcc_gap h ho

example (a b c : F) (out : List F) (h : pcc [a, b, c] [a, nan, c] 2 = some out) : ∀ j y, 1 ≤ j → j < 1 + 2 → out[j]? = some y → isNaN y = true :=
  pcc_gapShows 2 [(a, a), (b, nan), (c, c)] 1 (b, nan) rfl (.inr NaNLaws.nan_isNaN) out h

/-- … in its square, … -/
theorem rsq_gapShows (w : Nat) : GapShows w (fun b : F × F => isNaN b.1 = true ∨ isNaN b.2 = true) fun l => rsq (l.map (·.1)) (l.map (·.2)) w :=
  gapShows_of fun bars i out h ho => by
  simp only [rsq, Option.bind_eq_bind] at ho
  obtain ⟨r, hr, ho⟩ := Option.bind_eq_some_iff.1 ho
  cases ho
  refine Gap.map (pcc_gap h hr) fun x hx => ?_
  have : isNaN x = true := hx
  show isNaN _ = true
  nanp

example (a b c : F) (out : List F) (h : rsq [a, b, c] [a, nan, c] 2 = some out) : ∀ j y, 1 ≤ j → j < 1 + 2 → out[j]? = some y → isNaN y = true :=
  rsq_gapShows 2 [(a, a), (b, nan), (c, c)] 1 (b, nan) rfl (.inr NaNLaws.nan_isNaN) out h

/-- … in the relative performance … -/
theorem perf_gapShows (w : Nat) : GapShows w (fun b : F × F => isNaN b.1 = true ∨ isNaN b.2 = true) fun l => perf (l.map (·.1)) (l.map (·.2)) w :=
  fun bars i x hx hb out ho j y h1 h2 hy => by
  simp only [perf, Option.bind_eq_bind] at ho
  obtain ⟨m1, hm1, ho⟩ := Option.bind_eq_some_iff.1 ho
  obtain ⟨m2, hm2, ho⟩ := Option.bind_eq_some_iff.1 ho
  cases ho
  simp only [zip4_eq, List.getElem?_map, Option.map_eq_some_iff, List.getElem?_zip_eq_some] at hy
  obtain ⟨⟨p, q, r, t⟩, ⟨-, -, h3, h4⟩, rfl⟩ := hy
  show isNaN (p / q * (t / r)) = true
  rcases hb with hb | hb
  · have := Smooth.sma_gap (Gap.one (l := bars.map (·.1)) (x := x.1) (by rw [List.getElem?_map, hx]; rfl) (bad := IsNaN) hb) (Nat.le_refl 1) hm1 j r (by omega) (by omega) h3
    have : isNaN r = true := this
    nanp
  · have := Smooth.sma_gap (Gap.one (l := bars.map (·.2)) (x := x.2) (by rw [List.getElem?_map, hx]; rfl) (bad := IsNaN) hb) (Nat.le_refl 1) hm2 j t (by omega) (by omega) h4
    have : isNaN t = true := this
    nanp

example (a b c : F) (out : List F) (h : perf [a, b, c] [a, nan, c] 2 = some out) : ∀ j y, 1 ≤ j → j < 1 + 2 → out[j]? = some y → isNaN y = true :=
  perf_gapShows 2 [(a, a), (b, nan), (c, c)] 1 (b, nan) rfl (.inr NaNLaws.nan_isNaN) out h

/-- … and in beta, where it is felt for two windows: the returns of two bars, then two means. -/
theorem beta_gapShows (w : Nat) : GapShows (2 * w) (fun b : F × F => isNaN b.1 = true ∨ isNaN b.2 = true) fun l => beta (l.map (·.1)) (l.map (·.2)) w :=
  gapShows_of fun bars i out h ho => by
  have er : ∀ f : F × F → F, returns (bars.map f) = (pairs bars).map fun p => f p.2 / f p.1 - 1 := fun f => by
    rw [returns, pairs_map, List.map_map]; rfl
  simp only [beta, er] at ho
  unslice ho
  obtain ⟨hw, -, -, ho⟩ := ho
  rw [windowsOf_zip_map] at ho
  obtain ⟨cv, hcv, ho⟩ := Option.bind_eq_some_iff.1 ho
  unslice ho
  obtain ⟨-, ho⟩ := ho
  cases ho
  have g1 := (h.pairs (Nat.le_refl 1)).windowsOf w (by omega) hw
  have g2 : Gap (0 + 1 + (w - 1)) (fun p : F × F => isNaN p.1 = true) i (1 + 1 + (w - 1)) cv := by
    refine Gap.mapP (Gap.map (bad' := fun v : List F × List F => Has IsNaN v.1 ∨ Has IsNaN v.2) g1 fun v hv => ?_) hcv fun v y hv hy => ?_
    · obtain ⟨p, hp, hb⟩ := hv.1
      have : (isNaN p.1.1 = true ∨ isNaN p.2.1 = true) ∨ (isNaN p.1.2 = true ∨ isNaN p.2.2 = true) := by tauto
      rcases this with h' | h'
      · refine Or.inl ⟨_, List.mem_map_of_mem hp, ?_⟩
        show isNaN (_ / _ - 1) = true
        rcases h' with h' | h' <;> nanp
      · refine Or.inr ⟨_, List.mem_map_of_mem hp, ?_⟩
        show isNaN (_ / _ - 1) = true
        rcases h' with h' | h' <;> nanp
    · obtain ⟨xl, -, hy⟩ := Option.bind_eq_some_iff.1 hy
      obtain ⟨yl, -, hy⟩ := Option.bind_eq_some_iff.1 hy
      cases hy
      show isNaN (_ * _) = true
      rcases hv with hv | hv
      · have := has_fsum hv
        nanp
      · have := has_fsum hv
        nanp
  have g3 := g2.windowsOf w (by omega) hw
  refine Gap.nans ?_
  rw [show 0 + ((w - 1) * 2 + 1) = 0 + 1 + (w - 1) + (w - 1) by omega]
  refine (Gap.map g3 fun v hv => ?_).weaken (by omega)
  have : isNaN (v.foldl (fun (st : F × F) (p : F × F) => (st.1 + p.1, st.2 + p.2)) (0, 0)).1 = true := by
    refine foldl_isNaN (p := fun s : F × F => isNaN s.1 = true) (q := fun p : F × F => isNaN p.1 = true) ?_ ?_ (Or.inr hv.1)
    · intro s x hs; show isNaN (_ + _) = true; nanp
    · intro s x hs; show isNaN (_ + _) = true; nanp
  show isNaN (_ / _ / _) = true
  nanp

example (a b c x : F) (out : List F) (h : beta [a, b, c, a, x] [a, nan, c, b, x] 2 = some out) : ∀ j y, 1 ≤ j → j < 1 + 2 * 2 → out[j]? = some y → isNaN y = true :=
  beta_gapShows 2 [(a, a), (b, nan), (c, c), (a, b), (x, x)] 1 (b, nan) rfl (.inr NaNLaws.nan_isNaN) out h

theorem has_centred {x : List F} (h : Has IsNaN x) : Has IsNaN (centredMatrix x) := by
  obtain ⟨a, ha, hb⟩ := h
  obtain ⟨t, ht, rfl⟩ := List.mem_iff_getElem.1 ha
  refine ⟨centredCell x t t, ?_, ?_⟩
  · simp only [centredMatrix, List.mem_flatMap, List.mem_map, List.mem_range]
    exact ⟨t, ht, t, ht, rfl⟩
  · have : isNaN (x.getD (min t t) nan) = true := by
      rw [Nat.min_self, List.getD_eq_getElem?_getD, List.getElem?_eq_getElem ht]
      exact hb
    show isNaN _ = true
    simp only [centredCell, distCell]
    nanp

/-- The distance correlation. -/
theorem dcor_gapShows (w : Nat) : GapShows w (fun b : F × F => isNaN b.1 = true ∨ isNaN b.2 = true) fun l => dcor (l.map (·.1)) (l.map (·.2)) w :=
  gapShows_of fun bars i out h ho => by
  simp only [dcor] at ho
  unslice ho
  obtain ⟨hw, -, -, ho⟩ := ho
  cases ho
  rw [windowsOf_zip_map, List.map_map]
  refine ((Gap.map (h.windowsOf w (Nat.le_refl 1) hw) fun v hv => ?_).nans).weaken (W := 1 + (w - 1)) (by omega)
  show isNaN (dcorWin _ _ _) = true
  obtain ⟨p, hp, hb⟩ := hv.1
  simp only [dcorWin]
  rcases hb with hb | hb
  · have := has_fsum (has_map (g := fun a : F => a * a) (has_centred (x := v.map (·.1)) ⟨p.1, List.mem_map_of_mem (f := (·.1)) hp, hb⟩) fun a ha => by
      have : isNaN a = true := ha
      nanp)
    nanp
  · have := has_fsum (has_map (g := fun a : F => a * a) (has_centred (x := v.map (·.2)) ⟨p.2, List.mem_map_of_mem (f := (·.2)) hp, hb⟩) fun a ha => by
      have : isNaN a = true := ha
      nanp)
    nanp

example (a b c : F) (out : List F) (h : dcor [a, b, c] [a, nan, c] 2 = some out) : ∀ j y, 1 ≤ j → j < 1 + 2 → out[j]? = some y → isNaN y = true :=
  dcor_gapShows 2 [(a, a), (b, nan), (c, c)] 1 (b, nan) rfl (.inr NaNLaws.nan_isNaN) out h

end Traquer.Correlation

namespace Traquer.Volatility
open FloatLit
variable {ρ : Rounding} {i w : Nat}

theorem isNaN_ln {x : FP ρ} (h : isNaN x = true) : isNaN (ln x) = true := by
  rw [nan_of_isNaN h]; rfl

/-- Historical volatility from log returns: a NaN price spoils two returns. -/
theorem hv_gapShows (w : Nat) (dev : Option (FP ρ)) : GapShows (w + 1) IsNaN fun l : List (FP ρ) => hv l w dev := gapShows_of fun bars i out h ho => by
  simp only [hv] at ho
  unslice ho
  obtain ⟨hw, ho⟩ := ho
  cases ho
  have g := Gap.map (bad' := IsNaN) (f := fun p : FP ρ × FP ρ => ln (p.2 / p.1)) (h.pairs (Nat.le_refl 1)) fun p hp => isNaN_ln (by
    rcases hp with hp | hp
    · exact NaNLaws.div_right _ _ hp
    · exact NaNLaws.div_left _ _ hp)
  refine Gap.nans ?_
  rw [show 0 + w = 0 + 1 + (w - 1) by omega]
  refine (Gap.map (g.windowsOf w (by omega) hw) fun v hv => ?_).weaken (by omega)
  have := has_fsum (has_map (g := fun x => powi (x - fsum v / flt w) 2) hv.1 fun x hx => by
    have : isNaN x = true := hx
    exact Distribution.powi_gap (by nanp) (Or.inl rfl))
  show isNaN (sqrt _) = true
  nanp

example (a b c x : FP ρ) (out : List (FP ρ)) (h : hv [a, b, nan, c, x] 2 none = some out) : ∀ j y, 2 ≤ j → j < 2 + (2 + 1) → out[j]? = some y → isNaN y = true :=
  hv_gapShows 2 none [a, b, nan, c, x] 2 nan rfl NaNLaws.nan_isNaN out h

theorem cc_hv_gapShows (w : Nat) : GapShows (w + 1) IsNaN fun l : List (FP ρ) => cc_hv l w := gapShows_of fun bars i out h ho => by
  simp only [cc_hv] at ho
  unslice ho
  obtain ⟨hw, ho⟩ := ho
  cases ho
  have g := Gap.map (bad' := IsNaN) (f := fun p : FP ρ × FP ρ => powi (ln (p.2 / p.1)) 2) (h.pairs (Nat.le_refl 1)) fun p hp =>
    Distribution.powi_gap (isNaN_ln (by
      rcases hp with hp | hp
      · exact NaNLaws.div_right _ _ hp
      · exact NaNLaws.div_left _ _ hp)) (Or.inl rfl)
  refine Gap.nans ?_
  rw [show 0 + w = 0 + 1 + (w - 1) by omega]
  refine (Gap.map (g.windowsOf w (by omega) hw) fun v hv => ?_).weaken (by omega)
  have := has_fsum hv.1
  show isNaN (sqrt _) = true
  nanp

example (a b c x : FP ρ) (out : List (FP ρ)) (h : cc_hv [a, b, nan, c, x] 2 = some out) : ∀ j y, 2 ≤ j → j < 2 + (2 + 1) → out[j]? = some y → isNaN y = true :=
  cc_hv_gapShows 2 [a, b, nan, c, x] 2 nan rfl NaNLaws.nan_isNaN out h

end Traquer.Volatility
