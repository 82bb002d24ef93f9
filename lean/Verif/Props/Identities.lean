import Verif.Props.Dispersion
import Verif.Props.Quantile
import Verif.Props.SmoothMean
import Verif.Props.SmoothWeights
import Verif.Props.Superpose
import Verif.Props.Oscillators
import Verif.Props.Oscillators2
import Verif.Props.Stochastic
import Verif.Props.ForecastErrors
import Verif.Props.Accumulate
import Verif.Props.VolumeFormulas
import Verif.Props.Vwap
import Verif.Props.Bands
import Verif.Props.Beta
import Verif.Props.Pearson
import Verif.Props.TrendFormulas
import Verif.Props.PlainFormulas
import Verif.Props.MomentumFormulas
/-!
# The functions agree with each other (C97)

Equations and inequalities between the outputs of different functions called on the same data, in exact arithmetic.
-/

namespace Traquer
open FP

/-- The call does not panic and its value at bar `i` is the finite number `v`. -/
def Shows {ρ : Rounding} (i : ℕ) (r : Option (List (FP ρ))) (v : ℝ) : Prop := ∃ out y, r = some out ∧ out[i]? = some y ∧ y ⇓ v

variable {ρ : Rounding}

theorem Shows.unique {i : ℕ} {r : Option (List (FP ρ))} {u v : ℝ} (h : Shows i r u) (h' : Shows i r v) : u = v := by
  obtain ⟨o, y, e, hy, hu⟩ := h
  obtain ⟨o', y', e', hy', hv⟩ := h'
  obtain rfl := Option.some.inj (e.symm.trans e')
  obtain rfl := Option.some.inj (hy.symm.trans hy')
  exact hu.2.symm.trans hv.2

theorem Shows.congr {i : ℕ} {r : Option (List (FP ρ))} {u v : ℝ} (h : Shows i r u) (e : u = v) : Shows i r v := e ▸ h

theorem Reports.shows {n k : ℕ} {v : ℕ → ℝ} {r : Option (List (FP ρ))} (h : Reports n k v r) {i : ℕ} (h1 : k ≤ i) (h2 : i < n) : Shows i r (v i) := by
  obtain ⟨o, e, -, -, ho⟩ := h
  obtain ⟨y, hy, hv⟩ := ho i h1 h2
  exact ⟨o, y, e, hy, hv⟩

theorem ReportsP.shows {n k : ℕ} {P : ℕ → FP ρ → Prop} {r : Option (List (FP ρ))} (h : ReportsP n k P r) {i : ℕ} (h1 : k ≤ i) (h2 : i < n) {v : ℝ}
    (hv : ∀ y, P i y → y ⇓ v) : Shows i r v := by
  obtain ⟨o, e, -, -, ho⟩ := h
  obtain ⟨y, hy, hp⟩ := ho i h1 h2
  exact ⟨o, y, e, hy, hv y hp⟩

/-! ## Averages and deviations of a list -/

theorem sq_mean_le {l : List ℝ} : mean l ^ 2 ≤ mean (l.map fun x => x ^ 2) := by
  rcases l.eq_nil_or_concat with rfl | ⟨_, _, e⟩
  · simp [mean]
  have hl : l ≠ [] := by rw [e]; simp
  have hp : (0 : ℝ) < l.length := by exact_mod_cast List.length_pos_iff.2 hl
  have h : 0 ≤ (l.map fun x => (x - mean l) ^ 2).sum := List.sum_nonneg fun x hx => by
    obtain ⟨y, -, rfl⟩ := List.mem_map.1 hx; exact sq_nonneg _
  have key : ∀ (m : ℝ) (l : List ℝ), (l.map fun x => (x - m) ^ 2).sum = (l.map fun x => x ^ 2).sum - 2 * m * l.sum + l.length * m ^ 2 := by
    intro m l
    induction l with
    | nil => simp
    | cons a l ih => simp only [List.map_cons, List.sum_cons, ih, List.length_cons]; push_cast; ring
  rw [key] at h
  have e1 : l.sum = mean l * l.length := by rw [mean]; field_simp
  rw [e1] at h
  rw [mean, mean, List.length_map, le_div_iff₀ hp]
  rw [mean] at h
  nlinarith [h]

/-- The mean absolute deviation is at most the standard deviation. -/
theorem meanAbsDev_le_stdDev (l : List ℝ) : meanAbsDev l ≤ stdDev l := by
  refine Real.le_sqrt_of_sq_le ?_
  refine sq_mean_le.trans (le_of_eq ?_)
  rw [moment, List.map_map]
  congr 1
  refine List.map_congr_left fun x _ => ?_
  simp [sq_abs]

theorem moment_two_le {l : List ℝ} {m M : ℝ} (h : Within m M l) : moment 2 l ≤ ((M - m) / 2) ^ 2 := by
  rcases l.eq_nil_or_concat with rfl | ⟨_, _, e⟩
  · simp [moment, mean]; positivity
  have hl : l ≠ [] := by rw [e]; simp
  have hp : (0 : ℝ) < l.length := by exact_mod_cast List.length_pos_iff.2 hl
  have key : ∀ (c : ℝ) (l : List ℝ), Within m M l → (l.map fun x => (x - c) ^ 2).sum ≤
      l.length * ((M - m) / 2) ^ 2 + ((M + m) - 2 * c) * l.sum - l.length * (((M + m) / 2) ^ 2 - c ^ 2) := by
    intro c l
    induction l with
    | nil => simp
    | cons a l ih =>
      intro h
      have := ih fun x hx => h x (List.mem_cons_of_mem _ hx)
      obtain ⟨h1, h2⟩ := h a List.mem_cons_self
      have h3 : 0 ≤ (a - m) * (M - a) := mul_nonneg (by linarith) (by linarith)
      simp only [List.map_cons, List.sum_cons, List.length_cons]; push_cast
      nlinarith [this, h3]
  have := key (mean l) l h
  have e1 : l.sum = mean l * l.length := by rw [mean]; field_simp
  rw [e1] at this
  rw [moment, mean, List.length_map, div_le_iff₀ hp]
  nlinarith [this, mul_nonneg hp.le (sq_nonneg ((M + m) / 2 - mean l))]

/-- The standard deviation is at most half the range. -/
theorem stdDev_le_half_range {l : List ℝ} {m M : ℝ} (h : Within m M l) (hm : m ≤ M) : stdDev l ≤ (M - m) / 2 :=
  Real.sqrt_le_iff.2 ⟨by linarith, moment_two_le h⟩

/-- The middle of a list: the mean of its two middle order statistics. -/
noncomputable def middleOf (l : List ℝ) : ℝ := (orderStat l ((l.length - 1) / 2) + orderStat l (l.length / 2)) / 2

theorem sum_orderStat (f : ℝ → ℝ) (l : List ℝ) : (l.map f).sum = ∑ j ∈ Finset.range l.length, f (orderStat l j) := by
  have hp := List.perm_insertionSort (· ≤ ·) l
  have hl := List.length_insertionSort (r := (· ≤ ·)) l
  rw [← (hp.map f).sum_eq, ← Fin.sum_univ_getElem, ← hl, Finset.sum_range]
  refine Fintype.sum_equiv (finCongr (by simp)) _ _ fun j => ?_
  have hj : j.1 < (l.insertionSort (· ≤ ·)).length := by simpa using j.2
  simp [orderStat, List.getElem?_eq_getElem hj]

/-- The middle of a list lies within one mean absolute deviation of its mean. -/
theorem middle_near_mean {l : List ℝ} (hl : l ≠ []) : |middleOf l - mean l| ≤ meanAbsDev l := by
  have hn := List.length_pos_iff.2 hl
  have hp : (0 : ℝ) < l.length := by exact_mod_cast hn
  set n := l.length with hn'
  set c := middleOf l with hc
  set m := mean l with hm
  have hab : orderStat l ((n - 1) / 2) ≤ orderStat l (n / 2) := orderStat_mono (by omega) (by omega)
  have ha : orderStat l ((n - 1) / 2) ≤ c := by rw [hc, middleOf]; linarith
  have hb : c ≤ orderStat l (n / 2) := by rw [hc, middleOf]; linarith
  have side : ∀ j, j < n → |orderStat l j - c| + |orderStat l (n - 1 - j) - c| ≤ |orderStat l j - m| + |orderStat l (n - 1 - j) - m| := by
    intro j hj
    have tri : ∀ x y : ℝ, x ≤ c → c ≤ y → |x - c| + |y - c| ≤ |x - m| + |y - m| := by
      intro x y hx hy
      rw [abs_of_nonpos (by linarith : x - c ≤ 0), abs_of_nonneg (by linarith : 0 ≤ y - c)]
      linarith [neg_le_abs (x - m), le_abs_self (y - m)]
    rcases Nat.lt_or_ge (n - 1) (2 * j) with h | h
    · have h1 : c ≤ orderStat l j := hb.trans (orderStat_mono (by omega) hj)
      have h2 : orderStat l (n - 1 - j) ≤ c := (orderStat_mono (by omega) (by omega)).trans ha
      linarith [tri _ _ h2 h1]
    · have h1 : orderStat l j ≤ c := (orderStat_mono (by omega) (by omega)).trans ha
      have h2 : c ≤ orderStat l (n - 1 - j) := hb.trans (orderStat_mono (by omega) (by omega))
      exact tri _ _ h1 h2
  have refl : ∀ g : ℝ → ℝ, ∑ j ∈ Finset.range n, (g (orderStat l j) + g (orderStat l (n - 1 - j))) = 2 * (l.map g).sum := by
    intro g
    rw [Finset.sum_add_distrib, Finset.sum_range_reflect (fun j => g (orderStat l j)), ← sum_orderStat]
    ring
  have le := Finset.sum_le_sum (s := Finset.range n) fun j hj => side j (Finset.mem_range.1 hj)
  rw [refl fun x => |x - c|, refl fun x => |x - m|] at le
  have e1 : c - m = -((l.map fun x => x - c).sum / n) := by
    have : ∀ l : List ℝ, (l.map fun x => x - c).sum = l.sum - l.length * c := by
      intro l
      induction l with
      | nil => simp
      | cons a l ih => simp only [List.map_cons, List.sum_cons, ih, List.length_cons]; push_cast; ring
    rw [this, hm, mean, ← hn']
    field_simp
    ring
  have ab : |(l.map fun x => x - c).sum| ≤ (l.map fun x => |x - c|).sum := by
    clear_value c
    clear * - c
    induction l with
    | nil => simp
    | cons a l ih => simp only [List.map_cons, List.sum_cons]; exact (abs_add_le _ _).trans (by gcongr)
  rw [e1, abs_neg, abs_div, abs_of_pos hp, meanAbsDev, mean, List.length_map, ← hn']
  gcongr
  linarith

theorem sum_over_range (f : ℕ → ℝ) (n : ℕ) : ((List.range n).map f).sum = ∑ j ∈ Finset.range n, f j := by
  induction n with
  | zero => simp
  | succ n ih => rw [List.range_succ, List.map_append, List.sum_append, ih, Finset.sum_range_succ]; simp

theorem lastOf_sum_Ico (v : ℕ → ℝ) {w i : ℕ} (h : w ≤ i + 1) : (lastOf v w i).sum = ∑ j ∈ Finset.Ico (i + 1 - w) (i + 1), v j := by
  rw [lastOf, Finset.sum_Ico_eq_sum_range, Nat.sub_sub_self h, sum_over_range]

end Traquer

namespace Traquer.Distribution
open FP FloatLit
variable (data : List XF) {w i : ℕ}
section
variable (hw : 1 ≤ w) (h1 : w ≤ i + 1) (h2 : i < data.length) (hd : Fins data)
include hw h1 h2 hd

/-- C97: the square of `std_dev` is `variance`. -/
theorem std_dev_sq : ∃ s v, Shows i (std_dev data w) s ∧ Shows i (variance data w) v ∧ 0 ≤ s ∧ s ^ 2 = v :=
  ⟨_, _, (std_dev_reports data w hw (by omega) hd).shows (by omega) h2, (variance_reports data w hw (by omega) hd).shows (by omega) h2,
    Real.sqrt_nonneg _, Real.sq_sqrt (moment_two_nonneg _)⟩

/-- C97: `mad` is at most `std_dev`. -/
theorem mad_le_std_dev : ∃ m s, Shows i (mad data w) m ∧ Shows i (std_dev data w) s ∧ 0 ≤ m ∧ m ≤ s :=
  ⟨_, _, (mad_reports data w hw (by omega) hd).shows (by omega) h2, (std_dev_reports data w hw (by omega) hd).shows (by omega) h2,
    meanAbsDev_nonneg _, meanAbsDev_le_stdDev _⟩

/-- C97: `median` lies within one `mad`, hence within one `std_dev`, of `sma`. -/
theorem median_near_sma (h53 : w ≤ 2 ^ 53) : ∃ m a d, Shows i (median data w) m ∧ Shows i (Smooth.sma data w) a ∧ Shows i (mad data w) d ∧
    |m - a| ≤ d := by
  refine ⟨_, _, _, (median_reports data w hw h53 (by omega) hd).shows (by omega) h2, (Smooth.sma_reports data w hw (by omega) hd).shows (by omega) h2,
    (mad_reports data w hw (by omega) hd).shows (by omega) h2, ?_⟩
  have hl : (recent (vals data) w i).length = w := recent_length h1 (by simpa [vals] using h2)
  have := middle_near_mean (l := recent (vals data) w i) (by intro e; rw [e] at hl; simp at hl; omega)
  rwa [middleOf, hl] at this

/-- C97: where the window is not flat, `zscore` times `std_dev` is the distance of the newest value from `sma`. -/
theorem zscore_mul_std_dev (hf : ¬ Flat (recent (vals data) w i)) : ∃ z s a, Shows i (zscore data w) z ∧ Shows i (std_dev data w) s ∧
    Shows i (Smooth.sma data w) a ∧ z * s = bar (vals data) i - a := by
  have hx : (vals data)[i]? = some (bar (vals data) i) := by
    rw [bar, List.getD_eq_getElem?_getD, List.getElem?_eq_getElem (by simpa [vals] using h2)]; rfl
  refine ⟨_, _, _, (zscore_reports data w hw (by omega) hd).shows (by omega) h2 fun y hy => hy.1 hf _ hx,
    (std_dev_reports data w hw (by omega) hd).shows (by omega) h2, (Smooth.sma_reports data w hw (by omega) hd).shows (by omega) h2, ?_⟩
  exact div_mul_cancel₀ _ (mt stdDev_eq_zero.1 hf)

/-- C97: where `sma` is not zero, `cv` times `sma` is `std_dev`. -/
theorem cv_mul_sma : ∃ a s, Shows i (Smooth.sma data w) a ∧ Shows i (std_dev data w) s ∧ (a ≠ 0 → ∃ c, Shows i (cv data w) c ∧ c * a = s) := by
  refine ⟨_, _, (Smooth.sma_reports data w hw (by omega) hd).shows (by omega) h2, (std_dev_reports data w hw (by omega) hd).shows (by omega) h2,
    fun h0 => ⟨_, (cv_reports data w hw (by omega) hd).shows (by omega) h2 fun y hy => hy h0, div_mul_cancel₀ _ h0⟩⟩

end

end Traquer.Distribution

namespace Traquer.Regression
open FP FloatLit

/-- C97: `rmse` squared is `mse`, and `mae` is at most `rmse`. -/
theorem forecast_errors_agree (data estimate : List XF) {i : ℕ} (hl : estimate.length = data.length) (hd : Fins data) (he : Fins estimate)
    (hi : i < data.length) : ∃ a r q, Shows i (some (mae data estimate)) a ∧ Shows i (some (rmse data estimate)) r ∧
      Shows i (some (mse data estimate)) q ∧ r ^ 2 = q ∧ 0 ≤ a ∧ a ≤ r := by
  have e : errors (fun o e => (o - e) ^ 2) (vals data) (vals estimate) i = (errors (fun o e => |o - e|) (vals data) (vals estimate) i).map fun x => x ^ 2 := by
    simp [errors, Function.comp_def]
  refine ⟨_, _, _, (mae_reports data estimate hl hd he).shows (by omega) hi, (rmse_reports data estimate hl hd he).shows (by omega) hi, (mse_reports data estimate hl hd he).shows (by omega) hi,
    Real.sq_sqrt ?_, ?_, Real.le_sqrt_of_sq_le (e ▸ sq_mean_le)⟩
  · exact mean_nonneg (by rw [e]; intro x hx; obtain ⟨y, -, rfl⟩ := List.mem_map.1 hx; exact sq_nonneg _)
  · exact mean_nonneg (by intro x hx; obtain ⟨y, -, rfl⟩ := List.mem_map.1 hx; exact abs_nonneg _)

end Traquer.Regression

namespace Traquer.Smooth
open FP FloatLit
variable (data : List XF) {w i : ℕ}

theorem sum_range' (w : ℕ) : ((List.range' 1 w).map fun k : ℕ => (k : ℝ)).sum = w * (w + 1) / 2 := by
  induction w with
  | zero => simp
  | succ w ih => rw [List.range'_1_concat, List.map_append, List.sum_append, ih]; simp; ring

theorem wma_xySum {ys : List ℝ} : weightedMean ((List.range' 1 ys.length).map fun k : ℕ => (k : ℝ)) ys = xySum ys / (ys.length * (ys.length + 1) / 2) := by
  rw [weightedMean, sum_range', xySum]
  congr 2
  rw [List.zip_map_left, List.map_map]
  rfl

theorem line_end_eq {ys : List ℝ} (hw : 2 ≤ ys.length) : slope ys * ys.length + intercept ys =
    3 * weightedMean ((List.range' 1 ys.length).map fun k : ℕ => (k : ℝ)) ys - 2 * mean ys := by
  rw [wma_xySum, mean, slope, intercept, ySum]
  have h2 : (2 : ℝ) ≤ ys.length := by exact_mod_cast hw
  generalize (ys.length : ℝ) = n at h2 ⊢
  generalize xySum ys = T
  generalize ys.sum = S
  have h0 : n ≠ 0 := by linarith
  have h1 : n + 1 ≠ 0 := by linarith
  have h3 : n - 1 ≠ 0 := by linarith
  have e : n * (n * (n + 1) / 2 * (2 * n + 1) / 3) - n * (n + 1) / 2 * (n * (n + 1) / 2) = n ^ 2 * (n + 1) * (n - 1) / 12 := by ring
  simp only [e]
  field_simp
  ring

/-- C97: the end of the regression line is three times the weighted average less twice the simple one. -/
theorem lrf_eq_wma_sma (hw : 2 ≤ w) (h1 : w ≤ i + 1) (h2 : i < data.length) (hd : Fins data) :
    ∃ r a b, Shows i (lrf data w) r ∧ Shows i (wma data w) a ∧ Shows i (sma data w) b ∧ r = 3 * a - 2 * b := by
  refine ⟨_, _, _, (lrf_values data w hw (by omega) hd).shows (by omega) h2, (wma_reports data w (by omega) (by omega) hd).shows (by omega) h2,
    (sma_reports data w (by omega) (by omega) hd).shows (by omega) h2, ?_⟩
  have hv : i < (vals data).length := by simpa [vals] using h2
  have hl : (recent (vals data) w i).length = w := recent_length h1 hv
  have := line_end_eq (ys := recent (vals data) w i) (by omega)
  rw [lastOf_bar h1 hv]
  rwa [hl] at this

/-- C97: with the same non-zero volume at every bar `vwma` is `sma`. -/
theorem vwma_eq_sma (volume : List XF) {v : ℝ} (hv : volume.length = data.length) (hw : 1 ≤ w) (h1 : w ≤ i + 1) (h2 : i < data.length)
    (hd : Fins data) (hc : ∀ x ∈ volume, x ⇓ v) (h0 : v ≠ 0) :
    ∃ a, Shows i (Volume.vwma data volume w) a ∧ Shows i (sma data w) a := by
  refine ⟨_, ?_, (sma_reports data w (by omega) (by omega) hd).shows (by omega) h2⟩
  refine (Volume.vwma_reports data volume w hv hw (by omega) hd fun x hx => (hc x hx).1).shows (by omega) h2 fun y hy => ?_
  have hl : (recent (vals data) w i).length = w := recent_length h1 (by simpa [vals] using h2)
  have e : recent (vals volume) w i = List.replicate w v := by
    rw [List.eq_replicate_iff]
    refine ⟨recent_length h1 (by simpa [vals, hv] using h2), fun x hx => ?_⟩
    have hx := List.mem_of_mem_drop (List.mem_of_mem_take hx)
    obtain ⟨z, hz, rfl⟩ := List.mem_map.1 hx
    exact (hc z hz).2
  have ez : ∀ (l : List ℝ) (n : ℕ), l.length = n → ((l.zip (List.replicate n v)).map fun p => p.1 * p.2).sum = l.sum * v := by
    intro l
    induction l with
    | nil => intro n h; simp
    | cons a l ih =>
      intro n h
      obtain ⟨n, rfl⟩ : ∃ k, n = k + 1 := ⟨n - 1, by simp at h; omega⟩
      rw [List.replicate_succ, List.zip_cons_cons, List.map_cons, List.sum_cons, ih n (by simpa using h), List.sum_cons]
      ring
  rw [e, ez _ _ hl, List.sum_replicate, nsmul_eq_mul] at hy
  have hw0 : (w : ℝ) ≠ 0 := by positivity
  refine (hy.1 (mul_ne_zero hw0 h0)).congr ?_
  rw [mean, hl]
  field_simp

end Traquer.Smooth

namespace Traquer.Volatility
open FP FloatLit

/-- C97: the standard deviation is at most half of the distance between donchian's bands around the same series. -/
theorem std_dev_le_donchian (data : List XF) {w i : ℕ} (hw : 1 ≤ w) (h1 : w ≤ i + 1) (h2 : i < data.length) (hd : Fins data) :
    ∃ s out u m l U L, Shows i (Distribution.std_dev data w) s ∧ donchian data data w = some out ∧ out[i]? = some (u, m, l) ∧ u ⇓ U ∧ l ⇓ L ∧
      s ≤ (U - L) / 2 := by
  obtain ⟨out, eo, ho, hp⟩ := donchian_attained data data w rfl hw (by omega) hd hd
  obtain ⟨⟨u, m, l⟩, hy⟩ : ∃ y, out[i]? = some y := ⟨_, List.getElem?_eq_getElem (by omega)⟩
  obtain ⟨hu, hl⟩ := hp i _ (by omega) hy
  refine ⟨_, out, u, m, l, _, _, (Distribution.std_dev_reports data w hw (by omega) hd).shows (by omega) h2, eo, hy, hu, hl, ?_⟩
  have hle : (recent (vals data) w i).length = w := recent_length h1 (by simpa [vals] using h2)
  have hne : recent (vals data) w i ≠ [] := by intro e; rw [e] at hle; simp at hle; omega
  have hin : Within (minOf (recent (vals data) w i)) (maxOf (recent (vals data) w i)) (recent (vals data) w i) := fun x hx =>
    ⟨minOf_le hx, le_maxOf hx⟩
  obtain ⟨x, hx⟩ := List.exists_mem_of_ne_nil _ hne
  exact stdDev_le_half_range hin ((hin x hx).1.trans (hin x hx).2)

/-- C97: with the default number of deviations the distance between the Bollinger bands is four times `std_dev`. -/
theorem bbands_width (data : List XF) {w i : ℕ} (hw : 1 ≤ w) (h1 : w ≤ i + 1) (h2 : i < data.length) (hd : Fins data) :
    ∃ s out u m l U L, Shows i (Distribution.std_dev data w) s ∧ bbands data w none none = some out ∧ out[i]? = some (u, m, l) ∧ u ⇓ U ∧ l ⇓ L ∧
      U - L = 4 * s := by
  obtain ⟨out, eo, ho, hp⟩ := bbands_default data w hw (by omega) hd
  obtain ⟨⟨u, m, l⟩, hy⟩ : ∃ y, out[i]? = some y := ⟨_, List.getElem?_eq_getElem (by omega)⟩
  obtain ⟨-, hu, hl⟩ := hp i _ (by omega) hy
  exact ⟨_, out, u, m, l, _, _, (Distribution.std_dev_reports data w hw (by omega) hd).shows (by omega) h2, eo, hy, hu, hl, by ring⟩

/-- C97: the conversion line of `ichimoku` is the middle of the donchian bands of the same window. -/
theorem ichimoku_eq_donchian (high low close : List XF) {cw bw lw gw i : ℕ} (hl : low.length = high.length) (hc : close.length = high.length)
    (h1 : 1 ≤ cw) (h2 : 1 ≤ bw) (h3 : 1 ≤ lw) (n2 : bw ≤ high.length + 1) (n3 : lw ≤ high.length + 1)
    (n4 : gw ≤ high.length) (fh : Fins high) (fl : Fins low) (fc : Fins close) (i1 : cw ≤ i + 1) (i2 : i < high.length) :
    ∃ out t o u m l U L, Trend.ichimoku high low close cw bw lw gw = some out ∧ out[i]? = some t ∧ donchian high low cw = some o ∧
      o[i]? = some (u, m, l) ∧ u ⇓ U ∧ l ⇓ L ∧ t.1 ⇓ (U + L) / 2 := by
  obtain ⟨out, eo, ho, hp⟩ := Trend.ichimoku_reports high low close cw bw lw gw hl hc h1 h2 h3 (by omega) n2 n3 n4 fh fl fc
  obtain ⟨o, ed, hd, hq⟩ := donchian_attained high low cw hl h1 (by omega) fh fl
  obtain ⟨t, ht⟩ : ∃ y, out[i]? = some y := ⟨_, List.getElem?_eq_getElem (by omega)⟩
  obtain ⟨⟨u, m, l⟩, hy⟩ : ∃ y, o[i]? = some y := ⟨_, List.getElem?_eq_getElem (by omega)⟩
  obtain ⟨hu, hl'⟩ := hq i _ (by omega) hy
  exact ⟨out, t, o, u, m, l, _, _, eo, ht, ed, hy, hu, hl', (hp i t (by omega) ht).1.1 ⟨by omega, i2⟩⟩

/-- C97: `typical` of bars whose three prices coincide is `sma`. -/
theorem typical_eq_sma (data : List XF) {w i : ℕ} (hw : 1 ≤ w) (h1 : w ≤ i + 1) (h2 : i < data.length) (hd : Fins data) :
    ∃ a, Shows i (typical data data data w) a ∧ Shows i (Smooth.sma data w) a := by
  refine ⟨_, ?_, (Smooth.sma_reports data w (by omega) (by omega) hd).shows (by omega) h2⟩
  refine ((typical_reports data data data w hw (by omega) rfl rfl hd hd hd).shows (by omega) h2).congr ?_
  rw [← lastOf_bar h1 (by simpa [vals] using h2)]
  congr 2
  funext j
  ring

end Traquer.Volatility

namespace Traquer.Momentum
open FP FloatLit
open Traquer.Smooth (ema1)
variable {w i : ℕ}

/-- C97: `cog` is fixed by the ratio of the weighted to the simple average. -/
theorem cog_eq_wma_sma (data : List XF) (hw : 1 ≤ w) (h1 : w ≤ i + 1) (h2 : i < data.length) (hd : Fins data) :
    ∃ a b, Shows i (Smooth.wma data w) a ∧ Shows i (Smooth.sma data w) b ∧ (b ≠ 0 → Shows i (cog data w) ((w + 1) * (a / (2 * b) - 1))) := by
  refine ⟨_, _, (Smooth.wma_reports data w (by omega) (by omega) hd).shows (by omega) h2,
    (Smooth.sma_reports data w (by omega) (by omega) hd).shows (by omega) h2, fun h0 => ?_⟩
  refine (cog_reports data w hw (by omega) hd).shows (by omega) h2 fun y hy => ?_
  have hv : i < (vals data).length := by simpa [vals] using h2
  have hl : (recent (vals data) w i).length = w := recent_length h1 hv
  have hw0 : (w : ℝ) ≠ 0 := by positivity
  have hs : (recent (vals data) w i).sum ≠ 0 := fun e => h0 (by rw [mean, e, zero_div])
  refine (hy.1 hs).congr ?_
  have ew := Smooth.wma_xySum (ys := recent (vals data) w i)
  rw [hl] at ew
  have key : ((List.range w).map fun j : ℕ => bar (vals data) (i - j) * ((j : ℝ) + 1)).sum =
      (w + 1) * (recent (vals data) w i).sum - Smooth.xySum (recent (vals data) w i) := by
    have e1 : recent (vals data) w i = lastOf (bar (vals data)) w i := (lastOf_bar h1 hv).symm
    have e2 : Smooth.xySum (recent (vals data) w i) = ∑ k ∈ Finset.range w, ((k : ℝ) + 1) * bar (vals data) (i + 1 - w + k) := by
      rw [Smooth.xySum, hl, e1, lastOf, List.range'_eq_map_range, List.zip_map', List.map_map, sum_over_range]
      refine Finset.sum_congr rfl fun k _ => ?_
      simp only [Function.comp_apply]
      push_cast
      ring
    rw [e2, e1, lastOf, sum_over_range, sum_over_range, ← Finset.sum_range_reflect, Finset.mul_sum, ← Finset.sum_sub_distrib]
    refine Finset.sum_congr rfl fun k hk => ?_
    rw [Finset.mem_range] at hk
    rw [show i - (w - 1 - k) = i + 1 - w + k by omega, show w - 1 - k = w - (k + 1) by omega, Nat.cast_sub (by omega)]
    push_cast
    ring
  rw [key, ew, mean, hl]
  generalize Smooth.xySum (recent (vals data) w i) = T at *
  generalize (recent (vals data) w i).sum = S at *
  have : (w : ℝ) + 1 ≠ 0 := by positivity
  field_simp
  ring

/-- C97: `wpr` is the raw %K of `stoch` less 100. -/
theorem wpr_eq_stoch (high low close : List XF) (hw : 1 ≤ w) (h1 : w ≤ i + 1) (h2 : i < high.length)
    (hh : Fins high) (hl : Fins low) (hc : Fins close) (ll : low.length = high.length) (lc : close.length = high.length)
    (hne : ∀ i, w ≤ i + 1 → i < high.length → maxOf (recent (vals high) w i) ≠ minOf (recent (vals low) w i)) :
    ∃ out k d K, stoch high low close w 1 = some out ∧ out[i]? = some (k, d) ∧ k ⇓ K ∧ Shows i (wpr high low close w) (K - 100) := by
  obtain ⟨out, eo, r1, -⟩ := stoch_reports high low close w 1 hw le_rfl (by omega) hh hl hc ll lc hne
  obtain ⟨o, y, eo', hy, hv⟩ := r1.shows (i := i) (by omega) h2
  cases eo'
  rw [List.getElem?_map] at hy
  obtain ⟨⟨k, d⟩, hp, rfl⟩ := Option.map_eq_some_iff.1 hy
  refine ⟨out, k, d, _, eo, hp, hv, ?_⟩
  have hx : (vals close)[i]? = some (bar (vals close) i) := by
    rw [bar, List.getD_eq_getElem?_getD, List.getElem?_eq_getElem (by simpa [vals, lc] using h2)]; rfl
  refine ((wpr_reports high low close w hw (by omega) hh hl hc ll lc).shows (by omega) h2 fun y hy => hy _ hx (hne i h1 h2)).congr ?_
  have h0 := sub_ne_zero.2 (hne i h1 h2)
  simp only [lastOf, List.range_one, List.map_cons, List.map_nil, mean, List.sum_cons, List.sum_nil, List.length_singleton, rawK, Nat.add_sub_cancel, add_zero, hx, Option.getD_some]
  field_simp
  ring

/-- C97: `apo` and `macd` agree, and `ppo` is `macd` in percent of the long average. -/
theorem ppo_mul_ewma (data : List XF) {short long : ℕ} (hs : 1 ≤ short) (hl : 1 ≤ long) (h1 : max short long ≤ i + 1) (h2 : i < data.length)
    (hd : Fins data) : ∃ m e, Shows i (macd data short long) m ∧ Shows i (apo data short long) m ∧ Shows i (Smooth.ewma data long) e ∧
      (e ≠ 0 → ∃ p, Shows i (ppo data short long) p ∧ p * e = 100 * m) := by
  refine ⟨_, _, (macd_reports data short long hs hl (by omega) hd).shows (by omega) h2, (apo_reports data short long hs hl (by omega) hd).shows (by omega) h2,
    (ewma_values data long hl (by omega) hd).shows (by omega) h2, fun h0 => ⟨_,
      (ppo_reports data short long hs hl (by omega) hd).shows (by omega) h2 fun y hy => hy.1 h0, div_mul_cancel₀ _ h0⟩⟩

/-- C97: the two lines of `elder_ray` differ by the range of the bar. -/
theorem elder_ray_gap (high low close : List XF) (hl : low.length = high.length) (hc : close.length = high.length)
    (hw : 1 ≤ w) (h1 : w ≤ i + 1) (h2 : i < high.length) (hf : Fins high) (hg : Fins low) (hd : Fins close) :
    ∃ out u d U D, elder_ray high low close w = some out ∧ out[i]? = some (u, d) ∧ u ⇓ U ∧ d ⇓ D ∧ U - D = bar (vals high) i - bar (vals low) i := by
  obtain ⟨out, eo, ho, hp⟩ := elder_ray_items high low close w hl hc hw (by omega) hf hg hd
  obtain ⟨⟨u, d⟩, hy⟩ : ∃ y, out[i]? = some y := ⟨_, List.getElem?_eq_getElem (by omega)⟩
  obtain ⟨hu, hd'⟩ := hp i _ (by omega) hy
  exact ⟨out, u, d, _, _, eo, hy, hu, hd', by ring⟩

/-- C97: `qstick` is the exponential average of the close less that of the open. -/
theorem qstick_eq_ewma (openp close : List XF) (hc : close.length = openp.length) (hw : 1 ≤ w) (h1 : w ≤ i + 1) (h2 : i < openp.length)
    (ho : Fins openp) (hd : Fins close) : ∃ q c o, Shows i (qstick openp close w) q ∧ Shows i (Smooth.ewma close w) c ∧ Shows i (Smooth.ewma openp w) o ∧
      q = c - o := by
  refine ⟨_, _, _, (qstick_reports openp close w hc hw (by omega) ho hd).shows (by omega) h2, (ewma_values close w hw (by omega) hd).shows (by omega) (by omega),
    (ewma_values openp w hw (by omega) ho).shows (by omega) h2, ?_⟩
  have := Lin.ewma 0 w 1 (-1) (bar (vals close)) (bar (vals openp)) i
  simpa only [one_mul, neg_one_mul, ← sub_eq_add_neg] using this

/-- C97: on bars whose three prices coincide, `cci` times 0.015 times `mad` is the distance of the price from `sma`. -/
theorem cci_mul_mad (data : List XF) (hw : 1 ≤ w) (h1 : w ≤ i + 1) (h2 : i < data.length) (hd : Fins data) :
    ∃ m a, Shows i (Distribution.mad data w) m ∧ Shows i (Smooth.sma data w) a ∧
      (m ≠ 0 → ∃ c, Shows i (cci data data data w) c ∧ c * (0.015 * m) = bar (vals data) i - a) := by
  refine ⟨_, _, (Distribution.mad_reports data w hw (by omega) hd).shows (by omega) h2, (Smooth.sma_reports data w (by omega) (by omega) hd).shows (by omega) h2,
    fun h0 => ?_⟩
  have et : typicalAt (vals data) (vals data) (vals data) = bar (vals data) := by funext j; rw [typicalAt]; ring
  have h0' : (0.015 : ℝ) * meanAbsDev (recent (vals data) w i) ≠ 0 := mul_ne_zero (by norm_num) h0
  refine ⟨_, (cci_reports data data data w rfl rfl hw (by omega) hd hd hd).shows (by omega) h2 fun y hy => ?_, div_mul_cancel₀ _ h0'⟩
  simp only [et, lastOf_bar h1 (show i < (vals data).length by simpa [vals] using h2)] at hy
  exact hy.1 h0'

end Traquer.Momentum

namespace Traquer.Volume
open FP FloatLit
variable {w i : ℕ}

/-- C97: `ad` grows over `w` bars by `cmf` times the volume of these bars. -/
theorem ad_change_eq_cmf (high low close volume : List XF) (hl : low.length = high.length) (hc : close.length = high.length)
    (hv : volume.length = high.length) (hw : 1 ≤ w) (h1 : w ≤ i) (h2 : i < high.length) (fh : Fins high) (fl : Fins low) (fc : Fins close)
    (fv : Fins volume) (hr : ∀ j, j < high.length → bar (vals high) j ≠ bar (vals low) j) (h0 : (recent (vals volume) w i).sum ≠ 0) :
    ∃ a b c, Shows i (ad high low close volume none) a ∧ Shows (i - w) (ad high low close volume none) b ∧ Shows i (cmf high low close volume w) c ∧
      a - b = c * (recent (vals volume) w i).sum := by
  have hr' : ∀ (j : ℕ) (h l : XF), high[j]? = some h → low[j]? = some l → h.val ≠ l.val := fun j h l e1 e2 => by
    have := hr j (List.getElem?_eq_some_iff.1 e1).1
    rwa [bar_vals e1, bar_vals e2] at this
  have A := ad_accumulates high low close volume hl hc hv (by omega) fh fl fc fv hr'
  rw [← lastOf_bar (by omega) (by simpa [vals, hv] using h2)] at h0 ⊢
  refine ⟨_, _, _, Reports.shows A (by omega) h2, Reports.shows A (by omega) (by omega),
    (cmf_reports high low close volume w hl hc hv hw (by omega) fh fl fc fv hr).shows (by omega) h2 fun y hy => hy.1 h0, ?_⟩
  rw [div_mul_cancel₀ _ h0, lastOf_sum_Ico _ (by omega), ← Finset.sum_Ico_consecutive _ (Nat.zero_le (i - w + 1)) (by omega : i - w + 1 ≤ i + 1),
    add_sub_cancel_left, show i + 1 - w = i - w + 1 by omega]

/-- C97: with unit volumes the growth of `obv` over `w` bars tells the share of advances reported by `psych`. -/
theorem obv_change_eq_psych (close volume : List XF) (hv : volume.length = close.length) (hw : 1 ≤ w) (h1 : w < i) (h2 : i < close.length)
    (hc : Fins close) (hz : ∀ x ∈ close, x ≠ negz) (h1v : ∀ x ∈ volume, x ⇓ 1) :
    ∃ a b p, Shows i (obv close volume) a ∧ Shows (i - w) (obv close volume) b ∧ Shows i (Momentum.psych close w) p ∧ a - b = w * (p / 50 - 1) := by
  have A := obv_accumulates close volume hv (by omega) hc (fun x hx => (h1v x hx).1) hz
  refine ⟨_, _, _, Reports.shows A (by omega) h2, Reports.shows A (by omega) (by omega),
    (Momentum.psych_reports close w hw (by omega) hc hz).shows (by omega) h2, ?_⟩
  have hb : ∀ j, j < volume.length → bar (vals volume) j = 1 := fun j hj => by
    rw [bar_vals (List.getElem?_eq_getElem hj)]; exact (h1v _ (List.getElem_mem hj)).2
  have e : ∀ j ∈ Finset.Ico (i - w + 1) (i + 1), obvTerm (vals close) (vals volume) j =
      2 * (if bar (vals close) j < bar (vals close) (j - 1) then 0 else 1) - 1 := by
    intro j hj
    rw [Finset.mem_Ico] at hj
    rw [obvTerm, hb j (by omega)]
    split <;> norm_num
  rw [← Finset.sum_Ico_consecutive _ (by omega : 1 ≤ i - w + 1) (by omega : i - w + 1 ≤ i + 1), add_sub_cancel_left, Finset.sum_congr rfl e,
    Finset.sum_sub_distrib, ← Finset.mul_sum, mean, lastOf_sum_Ico _ (by omega), show i + 1 - w = i - w + 1 by omega]
  have hw0 : (w : ℝ) ≠ 0 := by positivity
  have el : (i + 1 - (i - w + 1) : ℕ) = w := by omega
  simp only [lastOf, List.length_map, List.length_range, Finset.sum_const, Nat.card_Ico, el, nsmul_eq_mul]
  field_simp
  ring

end Traquer.Volume

namespace Traquer.Correlation
open FP FloatLit

/-- C97: `rsq` is the square of `pcc`, so it lies between 0 and 1. -/
theorem rsq_eq_pcc_sq (s1 s2 : List XF) {w i : ℕ} (h : s2.length = s1.length) (hw : 1 ≤ w) (i1 : w ≤ i + 1) (i2 : i < s1.length) (h1 : Fins s1)
    (h2 : Fins s2) (f1 : ¬ Flat (recent (vals s1) w i)) (f2 : ¬ Flat (recent (vals s2) w i)) :
    ∃ r q, Shows i (pcc s1 s2 w) r ∧ Shows i (rsq s1 s2 w) q ∧ q = r ^ 2 :=
  ⟨_, _, (pcc_reports s1 s2 w h hw (by omega) h1 h2).shows (by omega) i2 fun y hy => hy.1 f1 f2,
    (rsq_reports s1 s2 w h hw (by omega) h1 h2).shows (by omega) i2 fun y hy => hy.1 f1 f2, rfl⟩

end Traquer.Correlation

/-! ## The hypotheses can be met -/

namespace Traquer
open FP FloatLit

private noncomputable def sample : List XF := [fin 4, fin 5, fin 2, fin 7, fin 3, fin 3]
private noncomputable def below : List XF := [fin 3, fin 4, fin 1, fin 5, fin 2, fin 1]
private noncomputable def ones : List XF := [fin 1, fin 1, fin 1, fin 1, fin 1, fin 1]

private theorem fins_sample : Fins sample := by intro x hx; fin_cases hx <;> simp [FP.Finite]
private theorem fins_below : Fins below := by intro x hx; fin_cases hx <;> simp [FP.Finite]
private theorem ones_one : ∀ x ∈ ones, x ⇓ 1 := by intro x hx; fin_cases hx <;> exact ⟨by simp [FP.Finite], by simp [FP.val]⟩

example : ∃ m a d, Shows 5 (Distribution.median sample 3) m ∧ Shows 5 (Smooth.sma sample 3) a ∧ Shows 5 (Distribution.mad sample 3) d ∧ |m - a| ≤ d :=
  Distribution.median_near_sma sample (by norm_num) (by norm_num) (by simp [sample]) fins_sample (by norm_num)

example : ∃ r a b, Shows 4 (Smooth.lrf sample 4) r ∧ Shows 4 (Smooth.wma sample 4) a ∧ Shows 4 (Smooth.sma sample 4) b ∧ r = 3 * a - 2 * b :=
  Smooth.lrf_eq_wma_sma sample (by norm_num) (by norm_num) (by simp [sample]) fins_sample

example : ∃ a, Shows 4 (Volume.vwma sample ones 3) a ∧ Shows 4 (Smooth.sma sample 3) a :=
  Smooth.vwma_eq_sma sample ones (by simp [sample, ones]) (by norm_num) (by norm_num) (by simp [sample]) fins_sample ones_one one_ne_zero

example : ∃ a b p, Shows 4 (Volume.obv sample ones) a ∧ Shows (4 - 3) (Volume.obv sample ones) b ∧ Shows 4 (Momentum.psych sample 3) p ∧
    a - b = (3 : ℕ) * (p / 50 - 1) :=
  Volume.obv_change_eq_psych (w := 3) (i := 4) sample ones (by simp [sample, ones]) (by norm_num) (by norm_num) (by simp [sample]) fins_sample
    (by intro x hx; fin_cases hx <;> simp) ones_one

example : ∃ a b c, Shows 4 (Volume.ad sample below below ones none) a ∧ Shows (4 - 2) (Volume.ad sample below below ones none) b ∧
    Shows 4 (Volume.cmf sample below below ones 2) c ∧ a - b = c * (recent (vals ones) 2 4).sum :=
  Volume.ad_change_eq_cmf sample below below ones (by simp [sample, below]) (by simp [sample, below]) (by simp [sample, ones]) (by norm_num) (by norm_num)
    (by simp [sample]) fins_sample fins_below fins_below (fun x hx => (ones_one x hx).1)
    (by
      intro j hj
      simp only [sample, List.length_cons, List.length_nil] at hj
      interval_cases j <;> simp [sample, below, vals, bar, FP.val])
    (by simp [ones, vals, recent, FP.val])

example : ∃ m e, Shows 4 (Momentum.macd sample 2 3) m ∧ Shows 4 (Momentum.apo sample 2 3) m ∧ Shows 4 (Smooth.ewma sample 3) e ∧
    (e ≠ 0 → ∃ p, Shows 4 (Momentum.ppo sample 2 3) p ∧ p * e = 100 * m) :=
  Momentum.ppo_mul_ewma sample (by norm_num) (by norm_num) (by norm_num) (by simp [sample]) fins_sample

private theorem sample_moves : ¬ Flat (recent (vals sample) 3 4) := by
  intro h
  have := h 2 (by simp [recent, sample, vals, FP.val]) 7 (by simp [recent, sample, vals, FP.val])
  norm_num at this

example : ∃ z s a, Shows 4 (Distribution.zscore sample 3) z ∧ Shows 4 (Distribution.std_dev sample 3) s ∧ Shows 4 (Smooth.sma sample 3) a ∧
    z * s = bar (vals sample) 4 - a :=
  Distribution.zscore_mul_std_dev sample (by norm_num) (by norm_num) (by simp [sample]) fins_sample sample_moves

private theorem below_moves : ¬ Flat (recent (vals below) 3 4) := by
  intro h
  have := h 1 (by simp [recent, below, vals, FP.val]) 5 (by simp [recent, below, vals, FP.val])
  norm_num at this

example : ∃ r q, Shows 4 (Correlation.pcc sample below 3) r ∧ Shows 4 (Correlation.rsq sample below 3) q ∧ q = r ^ 2 :=
  Correlation.rsq_eq_pcc_sq sample below (by simp [sample, below]) (by norm_num) (by norm_num) (by simp [sample]) fins_sample fins_below sample_moves below_moves

end Traquer
