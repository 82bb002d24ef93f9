import Verif.Spec.Forecasts
import Verif.Lemmas.Superpose
import Verif.Props.ForecastErrors
import Mathlib.Algebra.Order.BigOperators.Ring.Finset
/-!
# C132: combining forecasts

A blend of two forecasts has at most the blend of their errors (`mae`, `mse`, `rmse`, `mape`), and for `mse` the gain is known exactly: it is
`s t` times the `mse` of one forecast against the other. `mae` and `rmse` are distances between series.
-/

namespace Traquer.Regression
open FP FloatLit Traquer

/-- The mean error over the bars up to `i`, bar by bar. -/
theorem mean_errors_bar {f : ℝ → ℝ → ℝ} {x y : List XF} (hl : y.length = x.length) {i : ℕ} (hi : i < x.length) :
    mean (errors f (vals x) (vals y) i) = (∑ j ∈ Finset.range (i + 1), f (bar (vals x) j) (bar (vals y) j)) / ((i + 1 : ℕ) : ℝ) := by
  rw [mean_errors _ _ hl hi]
  congr 1
  have key : errors f (vals x) (vals y) i = (List.range (i + 1)).map fun j => f (bar (vals x) j) (bar (vals y) j) := by
    refine List.ext_getElem ?_ fun j h1 h2 => ?_
    · rw [errors_length (by simpa [vals] using hl) (by simpa [vals] using hi)]; simp
    · have hj : j < i + 1 := by simpa using h2
      have g1 : j < (vals x).length := by simp [vals]; omega
      have g2 : j < (vals y).length := by simp [vals]; omega
      simp only [errors, List.getElem_map, List.getElem_take, List.getElem_zip, List.getElem_range, bar, List.getD_eq_getElem?_getD,
        List.getElem?_eq_getElem g1, List.getElem?_eq_getElem g2, Option.getD_some]
  rw [key]
  rfl

/-- Minkowski's inequality for means of squares. -/
theorem rms_add_le (m : ℕ) (a b : ℕ → ℝ) : √((∑ j ∈ Finset.range m, (a j + b j) ^ 2) / m) ≤
    √((∑ j ∈ Finset.range m, a j ^ 2) / m) + √((∑ j ∈ Finset.range m, b j ^ 2) / m) := by
  have hc := Finset.sum_mul_sq_le_sq_mul_sq (Finset.range m) a b
  have e : ∑ j ∈ Finset.range m, (a j + b j) ^ 2 =
      ∑ j ∈ Finset.range m, a j ^ 2 + ∑ j ∈ Finset.range m, b j ^ 2 + 2 * ∑ j ∈ Finset.range m, a j * b j := by
    rw [Finset.mul_sum, ← Finset.sum_add_distrib, ← Finset.sum_add_distrib]
    exact Finset.sum_congr rfl fun j _ => by ring
  have hA : 0 ≤ ∑ j ∈ Finset.range m, a j ^ 2 := Finset.sum_nonneg fun j _ => sq_nonneg _
  have hB : 0 ≤ ∑ j ∈ Finset.range m, b j ^ 2 := Finset.sum_nonneg fun j _ => sq_nonneg _
  rw [e]
  generalize ∑ j ∈ Finset.range m, a j ^ 2 = A at *
  generalize ∑ j ∈ Finset.range m, b j ^ 2 = B at *
  generalize ∑ j ∈ Finset.range m, a j * b j = C at *
  have m0 : (0 : ℝ) ≤ m := Nat.cast_nonneg m
  have hC : C ≤ √A * √B := by
    rw [← Real.sqrt_mul hA]
    exact Real.le_sqrt_of_sq_le hc
  rw [Real.sqrt_div' _ m0, Real.sqrt_div' _ m0, Real.sqrt_div' _ m0, ← add_div]
  refine div_le_div_of_nonneg_right (Real.sqrt_le_iff.2 ⟨by positivity, ?_⟩) (Real.sqrt_nonneg _)
  nlinarith [Real.sq_sqrt hA, Real.sq_sqrt hB]

section blend
variable (data x y : List XF) (s t : ℝ) (hx : x.length = data.length) (hy : y.length = data.length) (hs : 0 ≤ s) (ht : 0 ≤ t) (hst : s + t = 1)
  (fd : Fins data) (fx : Fins x) (fy : Fins y)
include hx hy hs ht hst fd fx fy

theorem blend_helps {f : ℝ → ℝ → ℝ} (hf : ∀ i < data.length, ∀ a b, f (bar (vals data) i) (s * a + t * b) ≤ s * f (bar (vals data) i) a + t * f (bar (vals data) i) b)
    {i : ℕ} (hi : i < data.length) : mean (errors f (vals data) (vals (blend s t x y)) i) ≤
      s * mean (errors f (vals data) (vals x) i) + t * mean (errors f (vals data) (vals y) i) := by
  have lb : (blend s t x y).length = data.length := by rw [blend_length (by omega), hx]
  rw [mean_errors_bar lb hi, mean_errors_bar hx hi, mean_errors_bar hy hi, ← mul_div_assoc, ← mul_div_assoc, ← add_div, Finset.mul_sum, Finset.mul_sum,
    ← Finset.sum_add_distrib]
  refine div_le_div_of_nonneg_right (Finset.sum_le_sum fun j hj => ?_) (by positivity)
  have := Finset.mem_range.1 hj
  rw [blend_bar fx fy (by omega)]
  exact hf j (by omega) _ _

/-- C132: `mae`. -/
theorem mae_blend : BlendHelps data.length s t (some (mae data x)) (some (mae data y)) (some (mae data (blend s t x y))) :=
  ⟨_, _, _, mae_reports data x hx fd fx, mae_reports data y hy fd fy,
    mae_reports data (blend s t x y) (by rw [blend_length (by omega), hx]) fd (blend_fins fx fy), fun i hi =>
    blend_helps data x y s t hx hy hs ht hst fd fx fy (fun j _ a b => by
      rw [show bar (vals data) j - (s * a + t * b) = s * (bar (vals data) j - a) + t * (bar (vals data) j - b) by linear_combination (-bar (vals data) j) * hst]
      refine (abs_add_le _ _).trans (le_of_eq ?_)
      rw [abs_mul, abs_mul, abs_of_nonneg hs, abs_of_nonneg ht]) hi⟩

/-- C132: `mape`, for prices that are not zero. -/
theorem mape_blend (h0 : ∀ o ∈ data, o.val ≠ 0) :
    BlendHelps data.length s t (some (mape data x)) (some (mape data y)) (some (mape data (blend s t x y))) :=
  ⟨_, _, _, mape_reports data x hx fd fx h0, mape_reports data y hy fd fy h0,
    mape_reports data (blend s t x y) (by rw [blend_length (by omega), hx]) fd (blend_fins fx fy) h0, fun i hi => by
    have := blend_helps data x y s t hx hy hs ht hst fd fx fy (f := fun o e => |(o - e) / o|) (fun j _ a b => by
      rw [show (bar (vals data) j - (s * a + t * b)) / bar (vals data) j =
        s * ((bar (vals data) j - a) / bar (vals data) j) + t * ((bar (vals data) j - b) / bar (vals data) j) by
          linear_combination (-bar (vals data) j / bar (vals data) j) * hst]
      refine (abs_add_le _ _).trans (le_of_eq ?_)
      rw [abs_mul, abs_mul, abs_of_nonneg hs, abs_of_nonneg ht]) hi
    linarith⟩

/-- C132: `mse`, with the exact gain: `s t` times the `mse` of one forecast against the other. -/
theorem mse_blend : ∃ a b c d, Reports data.length 0 a (some (mse data x)) ∧ Reports data.length 0 b (some (mse data y)) ∧
    Reports data.length 0 c (some (mse data (blend s t x y))) ∧ Reports data.length 0 d (some (mse x y)) ∧
    ∀ i < data.length, c i = s * a i + t * b i - s * t * d i := by
  have lb : (blend s t x y).length = data.length := by rw [blend_length (by omega), hx]
  have h4 := mse_reports x y (by omega) fx fy
  rw [hx] at h4
  refine ⟨_, _, _, _, mse_reports data x hx fd fx, mse_reports data y hy fd fy, mse_reports data (blend s t x y) lb fd (blend_fins fx fy), h4,
    fun i hi => ?_⟩
  rw [mean_errors_bar lb hi, mean_errors_bar hx hi, mean_errors_bar hy hi, mean_errors_bar (by omega : y.length = x.length) (by omega), ← mul_div_assoc,
    ← mul_div_assoc, ← mul_div_assoc, ← add_div, ← sub_div, Finset.mul_sum, Finset.mul_sum, Finset.mul_sum, ← Finset.sum_add_distrib,
    ← Finset.sum_sub_distrib]
  congr 1
  refine Finset.sum_congr rfl fun j hj => ?_
  have := Finset.mem_range.1 hj
  rw [blend_bar fx fy (by omega)]
  obtain rfl : t = 1 - s := by linarith
  ring

/-- C132: `rmse`. -/
theorem rmse_blend : BlendHelps data.length s t (some (rmse data x)) (some (rmse data y)) (some (rmse data (blend s t x y))) := by
  have lb : (blend s t x y).length = data.length := by rw [blend_length (by omega), hx]
  refine ⟨_, _, _, rmse_reports data x hx fd fx, rmse_reports data y hy fd fy, rmse_reports data (blend s t x y) lb fd (blend_fins fx fy),
    fun i hi => ?_⟩
  rw [mean_errors_bar lb hi, mean_errors_bar hx hi, mean_errors_bar hy hi]
  have key := rms_add_le (i + 1) (fun j => s * (bar (vals data) j - bar (vals x) j)) fun j => t * (bar (vals data) j - bar (vals y) j)
  have pull : ∀ (r : ℝ) (g : ℕ → ℝ), 0 ≤ r → √((∑ j ∈ Finset.range (i + 1), (r * g j) ^ 2) / ((i + 1 : ℕ) : ℝ)) =
      r * √((∑ j ∈ Finset.range (i + 1), g j ^ 2) / ((i + 1 : ℕ) : ℝ)) := fun r g hr => by
    simp only [mul_pow]
    rw [← Finset.mul_sum, mul_div_assoc, Real.sqrt_mul (sq_nonneg r), Real.sqrt_sq hr]
  rw [pull s _ hs, pull t _ ht] at key
  refine le_trans (le_of_eq ?_) key
  congr 2
  refine Finset.sum_congr rfl fun j hj => ?_
  have := Finset.mem_range.1 hj
  rw [blend_bar fx fy (by omega)]
  obtain rfl : t = 1 - s := by linarith
  ring

end blend

section distance
variable (x y z : List XF) (hy : y.length = x.length) (hz : z.length = x.length) (fx : Fins x) (fy : Fins y) (fz : Fins z)
include hy hz fx fy fz

/-- C132: `mae` is a distance. -/
theorem mae_distance : LikeDistance x.length (some (mae x z)) (some (mae z x)) (some (mae x y)) (some (mae y z)) := by
  have h1 := mae_reports x z hz fx fz
  have h2 := mae_reports z x hz.symm fz fx
  have h3 := mae_reports x y hy fx fy
  have h4 := mae_reports y z (by omega) fy fz
  rw [hz] at h2
  rw [hy] at h4
  refine ⟨_, _, _, h1, h2.congr fun i _ hi => ?_, h3, h4, fun i hi => ?_⟩
  · rw [mean_errors_bar hz.symm (by omega), mean_errors_bar hz hi]
    simp only [abs_sub_comm]
  · rw [mean_errors_bar hz hi, mean_errors_bar hy hi, mean_errors_bar (by omega : z.length = y.length) (by omega), ← add_div, ← Finset.sum_add_distrib]
    exact div_le_div_of_nonneg_right (Finset.sum_le_sum fun j _ => abs_sub_le _ _ _) (by positivity)

/-- C132: `rmse` is a distance. -/
theorem rmse_distance : LikeDistance x.length (some (rmse x z)) (some (rmse z x)) (some (rmse x y)) (some (rmse y z)) := by
  have h1 := rmse_reports x z hz fx fz
  have h2 := rmse_reports z x hz.symm fz fx
  have h3 := rmse_reports x y hy fx fy
  have h4 := rmse_reports y z (by omega) fy fz
  rw [hz] at h2
  rw [hy] at h4
  refine ⟨_, _, _, h1, h2.congr fun i _ hi => ?_, h3, h4, fun i hi => ?_⟩
  · rw [mean_errors_bar hz.symm (by omega), mean_errors_bar hz hi]
    congr 2
    exact Finset.sum_congr rfl fun j _ => by ring
  · rw [mean_errors_bar hz hi, mean_errors_bar hy hi, mean_errors_bar (by omega : z.length = y.length) (by omega)]
    refine le_trans (le_of_eq ?_) (rms_add_le (i + 1) (fun j => bar (vals x) j - bar (vals y) j) fun j => bar (vals y) j - bar (vals z) j)
    congr 2
    exact Finset.sum_congr rfl fun j _ => by ring

end distance

example := mae_blend ([1, 5, 2].map fin) ([2, 2, 2].map fin) ([0, 9, 4].map fin) (1 / 4) (3 / 4) rfl rfl (by norm_num) (by norm_num) (by norm_num)
  (fins_map_fin _) (fins_map_fin _) (fins_map_fin _)
example := mape_blend ([1, 5, 2].map fin) ([2, 2, 2].map fin) ([0, 9, 4].map fin) (1 / 4) (3 / 4) rfl rfl (by norm_num) (by norm_num) (by norm_num)
  (fins_map_fin _) (fins_map_fin _) (fins_map_fin _) (by simp [FP.val])
example := mse_blend ([1, 5, 2].map fin) ([2, 2, 2].map fin) ([0, 9, 4].map fin) (1 / 4) (3 / 4) rfl rfl (by norm_num) (by norm_num) (by norm_num)
  (fins_map_fin _) (fins_map_fin _) (fins_map_fin _)
example := rmse_blend ([1, 5, 2].map fin) ([2, 2, 2].map fin) ([0, 9, 4].map fin) (1 / 4) (3 / 4) rfl rfl (by norm_num) (by norm_num) (by norm_num)
  (fins_map_fin _) (fins_map_fin _) (fins_map_fin _)
example := rmse_distance ([1, 5, 2].map fin) ([2, 2, 2].map fin) ([0, 9, 4].map fin) rfl rfl (fins_map_fin _) (fins_map_fin _) (fins_map_fin _)
example := mae_distance ([1, 5, 2].map fin) ([2, 2, 2].map fin) ([0, 9, 4].map fin) rfl rfl (fins_map_fin _) (fins_map_fin _) (fins_map_fin _)

end Traquer.Regression
