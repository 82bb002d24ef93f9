import Verif.Spec.Lag
import Verif.Props.Superpose
import Verif.Props.Oscillators2
import Verif.Lemmas.Witness
import Mathlib.Data.Nat.Fib.Basic
import Mathlib.Data.Nat.Choose.Sum
/-!
# C84: how far each average lags behind a straight line of prices (exact arithmetic)
-/

namespace Traquer
open FP

theorem line_length (c m : ℝ) (n : ℕ) : (line c m n).length = n := by simp [line]

theorem line_fins (c m : ℝ) (n : ℕ) : Fins (line c m n) := fun x hx => by
  obtain ⟨i, -, rfl⟩ := List.mem_map.1 hx
  trivial

theorem line_bar {c m : ℝ} {n i : ℕ} (h : i < n) : bar (vals (line c m n)) i = c + m * i := by
  simp [bar, vals, line, List.getD_eq_getElem?_getD, List.getElem?_map, List.getElem?_range h, FP.val]

/-- The last `w` values of a series that is a line from bar `k` on. -/
theorem lastOf_line {v : ℕ → ℝ} {c m : ℝ} {k w i n : ℕ} (hv : ∀ j, k ≤ j → j < n → v j = c + m * j) (h1 : k + w ≤ i + 1) (h2 : i < n) :
    lastOf v w i = (List.range w).map fun j : ℕ => (c + m * (i + 1 - w)) + m * j :=
  List.map_congr_left fun j hj => by
    have := List.mem_range.1 hj
    rw [hv _ (by omega) (by omega)]
    push_cast [show w ≤ i + 1 by omega]
    ring

theorem sum_range_line (a b : ℝ) (w : ℕ) : ((List.range w).map fun j : ℕ => a + b * j).sum = w * a + b * (w * (w - 1) / 2) := by
  induction w with
  | zero => simp
  | succ w ih => rw [List.range_succ, List.map_append, List.sum_append, ih]; simp; ring

theorem mean_line {v : ℕ → ℝ} {c m : ℝ} {k w i n : ℕ} (hv : ∀ j, k ≤ j → j < n → v j = c + m * j) (hw : 1 ≤ w) (h1 : k + w ≤ i + 1) (h2 : i < n) :
    mean (lastOf v w i) = c + m * (i - (w - 1) / 2) := by
  have w0 : (w : ℝ) ≠ 0 := (Smooth.natCast_pos hw).ne'
  rw [mean, lastOf_line hv h1 h2, sum_range_line]
  simp only [List.length_map, List.length_range]
  field_simp
  ring

/-- The weighted mean of a line, by the centre of the weights. -/
theorem weighted_line {v : ℕ → ℝ} {c m : ℝ} {k w i n : ℕ} (hv : ∀ j, k ≤ j → j < n → v j = c + m * j) (h1 : k + w ≤ i + 1) (h2 : i < n)
    {ws : ℕ → ℝ} {lag : ℝ} (h0 : ((List.range w).map ws).sum ≠ 0)
    (hc : ((List.range w).map fun j => ws j * (w - 1 - j)).sum = lag * ((List.range w).map ws).sum) :
    weightedMean ((List.range w).map ws) (lastOf v w i) = c + m * (i - lag) := by
  rw [weightedMean, lastOf_line hv h1 h2, div_eq_iff h0]
  have e : ∀ l : List ℕ, (((l.map ws).zip (l.map fun j : ℕ => (c + m * (i + 1 - w)) + m * j)).map fun p => p.1 * p.2).sum =
      (c + m * i) * (l.map ws).sum - m * (l.map fun j => ws j * (w - 1 - j)).sum := by
    intro l
    induction l with
    | nil => simp
    | cons a l ih => simp only [List.map_cons, List.zip_cons_cons, List.sum_cons, ih]; ring
  rw [e, hc]
  ring

theorem range'_one_map (w : ℕ) (g : ℕ → ℝ) : (List.range' 1 w).map g = (List.range w).map fun j => g (j + 1) := by
  rw [List.range'_eq_map_range, List.map_map]
  exact List.map_congr_left fun j _ => by simp [add_comm]

theorem wma_line {v : ℕ → ℝ} {c m : ℝ} {k w i n : ℕ} (hv : ∀ j, k ≤ j → j < n → v j = c + m * j) (hw : 1 ≤ w) (h1 : k + w ≤ i + 1) (h2 : i < n) :
    Smooth.wmaOf w (lastOf v w i) = c + m * (i - (w - 1) / 3) := by
  have e1 : ∀ w : ℕ, ((List.range w).map fun j : ℕ => ((j + 1 : ℕ) : ℝ)).sum = w * (w + 1) / 2 := fun w => by
    induction w with
    | zero => simp
    | succ w ih => rw [List.range_succ, List.map_append, List.sum_append, ih]; simp; ring
  have e2 : ∀ (u : ℕ) (a : ℝ), ((List.range u).map fun j : ℕ => ((j + 1 : ℕ) : ℝ) * (a - 1 - j)).sum = u * (u + 1) * (3 * a - 2 * u - 1) / 6 := fun u a => by
    induction u with
    | zero => simp
    | succ u ih => rw [List.range_succ, List.map_append, List.sum_append, ih]; simp; ring
  have hw' := Smooth.natCast_pos hw
  rw [Smooth.wmaOf, range'_one_map]
  refine weighted_line hv h1 h2 ?_ ?_
  · rw [e1]; positivity
  · rw [e1, e2]; ring

theorem ewmaFrom_line {v : ℕ → ℝ} {c m : ℝ} {k w i n : ℕ} (hv : ∀ j, k ≤ j → j < n → v j = c + m * j) (hw : 1 ≤ w) (h1 : k + w ≤ i + 1) (h2 : i < n) :
    ewmaFrom k w v i = c + m * (i - (w - 1) / 2) := by
  have hw' := Smooth.natCast_pos hw
  induction i with
  | zero =>
    have : k + w - 1 = 0 := by omega
    rw [ewmaFrom, this]
    exact mean_line hv hw h1 h2
  | succ i ih =>
    rw [ewmaFrom]
    split
    · rw [show k + w - 1 = i + 1 by omega]
      exact mean_line hv hw h1 h2
    · rw [ih (by omega) (by omega), hv _ (by omega) h2]
      push_cast
      field_simp
      ring

theorem wilderFrom_line {v : ℕ → ℝ} {c m : ℝ} {k w i n : ℕ} (hv : ∀ j, k ≤ j → j < n → v j = c + m * j) (hw : 1 ≤ w) (h1 : k + w ≤ i + 1) (h2 : i < n) :
    wilderFrom k w v i = c + m * (i - (w - 1) * (1 - (1 - 1 / (w : ℝ)) ^ (i + 1 - (k + w)) / 2)) := by
  have hw' := Smooth.natCast_pos hw
  induction i with
  | zero =>
    have : k + w - 1 = 0 := by omega
    rw [wilderFrom, this, show 0 + 1 - (k + w) = 0 by omega]
    rw [mean_line hv hw h1 h2]
    ring
  | succ i ih =>
    rw [wilderFrom]
    split
    · rw [show k + w - 1 = i + 1 by omega, show i + 1 + 1 - (k + w) = 0 by omega]
      rw [mean_line hv hw h1 h2]
      ring
    · rw [ih (by omega) (by omega), hv _ (by omega) h2, show i + 1 + 1 - (k + w) = (i + 1 - (k + w)) + 1 by omega, pow_succ]
      push_cast
      field_simp
      ring

end Traquer

namespace Traquer.Smooth
open FP FloatLit

/-- C84: the moving average lags by half the window. -/
theorem sma_lags {w : ℕ} (hw : 1 ≤ w) : Lags (fun n => w ≤ n + 1) (w - 1) (((w : ℝ) - 1) / 2) fun x => sma x w := fun c m n hn => by
  have := sma_reports (line c m n) w hw (by rw [line_length]; exact hn) (line_fins c m n)
  rw [line_length] at this
  refine this.congr fun i h1 h2 => ?_
  rw [← lastOf_bar (by omega) (by simpa [line_length] using h2)]
  exact mean_line (k := 0) (fun j _ h => line_bar h) hw (by omega) h2

/-- C84: so does the exponential average, from its first value on. -/
theorem ewma_lags {w : ℕ} (hw : 1 ≤ w) : Lags (fun n => w ≤ n) (w - 1) (((w : ℝ) - 1) / 2) fun x => ewma x w := fun c m n hn => by
  have := ewma_values (line c m n) w hw (by rw [line_length]; exact hn) (line_fins c m n)
  rw [line_length] at this
  exact this.congr fun i h1 h2 => ewmaFrom_line (k := 0) (fun j _ h => line_bar h) hw (by omega) h2

/-- C84: Wilder's average starts with a lag of half the window, which grows towards the whole window. -/
theorem wilder_lags {w : ℕ} (hw : 1 ≤ w) (c m : ℝ) (n : ℕ) (hn : w ≤ n) : Reports n (w - 1)
    (fun i => c + m * (i - (w - 1) * (1 - (1 - 1 / (w : ℝ)) ^ (i + 1 - w) / 2))) (wilder (line c m n) w) := by
  have := wilder_values (line c m n) w hw (by rw [line_length]; exact hn) (line_fins c m n)
  rw [line_length] at this
  exact this.congr fun i h1 h2 => by
    have := wilderFrom_line (k := 0) (fun j _ h => line_bar (c := c) (m := m) h) hw (i := i) (by omega) h2
    rwa [Nat.zero_add] at this

/-- C84: the linearly weighted average lags by a third of the window. -/
theorem wma_lags {w : ℕ} (hw : 1 ≤ w) : Lags (fun n => w ≤ n + 1) (w - 1) (((w : ℝ) - 1) / 3) fun x => wma x w := fun c m n hn => by
  have := wma_reports (line c m n) w hw (by rw [line_length]; exact hn) (line_fins c m n)
  rw [line_length] at this
  refine this.congr fun i h1 h2 => ?_
  rw [← lastOf_bar (by omega) (by simpa [line_length] using h2)]
  exact wma_line (k := 0) (fun j _ h => line_bar h) hw (by omega) h2

theorem choose_sums (n : ℕ) : ((List.range (n + 1)).map fun j => ((n.choose j : ℕ) : ℝ)).sum = 2 ^ n ∧
    ((List.range (n + 1)).map fun j : ℕ => ((n.choose j : ℕ) : ℝ) * (n - j)).sum = n / 2 * 2 ^ n := by
  have e : ∀ g : ℕ → ℝ, ((List.range (n + 1)).map g).sum = ∑ j ∈ Finset.range (n + 1), g j := fun g => by
    rw [← List.sum_toFinset _ List.nodup_range]
    exact Finset.sum_congr (by ext; simp) fun _ _ => rfl
  rw [e, e]
  have h1 : ∑ j ∈ Finset.range (n + 1), ((n.choose j : ℕ) : ℝ) = 2 ^ n := by exact_mod_cast Nat.sum_range_choose n
  refine ⟨h1, ?_⟩
  have h2 : ∑ j ∈ Finset.range (n + 1), ((n.choose j : ℕ) : ℝ) * ((n : ℝ) - j) = ∑ j ∈ Finset.range (n + 1), ((n.choose j : ℕ) : ℝ) * (j : ℝ) := by
    rw [← Finset.sum_range_reflect]
    refine Finset.sum_congr rfl fun j hj => ?_
    have hj' := Finset.mem_range.1 hj
    rw [show n + 1 - 1 - j = n - j by omega, Nat.choose_symm (by omega), Nat.cast_sub (by omega)]
    ring
  have h3 : ∑ j ∈ Finset.range (n + 1), ((n.choose j : ℕ) : ℝ) * ((n : ℝ) - j) + ∑ j ∈ Finset.range (n + 1), ((n.choose j : ℕ) : ℝ) * (j : ℝ) = n * 2 ^ n := by
    rw [← Finset.sum_add_distrib, ← h1, Finset.mul_sum]
    exact Finset.sum_congr rfl fun j _ => by ring
  linarith

/-- C84: Pascal's weights are symmetric: the lag is half the window. -/
theorem pwma_lags {w : ℕ} (hw : 1 ≤ w) (hp : w ≤ 63) : Lags (fun n => w ≤ n + 1) (w - 1) (((w : ℝ) - 1) / 2) fun x => pwma x w := fun c m n hn => by
  have := pwma_reports (line c m n) w hw hp (by rw [line_length]; exact hn) (line_fins c m n)
  rw [line_length] at this
  refine this.congr fun i h1 h2 => ?_
  rw [← lastOf_bar (by omega) (by simpa [line_length] using h2), List.map_map]
  obtain ⟨N, rfl⟩ : ∃ N, w = N + 1 := ⟨w - 1, by omega⟩
  obtain ⟨s1, s2⟩ := choose_sums N
  refine weighted_line (k := 0) (fun j _ h => line_bar h) (by omega) h2 ?_ ?_
  · simp only [Function.comp_def, Nat.add_sub_cancel]
    rw [s1]; positivity
  · simp only [Function.comp_def, Nat.add_sub_cancel]
    rw [s1]
    push_cast
    rw [add_sub_cancel_right, s2]

theorem fib_sums (w : ℕ) : ((List.range w).map fun j => ((Nat.fib (j + 1) : ℕ) : ℝ)).sum = Nat.fib (w + 2) - 1 ∧
    ((List.range w).map fun j : ℕ => ((Nat.fib (j + 1) : ℕ) : ℝ) * (w - 1 - j)).sum = Nat.fib (w + 3) - (w + 2) := by
  have h1 : ∀ w, ((List.range w).map fun j => ((Nat.fib (j + 1) : ℕ) : ℝ)).sum = Nat.fib (w + 2) - 1 := fun w => by
    induction w with
    | zero => simp
    | succ w ih =>
      rw [List.range_succ, List.map_append, List.sum_append, ih, show w + 1 + 2 = (w + 1) + 2 by rfl, Nat.fib_add_two (n := w + 1)]
      push_cast
      simp
      ring
  refine ⟨h1 w, ?_⟩
  induction w with
  | zero => norm_num [Nat.fib]
  | succ w ih =>
    have e : ∀ l : List ℕ, (l.map fun j : ℕ => ((Nat.fib (j + 1) : ℕ) : ℝ) * (((w + 1 : ℕ) : ℝ) - 1 - j)).sum =
        (l.map fun j : ℕ => ((Nat.fib (j + 1) : ℕ) : ℝ) * ((w : ℝ) - 1 - j)).sum + (l.map fun j => ((Nat.fib (j + 1) : ℕ) : ℝ)).sum := fun l => by
      induction l with
      | nil => simp
      | cons a l ih => simp only [List.map_cons, List.sum_cons, ih]; push_cast; ring
    rw [e, List.range_succ, List.map_append, List.sum_append, ih, List.map_append, List.sum_append, h1,
      show w + 1 + 3 = (w + 2) + 2 by rfl, Nat.fib_add_two (n := w + 2), show w + 2 + 1 = w + 3 by rfl]
    push_cast
    simp
    ring

/-- C84: the lag of the Fibonacci weights. -/
theorem fwma_lags {w : ℕ} (hw : 2 ≤ w) :
    Lags (fun n => w ≤ n + 1) (w - 1) (((Nat.fib (w + 3) : ℝ) - (w + 2)) / ((Nat.fib (w + 2) : ℝ) - 1)) fun x => fwma x w := fun c m n hn => by
  have := fwma_reports (line c m n) w hw (by rw [line_length]; exact hn) (line_fins c m n)
  rw [line_length] at this
  refine this.congr fun i h1 h2 => ?_
  rw [← lastOf_bar (by omega) (by simpa [line_length] using h2), List.map_map, range'_one_map]
  obtain ⟨s1, s2⟩ := fib_sums w
  have h3 : (Nat.fib (w + 2) : ℝ) - 1 ≠ 0 := by
    have : (3 : ℕ) ≤ Nat.fib (w + 2) := (show (3 : ℕ) ≤ Nat.fib 4 by decide).trans (Nat.fib_mono (by omega))
    have : (3 : ℝ) ≤ Nat.fib (w + 2) := by exact_mod_cast this
    linarith
  refine weighted_line (k := 0) (fun j _ h => line_bar h) (by omega) h2 ?_ ?_
  · simp only [Function.comp_def]
    rw [s1]; exact h3
  · simp only [Function.comp_def]
    rw [s1, s2, div_mul_cancel₀ _ h3]

/-- C84: the triangular average lags by half the window, for odd and for even windows. -/
theorem trima_lags {w : ℕ} (hw : 1 ≤ w) : Lags (fun n => w ≤ n + 1) (w - 1) (((w : ℝ) - 1) / 2) fun x => trima x w := fun c m n hn => by
  have := trima_values (line c m n) w hw (by rw [line_length]; exact hn) (line_fins c m n)
  rw [line_length] at this
  refine this.congr fun i h1 h2 => ?_
  have hv : ∀ j, (w + 1) / 2 - 1 ≤ j → j < n → mean (lastOf (bar (vals (line c m n))) ((w + 1) / 2) j) =
      (c - m * ((((w + 1) / 2 : ℕ) : ℝ) - 1) / 2) + m * j := fun j h3 h4 => by
    rw [mean_line (k := 0) (fun j _ h => line_bar h) (by omega) (by omega) h4]
    ring
  rw [mean_line hv (by omega) (by omega) h2]
  have : (((w + 1) / 2 : ℕ) : ℝ) + ((w / 2 + 1 : ℕ) : ℝ) = w + 1 := by exact_mod_cast (by omega : (w + 1) / 2 + (w / 2 + 1) = w + 1)
  linear_combination (-m / 2) * this

section
variable {c m : ℝ} {n w i : ℕ} (hw : 1 ≤ w)
include hw

theorem ema1_line (h1 : w ≤ i + 1) (h2 : i < n) : ema1 w (bar (vals (line c m n))) i = (c - m * ((w - 1) / 2)) + m * i := by
  rw [ema1, ewmaFrom_line (k := 0) (fun j _ h => line_bar h) hw (by omega) h2]; ring
theorem ema2_line (h1 : 2 * (w - 1) ≤ i) (h2 : i < n) : ema2 w (bar (vals (line c m n))) i = (c - 2 * m * ((w - 1) / 2)) + m * i := by
  rw [ema2, ewmaFrom_line (fun j h3 h => ema1_line hw (by omega) h) hw (by omega) h2]; ring
theorem ema3_line (h1 : 3 * (w - 1) ≤ i) (h2 : i < n) : ema3 w (bar (vals (line c m n))) i = (c - 3 * m * ((w - 1) / 2)) + m * i := by
  rw [ema3, ewmaFrom_line (fun j h3 h => ema2_line hw (by omega) h) hw (by omega) h2]; ring
theorem ema4_line (h1 : 4 * (w - 1) ≤ i) (h2 : i < n) : ema4 w (bar (vals (line c m n))) i = (c - 4 * m * ((w - 1) / 2)) + m * i := by
  rw [ema4, ewmaFrom_line (fun j h3 h => ema3_line hw (by omega) h) hw (by omega) h2]; ring
theorem ema5_line (h1 : 5 * (w - 1) ≤ i) (h2 : i < n) : ema5 w (bar (vals (line c m n))) i = (c - 5 * m * ((w - 1) / 2)) + m * i := by
  rw [ema5, ewmaFrom_line (fun j h3 h => ema4_line hw (by omega) h) hw (by omega) h2]; ring
theorem ema6_line (h1 : 6 * (w - 1) ≤ i) (h2 : i < n) : ema6 w (bar (vals (line c m n))) i = (c - 6 * m * ((w - 1) / 2)) + m * i := by
  rw [ema6, ewmaFrom_line (fun j h3 h => ema5_line hw (by omega) h) hw (by omega) h2]; ring

/-- C84: `dema` does not lag at all. -/
theorem dema_lags : Lags (fun n => 2 * w ≤ n + 1) (2 * (w - 1)) 0 fun x => dema x w := fun c m n hn => by
  have := dema_reports (line c m n) w hw (by rw [line_length]; exact hn) (line_fins c m n)
  rw [line_length] at this
  exact this.congr fun i h1 h2 => by rw [ema1_line hw (by omega) h2, ema2_line hw h1 h2]; ring

/-- C84: nor does `tema`. -/
theorem tema_lags : Lags (fun n => 3 * w ≤ n + 2) (3 * (w - 1)) 0 fun x => tema x w := fun c m n hn => by
  have := tema_reports (line c m n) w hw (by rw [line_length]; exact hn) (line_fins c m n)
  rw [line_length] at this
  exact this.congr fun i h1 h2 => by rw [ema1_line hw (by omega) h2, ema2_line hw (by omega) h2, ema3_line hw h1 h2]; ring

/-- C84: `t3` with volume factor `f` lags by `3 (1 - f)` times the lag of one exponential average. -/
theorem t3_lags (factor : Option XF) {f : ℝ} (hf : factor.getD 0.7 ⇓ f) (h0 : 0 ≤ f) (h1 : f ≤ 1) :
    Lags (fun n => 6 * w ≤ n + 5) (6 * (w - 1)) (3 * (1 - f) * (((w : ℝ) - 1) / 2)) fun x => t3 x w factor := fun c m n hn => by
  have := t3_reports (line c m n) w factor f hw (by rw [line_length]; exact hn) hf (line_fins c m n)
  rw [line_length] at this
  refine this.congr fun i h3 h2 => ?_
  rw [ema6_line hw h3 h2, ema5_line hw (by omega) h2, ema4_line hw (by omega) h2, ema3_line hw (by omega) h2, min_eq_left h1, max_eq_right h0]
  ring

/-- C84: `zlma` does not lag for odd windows, and by half a bar for even ones. -/
theorem zlma_lags : Lags (fun n => (w - 1) / 2 + w ≤ n) ((w - 1) / 2 + (w - 1)) (if w % 2 = 1 then 0 else 1 / 2) fun x => zlma x w := fun c m n hn => by
  have := zlma_reports (line c m n) w hw (by rw [line_length]; exact hn) (line_fins c m n)
  rw [line_length] at this
  refine this.congr fun i h1 h2 => ?_
  have hv : ∀ j, (w - 1) / 2 ≤ j → j < n → 2 * bar (vals (line c m n)) j - bar (vals (line c m n)) (j - (w - 1) / 2) =
      (c + m * ((w - 1) / 2 : ℕ)) + m * j := fun j h3 h4 => by
    rw [line_bar h4, line_bar (by omega), Nat.cast_sub h3]
    ring
  rw [ewmaFrom_line hv hw (by omega) h2]
  split
  · have : (2 : ℝ) * ((w - 1) / 2 : ℕ) = w - 1 := by
      have : (2 : ℝ) * ((w - 1) / 2 : ℕ) + 1 = w := by exact_mod_cast (by omega : 2 * ((w - 1) / 2) + 1 = w)
      linarith
    linear_combination (m / 2) * this
  · have : (2 : ℝ) * ((w - 1) / 2 : ℕ) = w - 2 := by
      have : (2 : ℝ) * ((w - 1) / 2 : ℕ) + 2 = w := by exact_mod_cast (by omega : 2 * ((w - 1) / 2) + 2 = w)
      linarith
    linear_combination (m / 2) * this

/-- C84: Hull's average lags by a third of the square root window, less a third of a bar for even windows. -/
theorem hull_lags (hb : w < 2 ^ 64) : Lags (fun n => w ≤ n + 1) (w - 1 + (Nat.sqrt w - 1))
    (((Nat.sqrt w : ℝ) - 1) / 3 - if w % 2 = 1 then 0 else 1 / 3) fun x => hull x w := fun c m n hn => by
  have := hull_values (line c m n) w hw hb (by rw [line_length]; exact hn) (line_fins c m n)
  rw [line_length] at this
  refine this.congr fun i h1 h2 => ?_
  have hs : 1 ≤ Nat.sqrt w := Nat.sqrt_pos.2 (by omega)
  have hv : ∀ j, w - 1 ≤ j → j < n → 2 * wmaOf ((w + 1) / 2) (lastOf (bar (vals (line c m n))) ((w + 1) / 2) j) -
      wmaOf w (lastOf (bar (vals (line c m n))) w j) = (c + m * if w % 2 = 1 then 0 else 1 / 3) + m * j := fun j h3 h4 => by
    rw [wma_line (k := 0) (fun j _ h => line_bar h) (by omega) (by omega) h4, wma_line (k := 0) (fun j _ h => line_bar h) hw (by omega) h4]
    split
    · have : (2 : ℝ) * ((w + 1) / 2 : ℕ) = w + 1 := by exact_mod_cast (by omega : 2 * ((w + 1) / 2) = w + 1)
      linear_combination (-m / 3) * this
    · have : (2 : ℝ) * ((w + 1) / 2 : ℕ) = w := by exact_mod_cast (by omega : 2 * ((w + 1) / 2) = w)
      linear_combination (-m / 3) * this
  rw [wma_line hv hs (by omega) h2]
  ring

end

/-- C84: the regression forecast is on the line. -/
theorem lrf_lags {w : ℕ} (hw : 2 ≤ w) : Lags (fun n => w ≤ n + 1) (w - 1) 0 fun x => lrf x w := fun c m n hn => by
  have := lrf_line (line c m n) w c m hw (by rw [line_length]; exact hn) fun i x hx => by
    simp only [line, List.getElem?_map] at hx
    obtain ⟨j, hj, rfl⟩ := Option.map_eq_some_iff.1 hx
    obtain ⟨h1, rfl⟩ := List.getElem?_eq_some_iff.1 hj
    rw [List.getElem_range]
    exact is_fin _
  rw [line_length] at this
  exact this.congr fun i _ _ => by ring

end Traquer.Smooth

namespace Traquer.Momentum
open FP FloatLit

/-- C84: on a straight line `macd` is constant: half the difference of the windows times the slope. -/
theorem macd_line {short long : ℕ} (hs : 1 ≤ short) (hl : 1 ≤ long) (c m : ℝ) (n : ℕ) (hn : max short long ≤ n) :
    Reports n (max short long - 1) (fun _ => m * ((long : ℝ) - short) / 2) (macd (line c m n) short long) := by
  have := macd_reports (line c m n) short long hs hl (by rw [line_length]; exact hn) (line_fins c m n)
  rw [line_length] at this
  exact this.congr fun i h1 h2 => by rw [Smooth.ema1_line hs (by omega) h2, Smooth.ema1_line hl (by omega) h2]; ring

/-- C84 -/
theorem apo_line {short long : ℕ} (hs : 1 ≤ short) (hl : 1 ≤ long) (c m : ℝ) (n : ℕ) (hn : max short long ≤ n) :
    Reports n (max short long - 1) (fun _ => m * ((long : ℝ) - short) / 2) (apo (line c m n) short long) :=
  macd_line hs hl c m n hn

/-- C84: the forecast oscillator is 0 on a straight line of prices other than 0. -/
theorem cfo_line {w : ℕ} (hw : 2 ≤ w) (c m : ℝ) (n : ℕ) (hn : w ≤ n + 1) (h0 : ∀ i < n, c + m * i ≠ 0) :
    Reports n (w - 1) (fun _ => 0) (cfo (line c m n) w) := by
  obtain ⟨l, e, r, hl⟩ := (Smooth.lrf_lags hw c m n hn).some
  simp only at e
  simp only [cfo, e, Option.bind_eq_bind, Option.bind_some]
  refine reports_map (by simp [line_length, hl]) ?_ ?_
  · rintro i ⟨x, y⟩ hi hk
    obtain ⟨h1, h2⟩ := List.getElem?_zip_eq_some.1 hi
    have := r.at_nan h1 hk
    nanp
  · rintro i ⟨x, y⟩ hi hk
    obtain ⟨h1, h2⟩ := List.getElem?_zip_eq_some.1 hi
    have hin : i < n := by simpa [line_length] using (List.getElem?_eq_some_iff.1 h2).1
    have h2 := Trend.is_bar (line_fins c m n) h2
    rw [line_bar hin] at h2
    refine (is_div (is_mul (is_lit 100) (is_sub h2 (r.at h1 hk))) h2 (h0 i hin)).congr ?_
    rw [sub_zero, sub_self, mul_zero, zero_div]

end Traquer.Momentum

namespace Traquer.Trend
open FP FloatLit

/-- C84: on a straight line `dpo` is constant. -/
theorem dpo_line {w : ℕ} (hw : 3 ≤ w) (c m : ℝ) (n : ℕ) (hn : w ≤ n) :
    Reports n (w - 1) (fun _ => m * (((w : ℝ) - 1) / 2 - ((w / 2 + 1 : ℕ) : ℝ))) (dpo (line c m n) w none) := by
  have := dpo_reports (line c m n) w none hw (by rw [line_length]; exact hn) (line_fins c m n)
    (v := fun i => c + m * (i - ((w : ℝ) - 1) / 2)) (by
      have := Smooth.sma_lags (w := w) (by omega) c m n (by omega)
      rwa [line_length])
  rw [line_length] at this
  refine this.congr fun i h1 h2 => ?_
  rw [line_bar (by omega), Nat.cast_sub (by omega)]
  ring

end Traquer.Trend

namespace Traquer
open FP FloatLit

/-! ## Concrete cases -/

/-- The line 10, 12, 14, 16, 18: the average over 3 bars is one bar late. -/
example : ValueAt (Smooth.sma (line 10 2 5) 3) 4 16 := (Smooth.sma_lags (w := 3) (by decide) 10 2 5 (by decide)).value 4 (by decide) (by decide) (by norm_num)
example : ValueAt (Smooth.ewma (line 10 2 5) 3) 4 16 := (Smooth.ewma_lags (w := 3) (by decide) 10 2 5 (by decide)).value 4 (by decide) (by decide) (by norm_num)
/-- Wilder's average is later: 10, 12 give 11 at bar 1, then 12.5 and so on. -/
example : ValueAt (Smooth.wilder (line 10 2 5) 2) 2 (25 / 2) :=
  (Smooth.wilder_lags (w := 2) (by decide) 10 2 5 (by decide)).value 2 (by decide) (by decide) (by norm_num)
example : ValueAt (Smooth.wma (line 10 2 5) 4) 4 16 := (Smooth.wma_lags (w := 4) (by decide) 10 2 5 (by decide)).value 4 (by decide) (by decide) (by norm_num)
example : ValueAt (Smooth.pwma (line 10 2 5) 3) 4 16 :=
  (Smooth.pwma_lags (w := 3) (by decide) (by decide) 10 2 5 (by decide)).value 4 (by decide) (by decide) (by norm_num)
/-- Weights 1, 1, 2: three quarters of a bar. -/
example : ValueAt (Smooth.fwma (line 10 2 5) 3) 4 (33 / 2) :=
  (Smooth.fwma_lags (w := 3) (by decide) 10 2 5 (by decide)).value 4 (by decide) (by decide) (by norm_num [Nat.fib])
example : ValueAt (Smooth.trima (line 10 2 5) 4) 4 15 := (Smooth.trima_lags (w := 4) (by decide) 10 2 5 (by decide)).value 4 (by decide) (by decide) (by norm_num)
example : ValueAt (Smooth.dema (line 10 2 5) 3) 4 18 := (Smooth.dema_lags (w := 3) (by decide) 10 2 5 (by decide)).value 4 (by decide) (by decide) (by norm_num)
example : ValueAt (Smooth.tema (line 10 2 5) 2) 4 18 := (Smooth.tema_lags (w := 2) (by decide) 10 2 5 (by decide)).value 4 (by decide) (by decide) (by norm_num)
example : ValueAt (Smooth.t3 (line 10 2 8) 2 (some (fin (1 / 2)))) 7 (45 / 2) :=
  (Smooth.t3_lags (w := 2) (by decide) (some (fin (1 / 2))) (is_fin _) (by norm_num) (by norm_num) 10 2 8 (by decide)).value 7 (by decide) (by decide)
    (by norm_num)
/-- An even window of `zlma`: half a bar late. -/
example : ValueAt (Smooth.zlma (line 10 2 6) 4) 5 19 := (Smooth.zlma_lags (w := 4) (by decide) 10 2 6 (by decide)).value 5 (by decide) (by decide) (by norm_num)
/-- The window 4 of Hull's average has no lag: the third of a bar gained by rounding the half window up is lost again. -/
example : ValueAt (Smooth.hull (line 10 2 5) 4) 4 18 :=
  have h : Nat.sqrt 4 = 2 := Nat.sqrt_eq 2
  (Smooth.hull_lags (w := 4) (by decide) (by decide) 10 2 5 (by decide)).value 4 (by rw [h]) (by decide) (by rw [h]; norm_num)
example : ValueAt (Smooth.lrf (line 10 2 5) 3) 4 18 := (Smooth.lrf_lags (w := 3) (by decide) 10 2 5 (by decide)).value 4 (by decide) (by decide) (by norm_num)
example : ValueAt (Momentum.macd (line 10 2 9) 3 7) 8 4 :=
  (Momentum.macd_line (short := 3) (long := 7) (by decide) (by decide) 10 2 9 (by decide)).value 8 (by decide) (by decide) (by norm_num)
example : ValueAt (Momentum.cfo (line 10 2 5) 3) 4 0 :=
  (Momentum.cfo_line (w := 3) (by decide) 10 2 5 (by decide) (fun i _ => by positivity)).value 4 (by decide) (by decide) rfl
/-- Odd windows of `dpo`: minus one step. -/
example : ValueAt (Trend.dpo (line 10 2 6) 5 none) 5 (-2) :=
  (Trend.dpo_line (w := 5) (by decide) 10 2 6 (by decide)).value 5 (by decide) (by decide) (by norm_num)

end Traquer
