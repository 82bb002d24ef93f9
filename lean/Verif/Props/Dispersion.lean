import Verif.Model.Distribution
import Verif.Lemmas.Real
import Mathlib.Tactic.Positivity
/-!
# C39: dispersion measures

Exact arithmetic (`XF`).
-/

namespace Traquer
open FP FloatLit

theorem mean_nonneg {l : List ℝ} (h : ∀ x ∈ l, 0 ≤ x) : 0 ≤ mean l :=
  div_nonneg (List.sum_nonneg h) (Nat.cast_nonneg _)

theorem mean_eq_zero_iff {l : List ℝ} (h : ∀ x ∈ l, 0 ≤ x) : mean l = 0 ↔ ∀ x ∈ l, x = 0 := by
  constructor
  · intro h0 x hx
    have hp : (l.length : ℝ) ≠ 0 := by
      have := List.length_pos_of_mem hx
      positivity
    have hs : l.sum = 0 := by
      rw [mean, div_eq_zero_iff] at h0
      exact h0.resolve_right hp
    have := List.single_le_sum h x hx
    exact le_antisymm (hs ▸ this) (h x hx)
  · intro h0
    rw [mean, List.sum_eq_zero h0, zero_div]

theorem mean_add {l : List ℝ} (c : ℝ) (h : l ≠ []) : mean (l.map fun x => x + c) = mean l + c := by
  have hp : (l.length : ℝ) ≠ 0 := by
    have := List.length_pos_iff.2 h
    positivity
  have hs : (l.map fun x => x + c).sum = l.sum + c * l.length := by
    clear h hp
    induction l with
    | nil => simp
    | cons x l ih =>
      simp only [List.map_cons, List.sum_cons, ih, List.length_cons, Nat.cast_add, Nat.cast_one]
      ring
  rw [mean, mean, hs, List.length_map]
  field_simp

theorem mean_mul (l : List ℝ) (c : ℝ) : mean (l.map fun x => c * x) = c * mean l := by
  rw [mean, mean, List.sum_map_mul_left, List.length_map]
  simp [mul_div_assoc]

theorem mean_of_length {l : List ℝ} {w : ℕ} (h : l.length = w) : mean l = l.sum / w := by rw [mean, h]

theorem Flat.eq_mean {l : List ℝ} (h : Flat l) {x : ℝ} (hx : x ∈ l) : mean l = x := by
  have hp : (l.length : ℝ) ≠ 0 := by
    have := List.length_pos_of_mem hx
    positivity
  have : l = List.replicate l.length x := List.eq_replicate_iff.2 ⟨rfl, fun y hy => h y hy x hx⟩
  rw [mean, this]
  simp [hp]

theorem flat_iff_mean {l : List ℝ} : Flat l ↔ ∀ x ∈ l, x = mean l :=
  ⟨fun h _ hx => (h.eq_mean hx).symm, fun h x hx y hy => (h x hx).trans (h y hy).symm⟩

theorem moment_two_nonneg (l : List ℝ) : 0 ≤ moment 2 l := mean_nonneg (by
  intro x hx
  obtain ⟨y, -, rfl⟩ := List.mem_map.1 hx
  positivity)

theorem moment_two_eq_zero {l : List ℝ} : moment 2 l = 0 ↔ Flat l := by
  rw [moment, mean_eq_zero_iff (by
    intro x hx
    obtain ⟨y, -, rfl⟩ := List.mem_map.1 hx
    positivity), flat_iff_mean]
  simp [sub_eq_zero]

theorem stdDev_nonneg (l : List ℝ) : 0 ≤ stdDev l := Real.sqrt_nonneg _
theorem stdDev_eq_zero {l : List ℝ} : stdDev l = 0 ↔ Flat l := by
  rw [stdDev, Real.sqrt_eq_zero (moment_two_nonneg l), moment_two_eq_zero]

theorem meanAbsDev_nonneg (l : List ℝ) : 0 ≤ meanAbsDev l := mean_nonneg (by
  intro x hx
  obtain ⟨y, -, rfl⟩ := List.mem_map.1 hx
  positivity)

theorem meanAbsDev_eq_zero {l : List ℝ} : meanAbsDev l = 0 ↔ Flat l := by
  rw [meanAbsDev, mean_eq_zero_iff (by
    intro x hx
    obtain ⟨y, -, rfl⟩ := List.mem_map.1 hx
    positivity), flat_iff_mean]
  simp [sub_eq_zero]

theorem moment_shift (k : ℕ) (l : List ℝ) (c : ℝ) : moment k (l.map fun x => x + c) = moment k l := by
  cases l with
  | nil => rfl
  | cons y r =>
    rw [moment, mean_add c (by simp), moment, List.map_map]
    congr 1
    apply List.map_congr_left
    intro x _
    simp

theorem moment_scale (k : ℕ) (l : List ℝ) (c : ℝ) : moment k (l.map fun x => c * x) = c ^ k * moment k l := by
  rw [moment, mean_mul, moment, ← mean_mul (List.map _ l), List.map_map, List.map_map]
  congr 1
  apply List.map_congr_left
  intro x _
  simp only [Function.comp]
  rw [← mul_sub, mul_pow]

theorem meanAbsDev_shift (l : List ℝ) (c : ℝ) : meanAbsDev (l.map fun x => x + c) = meanAbsDev l := by
  cases l with
  | nil => rfl
  | cons y r =>
    rw [meanAbsDev, mean_add c (by simp), meanAbsDev, List.map_map]
    congr 1
    apply List.map_congr_left
    intro x _
    simp

end Traquer

namespace Traquer.Distribution
open FP FloatLit

theorem winMean_is {l : List XF} {w : ℕ} (h : Fins l) (hl : l.length = w) (hw : 1 ≤ w) : winMean l w ⇓ mean (vals l) := by
  refine (is_div h.fsum (is_flt w) (by positivity)).congr ?_
  rw [mean, vals_length, hl]

theorem powDev_is {l : List XF} {m : XF} {c : ℝ} (h : Fins l) (hm : m ⇓ c) (n : ℕ) :
    powDev l m n ⇓ ((vals l).map fun x => (x - c) ^ n).sum := by
  have := foldl_add_is (t := fun x : XF => powi (x - m) n) (v := fun x => (x.val - c) ^ n) (l := l) is_zero
    (fun x hx => is_powi n (is_sub (h x hx).is hm))
  refine this.congr ?_
  rw [zero_add, vals, List.map_map]
  rfl

theorem moment_is {l : List XF} {w : ℕ} (h : Fins l) (hl : l.length = w) (hw : 1 ≤ w) (n : ℕ) :
    powDev l (winMean l w) n / flt w ⇓ moment n (vals l) := by
  refine (is_div (powDev_is h (winMean_is h hl hw) n) (is_flt w) (by positivity)).congr ?_
  rw [moment, mean_of_length (l := List.map _ _) (w := w) (by simpa using hl)]

theorem stdDevWin_is {l : List XF} {w : ℕ} (h : Fins l) (hl : l.length = w) (hw : 1 ≤ w) :
    stdDevWin w l ⇓ stdDev (vals l) := is_sqrt (moment_is h hl hw 2) (moment_two_nonneg _)

section
variable (data : List XF) (w : ℕ)

/-- C39: `variance` is the mean squared deviation of the last `w` values from their mean. -/
theorem variance_reports (hw : 1 ≤ w) (hn : w ≤ data.length + 1) (hd : Fins data) :
    Reports data.length (w - 1) (fun i => moment 2 (recent (vals data) w i)) (variance data w) := by
  run_model [variance]
  refine reports_windows hw hn fun i h1 h2 => ?_
  have := moment_is (hd.recent w i) (recent_length h1 h2) hw 2
  rwa [recent_vals] at this

/-- C39: `std_dev` is the root of the variance. -/
theorem std_dev_reports (hw : 1 ≤ w) (hn : w ≤ data.length + 1) (hd : Fins data) :
    Reports data.length (w - 1) (fun i => stdDev (recent (vals data) w i)) (std_dev data w) := by
  run_model [std_dev, stdDevRaw]
  refine reports_windows hw hn fun i h1 h2 => ?_
  have := stdDevWin_is (hd.recent w i) (recent_length h1 h2) hw
  rwa [recent_vals] at this

/-- C39: `mad` is the mean absolute deviation of the last `w` values from their mean. -/
theorem mad_reports (hw : 1 ≤ w) (hn : w ≤ data.length + 1) (hd : Fins data) :
    Reports data.length (w - 1) (fun i => meanAbsDev (recent (vals data) w i)) (mad data w) := by
  run_model [mad]
  refine reports_windows hw hn fun i h1 h2 => ?_
  have hf := hd.recent w i
  have hm := winMean_is hf (recent_length h1 h2) hw
  have hs := foldl_add_is (t := fun x : XF => fabs (x - winMean (recent data w i) w))
    (v := fun x => |x.val - mean (vals (recent data w i))|) (l := recent data w i) is_zero
    (fun x hx => is_abs (is_sub (hf x hx).is hm))
  refine (is_div hs (is_flt w) (by positivity)).congr ?_
  rw [zero_add, meanAbsDev, ← recent_vals, mean_of_length (l := List.map _ _) (w := w) (by simpa using recent_length h1 h2)]
  rw [vals, List.map_map]
  rfl

/-- C39: `cv` is the standard deviation divided by the mean, wherever the mean is not zero. -/
theorem cv_reports (hw : 1 ≤ w) (hn : w ≤ data.length + 1) (hd : Fins data) :
    ReportsP data.length (w - 1) (fun i y => mean (recent (vals data) w i) ≠ 0 →
      y ⇓ stdDev (recent (vals data) w i) / mean (recent (vals data) w i)) (cv data w) := by
  run_model [cv]
  refine reportsP_windows hw hn fun i h1 h2 hne => ?_
  rw [← recent_vals] at hne ⊢
  exact is_div (stdDevWin_is (hd.recent w i) (recent_length h1 h2) hw) (winMean_is (hd.recent w i) (recent_length h1 h2) hw) hne

theorem recent_last {α : Type} {l : List α} {w i : ℕ} (hw : 1 ≤ w) (h1 : w ≤ i + 1) :
    (recent l w i)[w - 1]? = l[i]? := by
  rw [recent, List.getElem?_take_of_lt (by omega), List.getElem?_drop]
  congr 1; omega

theorem zero_div_zero {x y : XF} (hx : x ⇓ 0) (hy : y ⇓ 0) : x / y = FP.nan := by
  rcases is_iff.1 hx with rfl | ⟨rfl, -⟩ <;> rcases is_iff.1 hy with rfl | ⟨rfl, -⟩ <;> simp [div_def, FP.div, val]

/-- C39: `zscore` is the distance of the newest value from the mean in standard deviations, NaN on a flat window. -/
theorem zscore_reports (hw : 1 ≤ w) (hn : w ≤ data.length + 1) (hd : Fins data) :
    ReportsP data.length (w - 1) (fun i y =>
      (¬ Flat (recent (vals data) w i) → ∀ x, (vals data)[i]? = some x →
        y ⇓ (x - mean (recent (vals data) w i)) / stdDev (recent (vals data) w i)) ∧
      (Flat (recent (vals data) w i) → y = FP.nan)) (zscore data w) := by
  run_model [zscore]
  refine reportsP_mapP_windows hw hn fun i h1 h2 => ?_
  have e := getElem?_of_lt h2
  have hl := recent_last (l := data) hw h1
  rw [e] at hl
  have hf := hd.recent w i
  have hlen := recent_length h1 h2
  have hm := winMean_is hf hlen hw
  have hs := stdDevWin_is hf hlen hw
  have hx := (hd _ (List.getElem_mem h2)).is
  rw [recent_vals] at hm hs
  refine ⟨_, by rw [hl]; rfl, fun hne x hxe => ?_, fun hflat => ?_⟩
  · rw [vals_getElem?, e] at hxe
    cases hxe
    exact is_div (is_sub hx hm) hs (fun h0 => hne (stdDev_eq_zero.1 h0))
  · refine zero_div_zero ((is_sub hx hm).congr ?_) (hs.congr (stdDev_eq_zero.2 hflat))
    have : data[i].val ∈ recent (vals data) w i := by
      refine List.mem_iff_getElem?.2 ⟨w - 1, ?_⟩
      rw [recent_last hw h1, vals_getElem?, e]; rfl
    rw [hflat.eq_mean this, sub_self]

/-- C39: `skew` is the adjusted Fisher-Pearson skewness `√(w(w-1))/(w-2) * m₃ / m₂^(3/2)` of a window that is not flat. -/
theorem skew_reports (hw : 3 ≤ w) (hn : w ≤ data.length + 1) (hd : Fins data) :
    ReportsP data.length (w - 1) (fun i y => ¬ Flat (recent (vals data) w i) →
      y ⇓ Real.sqrt (w * (w - 1)) / (w - 2) * moment 3 (recent (vals data) w i) / moment 2 (recent (vals data) w i) ^ (3 / 2 : ℝ))
      (skew data w) := by
  run_model [skew]
  refine reportsP_mapP_windows (by omega) hn fun i h1 h2 => ?_
  refine ⟨_, rfl, fun hne => ?_⟩
  have hf := hd.recent w i
  have hlen := recent_length h1 h2
  have m2 := moment_is hf hlen (by omega) 2
  have m3 := moment_is hf hlen (by omega) 3
  rw [recent_vals] at m2 m3
  have hp : 0 < moment 2 (recent (vals data) w i) :=
    lt_of_le_of_ne (moment_two_nonneg _) fun h => hne (moment_two_eq_zero.1 h.symm)
  have hw2 : ((w - 2 : ℕ) : ℝ) = (w : ℝ) - 2 := by push_cast [show 2 ≤ w by omega]; rfl
  have hw1 : ((w * (w - 1) : ℕ) : ℝ) = (w : ℝ) * (w - 1) := by push_cast [show 1 ≤ w by omega]; rfl
  have hw0 : ((w - 2 : ℕ) : ℝ) ≠ 0 := by exact_mod_cast (show w - 2 ≠ 0 by omega)
  have hpow := is_powf m2 (is_div (is_lit 3) (is_lit 2) two_ne_zero) hp
  have := is_div (is_mul (is_div (is_sqrt (is_flt (w * (w - 1))) (by positivity)) (is_flt (w - 2)) hw0) m3) hpow
    (Real.rpow_pos_of_pos hp _).ne'
  rw [hw1, hw2] at this
  exact this

/-- C39: `kurtosis` is the sample excess kurtosis `(w+1)w(w-1)/((w-2)(w-3)) * Σd⁴/(Σd²)² - 3(w-1)²/((w-2)(w-3))`. -/
theorem kurtosis_reports (hw : 4 ≤ w) (hn : w ≤ data.length + 1) (hd : Fins data) :
    ReportsP data.length (w - 1) (fun i y => ¬ Flat (recent (vals data) w i) →
      y ⇓ (w + 1) * w * (w - 1) / ((w - 2) * (w - 3)) *
          (w * moment 4 (recent (vals data) w i)) / (w * moment 2 (recent (vals data) w i)) ^ 2
        - 3 * (w - 1) ^ 2 / ((w - 2) * (w - 3)))
      (kurtosis data w) := by
  run_model [kurtosis]
  refine reportsP_windows (by omega) hn fun i h1 h2 hne => ?_
  have hf := hd.recent w i
  have hlen := recent_length h1 h2
  have hm := winMean_is hf hlen (by omega)
  have e : ∀ k, ((vals (recent data w i)).map fun x => (x - mean (vals (recent data w i))) ^ k).sum =
      w * moment k (recent (vals data) w i) := by
    intro k
    rw [moment, ← recent_vals, mean_of_length (l := List.map _ _) (w := w) (by simpa using hlen)]
    have : (w : ℝ) ≠ 0 := by positivity
    field_simp
  have k2 := (powDev_is hf hm 2).congr (e 2)
  have k4 := (powDev_is hf hm 4).congr (e 4)
  have hp : 0 < moment 2 (recent (vals data) w i) :=
    lt_of_le_of_ne (moment_two_nonneg _) fun h => hne (moment_two_eq_zero.1 h.symm)
  have hw0 : (((w - 2) * (w - 3) : ℕ) : ℝ) ≠ 0 := by
    have : (w - 2) * (w - 3) ≠ 0 := Nat.mul_ne_zero (by omega) (by omega)
    exact_mod_cast this
  have hwp : (0 : ℝ) < w := by positivity
  have := is_sub (is_div (is_mul (is_div (is_flt ((w + 1) * w * (w - 1))) (is_flt ((w - 2) * (w - 3))) hw0) k4) (is_mul k2 k2)
    (by positivity)) (is_div (is_mul (is_lit 3) (is_flt ((w - 1) ^ 2))) (is_flt ((w - 2) * (w - 3))) hw0)
  refine this.congr ?_
  push_cast [show 1 ≤ w by omega, show 2 ≤ w by omega, show 3 ≤ w by omega]
  rw [pow_two (_ * _)]

end

/-- C39: the dispersion measures of a window are never negative, and zero exactly for a flat window. -/
theorem dispersion_zero_iff_flat (data : List XF) (w : ℕ) (hw : 1 ≤ w) (hn : w ≤ data.length + 1) (hd : Fins data) :
    ∃ va sd ma, Reports data.length (w - 1) va (variance data w) ∧ Reports data.length (w - 1) sd (std_dev data w) ∧
      Reports data.length (w - 1) ma (mad data w) ∧ ∀ i, 0 ≤ va i ∧ 0 ≤ sd i ∧ 0 ≤ ma i ∧
        (va i = 0 ↔ Flat (recent (vals data) w i)) ∧ (sd i = 0 ↔ Flat (recent (vals data) w i)) ∧
        (ma i = 0 ↔ Flat (recent (vals data) w i)) :=
  ⟨_, _, _, variance_reports data w hw hn hd, std_dev_reports data w hw hn hd, mad_reports data w hw hn hd, fun _ =>
    ⟨moment_two_nonneg _, stdDev_nonneg _, meanAbsDev_nonneg _, moment_two_eq_zero, stdDev_eq_zero, meanAbsDev_eq_zero⟩⟩

/-- C39: shifting the data changes none of the dispersion measures; scaling by `a` scales `std_dev` by `|a|`. -/
theorem dispersion_affine (xs : List ℝ) (w : ℕ) (a b : ℝ) (hw : 1 ≤ w) (hn : w ≤ xs.length + 1) :
    ∃ va sd ma, Reports xs.length (w - 1) va (variance (xs.map (fin : ℝ → XF)) w) ∧
      Reports xs.length (w - 1) va (variance ((xs.map fun x => x + b).map (fin : ℝ → XF)) w) ∧
      Reports xs.length (w - 1) sd (std_dev (xs.map (fin : ℝ → XF)) w) ∧
      Reports xs.length (w - 1) sd (std_dev ((xs.map fun x => x + b).map (fin : ℝ → XF)) w) ∧
      Reports xs.length (w - 1) (fun i => |a| * sd i) (std_dev ((xs.map fun x => a * x).map (fin : ℝ → XF)) w) ∧
      Reports xs.length (w - 1) ma (mad (xs.map (fin : ℝ → XF)) w) ∧
      Reports xs.length (w - 1) ma (mad ((xs.map fun x => x + b).map (fin : ℝ → XF)) w) := by
  have f (ys : List ℝ) (hy : ys.length = xs.length) := variance_reports (ys.map (fin : ℝ → XF)) w hw (by simpa [hy] using hn) (fins_map_fin _)
  have g (ys : List ℝ) (hy : ys.length = xs.length) := std_dev_reports (ys.map (fin : ℝ → XF)) w hw (by simpa [hy] using hn) (fins_map_fin _)
  have h (ys : List ℝ) (hy : ys.length = xs.length) := mad_reports (ys.map (fin : ℝ → XF)) w hw (by simpa [hy] using hn) (fins_map_fin _)
  simp only [List.length_map, vals_map_fin] at f g h
  refine ⟨_, _, _, f xs rfl, ?_, g xs rfl, ?_, ?_, h xs rfl, ?_⟩
  · have := f (xs.map fun x => x + b) (by simp)
    simp only [List.length_map] at this
    exact this.congr fun i _ _ => by rw [recent_map, moment_shift]
  · have := g (xs.map fun x => x + b) (by simp)
    simp only [List.length_map] at this
    exact this.congr fun i _ _ => by rw [recent_map, stdDev, moment_shift]; rfl
  · have := g (xs.map fun x => a * x) (by simp)
    simp only [List.length_map] at this
    exact this.congr fun i _ _ => by
      rw [recent_map, stdDev, moment_scale, Real.sqrt_mul (by positivity), Real.sqrt_sq_eq_abs]; rfl
  · have := h (xs.map fun x => x + b) (by simp)
    simp only [List.length_map] at this
    exact this.congr fun i _ _ => by rw [recent_map, meanAbsDev_shift]

/-- The variance of `[1, 3]` is 1, that of `[3, 3]` is 0. -/
example : ∃ out : List XF, variance [fin 1, fin 3, fin 3] 2 = some out ∧ out[0]? = some nan ∧
    (∃ y, out[1]? = some y ∧ y ⇓ 1) ∧ (∃ y, out[2]? = some y ∧ y ⇓ 0) := by
  obtain ⟨o, h1, -, h3, h4⟩ := variance_reports ([1, 3, 3].map (fin : ℝ → XF)) 2 (by decide) (by simp) (fins_map_fin _)
  refine ⟨o, h1, h3 0 (by decide) (by simp), ?_, ?_⟩
  · obtain ⟨y, e, hy⟩ := h4 1 (by decide) (by simp)
    exact ⟨y, e, hy.congr (by simp [recent, moment, mean, vals]; norm_num)⟩
  · obtain ⟨y, e, hy⟩ := h4 2 (by decide) (by simp)
    exact ⟨y, e, hy.congr (by simp [recent, moment, mean, vals])⟩

end Traquer.Distribution
