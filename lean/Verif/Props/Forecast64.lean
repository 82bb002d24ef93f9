import Verif.Lemmas.Magnitude
import Verif.Props.ForecastErrors
/-!
# C120: forecast errors are accurate relative to themselves in binary64

An actual and a forecast may agree in almost all digits; their difference is rounded once, relative to the difference. All terms are positive, so the means are
accurate relative to the error they report, however small the error is against the prices.
-/

namespace Traquer.Regression
open FP FloatLit Smooth Volume

variable (data estimate : List F64)

/-- The rounded value of a running error. -/
theorem runningError_mag {err fn : F64 → F64 → F64} {f : ℝ → ℝ → ℝ} {P : ℕ → F64 → Prop} {k lo hi : ℕ} (hl : estimate.length = data.length)
    (h32 : data.length ≤ 2 ^ 32) (hk : k ≤ 2 ^ 32) (hh : hi ≤ 960)
    (herr : ∀ o ∈ data, ∀ e ∈ estimate, Mag k lo hi (err o e) (f o.val e.val) ∧ 0 ≤ f o.val e.val)
    (hfin : ∀ i s, i < data.length → Mag (k + (i + 1)) lo (hi + 32) s (errors f (vals data) (vals estimate) i).sum →
      0 ≤ (errors f (vals data) (vals estimate) i).sum → P i (fn s (flt (i + 1)))) :
    ReportsP data.length 0 P (some (runningError err fn data estimate)) := by
  have hlen := runningError_length err fn data estimate hl
  refine ⟨_, rfl, hlen, fun i h => by omega, fun i _ hi' => ?_⟩
  obtain ⟨y, hy⟩ : ∃ y, (runningError err fn data estimate)[i]? = some y := ⟨_, List.getElem?_eq_getElem (by omega)⟩
  refine ⟨y, hy, ?_⟩
  rw [runningError_at _ _ _ _ _ _ hy]
  have ln : ((data.zip estimate).take (i + 1)).length = i + 1 := by simp; omega
  have s := Mag.sum (k := k) (lo := lo) (hi := hi) (l := (data.zip estimate).take (i + 1)) (f := fun p => err p.1 p.2) (t := fun p => f p.1.val p.2.val) (fun p hp => by
    have := List.of_mem_zip (List.mem_of_mem_take hp)
    exact herr _ this.1 _ this.2) (by omega) hk hh
  have e : (((data.zip estimate).take (i + 1)).map fun p => f p.1.val p.2.val).sum = (errors f (vals data) (vals estimate) i).sum := by
    simp [errors, vals, List.zip_map, ← List.map_take, Function.comp_def]
  rw [e, ln] at s
  exact hfin i _ hi' s.1 s.2

theorem mean_errors64 {f : ℝ → ℝ → ℝ} {i : ℕ} (hl : estimate.length = data.length) (hi : i < data.length) :
    mean (errors f (vals data) (vals estimate) i) = (errors f (vals data) (vals estimate) i).sum / ((i + 1 : ℕ) : ℝ) := by
  rw [mean, errors_length (by simpa [vals] using hl) (by simpa [vals] using hi)]

theorem _root_.Traquer.Mag.within {k lo hi : ℕ} {x : F64} {a K : ℝ} (h : Mag k lo hi x a) (hk : k ≤ 2 ^ 40) (e : 2 * (k : ℝ) = K) : WithinUnits K a x := e ▸ Rel.withinUnits h.1 hk

variable {data estimate}

theorem mag_absErr {o e : F64} (ho : Price o) (he : Price e) : Mag 1 454 400 (fabs (o - e)) |o.val - e.val| := (mag_diff ho he).abs

/-- The mean absolute error. -/
theorem mae_mag (hl : estimate.length = data.length) (h32 : data.length ≤ 2 ^ 32) (hd : ∀ x ∈ data, Price x) (he : ∀ x ∈ estimate, Price x) :
    ReportsP data.length 0 (fun i y => Mag (i + 3) 486 432 y (mean (errors (fun o e => |o - e|) (vals data) (vals estimate) i))) (some (mae data estimate)) :=
  runningError_mag data estimate hl h32 (k := 1) (lo := 454) (hi := 400) (by norm_num) (by norm_num)
    (fun o ho e he' => ⟨mag_absErr (hd o ho) (he e he'), abs_nonneg _⟩) fun i s hi hs h0 => by
    rw [mean_errors64 _ _ hl hi]
    exact (hs.quot (mag_nat (by omega) (by omega)) (by positivity) (by omega) (by norm_num) (by norm_num)).mono (by omega) (by norm_num) (by norm_num)

/-- C120: `mae` is the mean absolute error so far to `2 i + 6` units of rounding of that error. -/
theorem mae_accurate (hl : estimate.length = data.length) (h32 : data.length ≤ 2 ^ 32) (hd : ∀ x ∈ data, Price x) (he : ∀ x ∈ estimate, Price x) :
    ReportsP data.length 0 (fun i y => WithinUnits (2 * i + 6) (mean (errors (fun o e => |o - e|) (vals data) (vals estimate) i)) y) (some (mae data estimate)) :=
  (mae_mag hl h32 hd he).mono fun i y _ hi h => h.within (by omega) (by push_cast; ring)

/-- The mean squared error. -/
theorem mse_mag (hl : estimate.length = data.length) (h32 : data.length ≤ 2 ^ 32) (hd : ∀ x ∈ data, Price x) (he : ∀ x ∈ estimate, Price x)
    {fn : F64 → F64} {P : ℕ → F64 → Prop} (h : ∀ i y, i < data.length → Mag (i + 6) 940 832 y (mean (errors (fun o e => (o - e) ^ 2) (vals data) (vals estimate) i)) →
      0 ≤ mean (errors (fun o e => (o - e) ^ 2) (vals data) (vals estimate) i) → P i (fn y)) :
    ReportsP data.length 0 P (some (runningError (fun o e => powi (o - e) 2) (fun s n => fn (s / n)) data estimate)) :=
  runningError_mag data estimate hl h32 (k := 4) (lo := 908) (hi := 800) (f := fun o e => (o - e) ^ 2) (by norm_num) (by norm_num)
    (fun o ho e he' => ⟨(mag_diff (hd o ho) (he e he')).sq (by norm_num) (by norm_num) (by norm_num), sq_nonneg _⟩) fun i s hi hs h0 => by
    refine h i _ hi ?_ ?_ <;> rw [mean_errors64 _ _ hl hi]
    · exact (hs.quot (mag_nat (by omega) (by omega)) (by positivity) (by omega) (by norm_num) (by norm_num)).mono (by omega) (by norm_num) (by norm_num)
    · exact div_nonneg h0 (by positivity)

/-- C120: `mse` is the mean squared error so far to `2 i + 12` units of rounding of that error. -/
theorem mse_accurate (hl : estimate.length = data.length) (h32 : data.length ≤ 2 ^ 32) (hd : ∀ x ∈ data, Price x) (he : ∀ x ∈ estimate, Price x) :
    ReportsP data.length 0 (fun i y => WithinUnits (2 * i + 12) (mean (errors (fun o e => (o - e) ^ 2) (vals data) (vals estimate) i)) y)
      (some (mse data estimate)) :=
  mse_mag hl h32 hd he (fn := id) fun i y hi h _ => h.within (by omega) (by push_cast; ring)

/-- C120: `rmse` is the root of the mean squared error so far to `2 i + 14` units of rounding of that root. -/
theorem rmse_accurate (hl : estimate.length = data.length) (h32 : data.length ≤ 2 ^ 32) (hd : ∀ x ∈ data, Price x) (he : ∀ x ∈ estimate, Price x) :
    ReportsP data.length 0 (fun i y => WithinUnits (2 * i + 14) (Real.sqrt (mean (errors (fun o e => (o - e) ^ 2) (vals data) (vals estimate) i))) y)
      (some (rmse data estimate)) :=
  mse_mag hl h32 hd he (fn := sqrt) fun i y hi h h0 =>
    (h.root (lo := 470) (hi := 416) h0 (by omega) (by norm_num) (by norm_num)).within (by omega) (by push_cast; ring)

theorem val_ne {o : F64} (h : Price o) : o.val ≠ 0 := (lt_of_lt_of_le (two_zpow_pos _) h.ge).ne'

/-- C120: `mape` is a hundred times the mean relative error so far to `2 i + 10` units of rounding of its value. -/
theorem mape_accurate (hl : estimate.length = data.length) (h32 : data.length ≤ 2 ^ 32) (hd : ∀ x ∈ data, Price x) (he : ∀ x ∈ estimate, Price x) :
    ReportsP data.length 0 (fun i y => WithinUnits (2 * i + 10) (100 * mean (errors (fun o e => |(o - e) / o|) (vals data) (vals estimate) i)) y)
      (some (mape data estimate)) :=
  runningError_mag data estimate hl h32 (k := 2) (lo := 854) (hi := 800) (f := fun o e => |(o - e) / o|) (by norm_num) (by norm_num)
    (fun o ho e he' => ⟨((mag_diff (hd o ho) (he e he')).quot (mag_price (hd o ho)) (val_ne (hd o ho)) (by norm_num) (by norm_num) (by norm_num)).abs, abs_nonneg _⟩)
    fun i s hi hs h0 => by
    rw [mean_errors64 _ _ hl hi, ← mul_div_assoc]
    exact ((mag_hundred.mul hs (by omega) (by norm_num) (by norm_num)).quot (mag_nat (by omega) (by omega)) (by positivity) (by omega) (by norm_num) (by norm_num)).within
      (by omega) (by push_cast; ring)

/-- The larger of a number that is not negative and zero. -/
theorem _root_.Traquer.Mag.max_zero {k lo hi : ℕ} {x : F64} {a : ℝ} (h : Mag k lo hi x a) (h0 : 0 ≤ a) : Mag k lo hi (fmax x 0) a := by
  obtain ⟨⟨t, hx, t1, t2, sx⟩, h⟩ := h
  have tp : 0 < t := lt_of_lt_of_le (inv_pos.2 (off_pos k)) t1
  have e : fmax x 0 ⇓ a * t := by
    have := is_fmax hx isZero
    rwa [max_eq_left (by positivity)] at this
  refine ⟨⟨t, e, t1, t2, fun r hr => ?_⟩, h⟩
  rw [hr.unique e]
  exact sx _ hx

theorem mag_symErr {o e : F64} (ho : Price o) (he : Price e) : Mag 4 855 802 (fmax (fabs (o - e) / ((fabs o + fabs e) / 2)) 0) (symErr o.val e.val) := by
  have po := lt_of_lt_of_le (two_zpow_pos _) ho.ge
  have pe := lt_of_lt_of_le (two_zpow_pos _) he.ge
  have so : Rel (fabs o) |o.val| 0 := (mag_price ho).abs.1
  have se : Rel (fabs e) |e.val| 0 := (mag_price he).abs.1
  rw [abs_of_pos po] at so
  rw [abs_of_pos pe] at se
  have up : |o.val + e.val| ≤ 2 ^ 401 := by
    rw [abs_of_pos (by linarith), show 401 = 1 + 400 by norm_num, pow_add]
    have h1 := ho.plain.le
    have h2 := he.plain.le
    generalize (2 : ℝ) ^ 400 = M at *
    linarith
  have sum : Mag 1 400 401 (fabs o + fabs e) (|o.val| + |e.val|) := by
    rw [abs_of_pos po, abs_of_pos pe]
    refine ⟨Rel.add so se po.le pe.le (by simp) ?_, .inr ?_, up⟩
    · have := fits_of_le (e := 401) (by norm_num) up
      rwa [abs_of_pos (by linarith)] at this
    · rw [abs_of_pos (by linarith), two_inv_pow]
      have := ho.ge
      push_cast
      linarith
  have two : Mag 0 0 1 (2 : F64) 2 := ⟨relLit 2 (by norm_num), .inr (by norm_num), by norm_num⟩
  have half := sum.quot two (by norm_num) (by norm_num) (by norm_num) (by norm_num)
  have ne : (|o.val| + |e.val|) / 2 ≠ 0 := by
    rw [abs_of_pos po, abs_of_pos pe]
    have : 0 < (o.val + e.val) / 2 := by linarith
    exact this.ne'
  exact (((mag_absErr ho he).quot half ne (by norm_num) (by norm_num) (by norm_num)).mono (by norm_num) (by norm_num) (by norm_num)).max_zero (symErr_range _ _).1

/-- C120: `smape` is a hundred times the mean symmetric relative error so far to `2 i + 14` units of rounding of its value. -/
theorem smape_accurate (hl : estimate.length = data.length) (h32 : data.length ≤ 2 ^ 32) (hd : ∀ x ∈ data, Price x) (he : ∀ x ∈ estimate, Price x) :
    ReportsP data.length 0 (fun i y => WithinUnits (2 * i + 14) (100 * mean (errors symErr (vals data) (vals estimate) i)) y) (some (smape data estimate)) :=
  runningError_mag data estimate hl h32 (k := 4) (lo := 855) (hi := 802) (f := symErr) (by norm_num) (by norm_num)
    (fun o ho e he' => ⟨mag_symErr (hd o ho) (he e he'), (symErr_range _ _).1⟩) fun i s hi hs h0 => by
    rw [mean_errors64 _ _ hl hi, ← mul_div_assoc]
    exact ((mag_hundred.mul hs (by omega) (by norm_num) (by norm_num)).quot (mag_nat (by omega) (by omega)) (by positivity) (by omega) (by norm_num) (by norm_num)).within
      (by omega) (by push_cast; ring)

/-- A running total of numbers that are not negative, one more term. -/
theorem _root_.Traquer.Mag.step {k lo hi n : ℕ} {s x : F64} {u a : ℝ} (hs : Rel s u (k + n) ∧ 0 ≤ u ∧ (u = 0 ∨ ((2 : ℝ) ^ lo)⁻¹ ≤ u) ∧ u ≤ n * 2 ^ hi) (h : Mag k lo hi x a) (h0 : 0 ≤ a)
    (hk : k ≤ 2 ^ 32) (hn : n < 2 ^ 32) (hh : hi ≤ 960) :
    Rel (s + x) (u + a) (k + (n + 1)) ∧ 0 ≤ u + a ∧ (u + a = 0 ∨ ((2 : ℝ) ^ lo)⁻¹ ≤ u + a) ∧ u + a ≤ ((n + 1 : ℕ) : ℝ) * 2 ^ hi := by
  obtain ⟨r, u0, c, b⟩ := hs
  have ua : a ≤ 2 ^ hi := (le_abs_self a).trans h.2.2
  have top : u + a ≤ ((n + 1 : ℕ) : ℝ) * 2 ^ hi := by push_cast; linarith
  refine ⟨Rel.add (k := k + n) r (h.1.mono (Nat.le_add_right k n)) u0 h0 (units_ok (by omega)) ?_, by linarith, ?_, top⟩
  · have := fits_of_le (a := u + a) (e := hi + 32) (by omega) (by
      rw [abs_of_nonneg (by linarith), pow_add, mul_comm]
      refine top.trans (mul_le_mul_of_nonneg_right ?_ (by positivity))
      exact_mod_cast (by omega : n + 1 ≤ 2 ^ 32))
    rwa [abs_of_nonneg (by linarith)] at this
  · rcases c with rfl | c
    · rw [zero_add]
      have := h.2.1
      rwa [abs_of_nonneg h0] at this
    · exact .inr (by linarith)

theorem _root_.Traquer.Mag.of_total {k lo hi n : ℕ} {s : F64} {u : ℝ} (hs : Rel s u (k + n) ∧ 0 ≤ u ∧ (u = 0 ∨ ((2 : ℝ) ^ lo)⁻¹ ≤ u) ∧ u ≤ n * 2 ^ hi) (hn : n ≤ 2 ^ 32) :
    Mag (k + n) lo (hi + 32) s u := by
  refine ⟨hs.1, by rw [abs_of_nonneg hs.2.1]; exact hs.2.2.1, ?_⟩
  rw [abs_of_nonneg hs.2.1, pow_add, mul_comm]
  refine hs.2.2.2.trans (mul_le_mul_of_nonneg_right ?_ (by positivity))
  exact_mod_cast hn

theorem maeNaive_mag (h32 : data.length ≤ 2 ^ 32) (hd : ∀ x ∈ data, Price x) (i : ℕ) (y : F64) (hy : (maeNaive data)[i]? = some y) :
    Mag (i + 3) 486 432 y (mean (absChanges (vals data) (i + 1))) := by
  refine scan_idx (I := fun i s => Rel s (absChanges (vals data) i).sum (1 + i) ∧ 0 ≤ (absChanges (vals data) i).sum ∧
      ((absChanges (vals data) i).sum = 0 ∨ ((2 : ℝ) ^ 454)⁻¹ ≤ (absChanges (vals data) i).sum) ∧ (absChanges (vals data) i).sum ≤ i * 2 ^ 400)
    (P := fun i y => Mag (i + 3) 486 432 y (mean (absChanges (vals data) (i + 1)))) ?_
    (by simpa [absChanges] using (relZero.mono (Nat.zero_le 1))) i y hy
  rintro i s ⟨j, a, b⟩ hx hs
  rw [List.getElem?_zip_eq_some, pairs_eq_zip, List.getElem?_zip_eq_some] at hx
  obtain ⟨hj, ha, hb⟩ := hx
  have hj : j = i := by
    obtain ⟨_, hj⟩ := List.getElem?_eq_some_iff.1 hj
    simpa using hj.symm
  subst hj
  have hb : data[j + 1]? = some b := by rw [← hb]; simp
  have hlt : j + 1 < data.length := (List.getElem?_eq_some_iff.1 hb).1
  have g : ∀ {l : List F64} {j : ℕ} {x : F64}, l[j]? = some x → (vals l).getD j 0 = x.val := fun h => by simp [vals, h]
  have e : (absChanges (vals data) (j + 1)).sum = (absChanges (vals data) j).sum + |b.val - a.val| := by
    simp only [absChanges, List.range_succ, List.map_append, List.sum_append, List.map_cons, List.map_nil, List.sum_cons, List.sum_nil,
      add_zero, g ha, g hb]
  have key := Mag.step hs (mag_absErr (hd _ (List.mem_of_getElem? hb)) (hd _ (List.mem_of_getElem? ha))) (abs_nonneg _) (by norm_num) (by omega) (by norm_num)
  rw [← e] at key
  refine ⟨key, ((Mag.of_total key (by omega)).quot (mag_nat (by omega) (by omega)) (by positivity) (by omega) (by norm_num) (by norm_num) |>.mono (by omega)
    (by norm_num) (by norm_num)).congr ?_⟩
  simp [mean, absChanges]

/-- C120: `mase` is the mean absolute error so far over the mean absolute change so far to `4 i + 12` units of rounding, once the price has changed. -/
theorem mase_accurate (hl : estimate.length = data.length) (hn : 1 ≤ data.length) (h32 : data.length ≤ 2 ^ 32) (hd : ∀ x ∈ data, Price x) (he : ∀ x ∈ estimate, Price x) :
    ReportsP data.length 1 (fun i y => mean (absChanges (vals data) i) ≠ 0 →
      WithinUnits (4 * i + 12) (mean (errors (fun o e => |o - e|) (vals data) (vals estimate) i) / mean (absChanges (vals data) i)) y) (some (mase data estimate)) := by
  refine (mase_aligned data estimate hl hn).reportsP fun out ho i y hi hy h0 => ?_
  cases ho
  obtain ⟨i, rfl⟩ : ∃ j, i = j + 1 := ⟨i - 1, by omega⟩
  rw [mase, List.getElem?_cons_succ, List.getElem?_map, Option.map_eq_some_iff] at hy
  obtain ⟨⟨a, b⟩, h1, rfl⟩ := hy
  rw [List.getElem?_zip_eq_some] at h1
  obtain ⟨h1, h2⟩ := h1
  rw [List.getElem?_drop] at h1
  obtain ⟨_, e, hlen, -, h3⟩ := mae_mag hl h32 hd he
  cases e
  have hlt := (List.getElem?_eq_some_iff.1 h1).1
  obtain ⟨z, hz, hv⟩ := h3 (1 + i) (by omega) (by omega)
  cases h1.symm.trans hz
  rw [add_comm 1 i] at hv
  exact ((hv.quot (maeNaive_mag h32 hd _ _ h2) h0 (by omega) (by norm_num) (by norm_num)).mono (k' := 2 * i + 8) (by omega) le_rfl le_rfl).within (by omega)
    (by push_cast; ring)

/-- C120: `emae` is a hundred times the sum of the absolute errors over the sum of the larger of actual and forecast, over their number, to `4 i + 14` units of
rounding. -/
theorem emae_accurate (h32 : data.length ≤ 2 ^ 32) (hd : ∀ x ∈ data, Price x) (he : ∀ x ∈ estimate, Price x) (i : ℕ) (y : F64)
    (hy : (emae data estimate)[i]? = some y) :
    WithinUnits (4 * i + 14) ((errors (fun o e => |o - e|) (vals data) (vals estimate) i).sum / (errors max (vals data) (vals estimate) i).sum * 100 / (i + 1 : ℕ)) y := by
  have sumErr : ∀ f : ℝ → ℝ → ℝ, ∀ i a e, data[i]? = some a → estimate[i]? = some e → (errors f (vals data) (vals estimate) i).sum =
      ((((vals data).zip (vals estimate)).take i).map fun p => f p.1 p.2).sum + f a.val e.val := by
    intro f i a e ha hb
    have : ((vals data).zip (vals estimate))[i]? = some (a.val, e.val) := by
      rw [List.getElem?_zip_eq_some]; simp [vals, ha, hb]
    simp [errors, List.take_add_one, this]
  refine scan_idx (I := fun i s =>
      (Rel s.1 ((((vals data).zip (vals estimate)).take i).map fun p => |p.1 - p.2|).sum (1 + i) ∧ 0 ≤ ((((vals data).zip (vals estimate)).take i).map fun p => |p.1 - p.2|).sum ∧
        (((((vals data).zip (vals estimate)).take i).map fun p => |p.1 - p.2|).sum = 0 ∨
          ((2 : ℝ) ^ 454)⁻¹ ≤ ((((vals data).zip (vals estimate)).take i).map fun p => |p.1 - p.2|).sum) ∧
        ((((vals data).zip (vals estimate)).take i).map fun p => |p.1 - p.2|).sum ≤ i * 2 ^ 400) ∧
      (Rel s.2 ((((vals data).zip (vals estimate)).take i).map fun p => max p.1 p.2).sum (0 + i) ∧ 0 ≤ ((((vals data).zip (vals estimate)).take i).map fun p => max p.1 p.2).sum ∧
        (((((vals data).zip (vals estimate)).take i).map fun p => max p.1 p.2).sum = 0 ∨
          ((2 : ℝ) ^ 400)⁻¹ ≤ ((((vals data).zip (vals estimate)).take i).map fun p => max p.1 p.2).sum) ∧
        ((((vals data).zip (vals estimate)).take i).map fun p => max p.1 p.2).sum ≤ i * 2 ^ 400))
    (P := fun i y => WithinUnits (4 * i + 14) ((errors (fun o e => |o - e|) (vals data) (vals estimate) i).sum /
      (errors max (vals data) (vals estimate) i).sum * 100 / (i + 1 : ℕ)) y)
    ?_ (by simpa using ⟨relZero.mono (Nat.zero_le 1), relZero⟩) i y hy
  rintro i s ⟨a, e, n⟩ hx ⟨h1, h2⟩
  rw [zip3_getElem?] at hx
  obtain ⟨ha, hb, hn⟩ := hx
  have hlt : i < data.length := (List.getElem?_eq_some_iff.1 ha).1
  have hn : n = i + 1 := by
    obtain ⟨_, hn⟩ := List.getElem?_eq_some_iff.1 hn
    rw [List.getElem_range'] at hn
    omega
  subst hn
  have pa := hd a (List.mem_of_getElem? ha)
  have pe := he e (List.mem_of_getElem? hb)
  have pos : 0 < max a.val e.val := lt_max_of_lt_left (lt_of_lt_of_le (two_zpow_pos _) pa.ge)
  have larger : Mag 0 400 400 (fmax a e) (max a.val e.val) := by
    have ia : a ⇓ a.val := by obtain ⟨-, r, hr, -⟩ := pa; rwa [hr.val_eq]
    have ie : e ⇓ e.val := by obtain ⟨-, r, hr, -⟩ := pe; rwa [hr.val_eq]
    have im := is_fmax ia ie
    refine ⟨Rel.of_is im fun r hr => ?_, .inr ?_, ?_⟩
    · rw [hr.unique im]
      rcases max_choice a.val e.val with h | h <;> rw [h]
      · exact pa.1 _ ia
      · exact pe.1 _ ie
    · rw [abs_of_pos pos, two_inv_pow]
      exact le_max_of_le_left pa.ge
    · rw [abs_of_pos pos]
      exact max_le pa.plain.le pe.plain.le
  have g1 := Mag.step h1 (mag_absErr pa pe) (abs_nonneg _) (by norm_num) (by omega) (by norm_num)
  have g2 := Mag.step h2 larger pos.le (by norm_num) (by omega) (by norm_num)
  have ne : (errors max (vals data) (vals estimate) i).sum ≠ 0 := by
    rw [sumErr max i a e ha hb]
    have := h2.2.1
    exact ne_of_gt (by linarith)
  rw [← sumErr (fun o e => |o - e|) i a e ha hb] at g1
  rw [← sumErr max i a e ha hb] at g2
  refine ⟨⟨g1, g2⟩, ?_⟩
  have q := (Mag.of_total g1 (by omega)).quot (Mag.of_total g2 (by omega)) ne (by omega) (by norm_num) (by norm_num)
  have q := (q.mul mag_hundred (by omega) (by norm_num) (by norm_num)).quot (mag_nat (n := i + 1) (by omega) (by omega)) (by positivity) (by omega) (by norm_num) (by norm_num)
  exact (q.mono (k' := 2 * i + 7) (by omega) le_rfl le_rfl).within (by omega) (by push_cast; ring)

end Traquer.Regression
