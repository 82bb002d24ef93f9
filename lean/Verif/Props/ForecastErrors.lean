import Verif.Props.ShapeStats
import Verif.Props.Kendall
import Verif.Lemmas.Sign
import Verif.Lemmas.Indexed
import Verif.Lemmas.Cauchy
/-!
# C47, C48: the forecast error metrics
-/

namespace Traquer.Regression
open FP FloatLit

section anyF
variable {F : Type} [FloatOps F]

/-- What a running error reports at bar `i`: `fin` of the sum of the first `i + 1` errors and their number. -/
theorem runningError_at (err fin : F → F → F) (data estimate : List F) (i : ℕ) (y : F) (h : (runningError err fin data estimate)[i]? = some y) :
    y = fin (((data.zip estimate).take (i + 1)).foldl (fun s p => s + err p.1 p.2) 0) (flt (i + 1)) := by
  refine scan_idx (I := fun i s => s = ((data.zip estimate).take i).foldl (fun s p => s + err p.1 p.2) 0)
    (P := fun i y => y = fin (((data.zip estimate).take (i + 1)).foldl (fun s p => s + err p.1 p.2) 0) (flt (i + 1))) ?_ ?_ i y h
  · rintro i s ⟨j, p⟩ hx rfl
    rw [List.getElem?_zip_eq_some] at hx
    obtain ⟨h1, h2⟩ := hx
    have hj : j = i := by
      obtain ⟨_, h1⟩ := List.getElem?_eq_some_iff.1 h1
      simpa using h1.symm
    subst hj
    rw [foldl_take_succ _ _ _ _ h2]
    exact ⟨rfl, rfl⟩
  · simp

end anyF

section rounded
variable {ρ : Rounding}

/-- A running error whose increments have a clear sign. -/
theorem runningError_signClear {err fn : FP ρ → FP ρ → FP ρ} {data estimate : List (FP ρ)} (herr : ∀ o e, SignClear (err o e))
    (hfin : ∀ s n, SignClear s → SignClear n → SignClear (fn s n)) : ∀ y ∈ runningError err fn data estimate, NonNegOrNaN y := by
  intro y hy
  obtain ⟨i, hi⟩ := List.mem_iff_getElem?.1 hy
  rw [runningError_at _ _ _ _ _ _ hi]
  exact (hfin _ _ (SignClear.foldl (fun _ _ => herr _ _) signClear_zero) (signClear_flt _)).nonNeg

theorem signClear_hundred : SignClear (100 : FP ρ) := signClear_flt 100
theorem signClear_two : SignClear (2 : FP ρ) := signClear_flt 2

/-- C47, in every rounding and for every input: `mse` is never negative. -/
theorem mse_nonneg (data estimate : List (FP ρ)) : ∀ y ∈ mse data estimate, NonNegOrNaN y :=
  runningError_signClear (fun _ _ => signClear_sq _) fun _ _ => SignClear.div
/-- C47, in every rounding and for every input: `rmse` is never negative. -/
theorem rmse_nonneg (data estimate : List (FP ρ)) : ∀ y ∈ rmse data estimate, NonNegOrNaN y :=
  runningError_signClear (fun _ _ => signClear_sq _) fun _ _ hs hn => (hs.div hn).sqrt
/-- C47, in every rounding and for every input: `mae` is never negative. -/
theorem mae_nonneg (data estimate : List (FP ρ)) : ∀ y ∈ mae data estimate, NonNegOrNaN y :=
  runningError_signClear (fun _ _ => signClear_abs _) fun _ _ => SignClear.div
/-- C47, in every rounding and for every input: `mape` is never negative. -/
theorem mape_nonneg (data estimate : List (FP ρ)) : ∀ y ∈ mape data estimate, NonNegOrNaN y :=
  runningError_signClear (fun _ _ => signClear_abs _) fun _ _ hs hn => (signClear_hundred.mul hs).div hn
/-- C47, in every rounding and for every input: `smape` is never negative. -/
theorem smape_nonneg (data estimate : List (FP ρ)) : ∀ y ∈ smape data estimate, NonNegOrNaN y :=
  runningError_signClear (fun o e => (((signClear_abs _).div (((signClear_abs o).add (signClear_abs e)).div signClear_two)).fmax signClear_zero))
    fun _ _ hs hn => (signClear_hundred.mul hs).div hn

theorem mae_signClear (data estimate : List (FP ρ)) : ∀ y ∈ mae data estimate, SignClear y := by
  intro y hy
  obtain ⟨i, hi⟩ := List.mem_iff_getElem?.1 hy
  rw [runningError_at _ _ _ _ _ _ hi]
  exact SignClear.div (SignClear.foldl (fun _ _ => signClear_abs _) signClear_zero) (signClear_flt _)

theorem maeNaive_signClear (data : List (FP ρ)) : ∀ y ∈ maeNaive data, SignClear y := by
  intro y hy
  obtain ⟨i, hi⟩ := List.mem_iff_getElem?.1 hy
  exact scan_idx (I := fun _ s => SignClear s) (P := fun _ y => SignClear y)
    (fun _ s p _ hs => ⟨hs.add (signClear_abs _), (hs.add (signClear_abs _)).div (signClear_flt _)⟩) signClear_zero i y hi

/-- C47, in every rounding and for every input: `mase` is never negative. -/
theorem mase_nonneg (data estimate : List (FP ρ)) : ∀ y ∈ mase data estimate, NonNegOrNaN y := by
  intro y hy
  rcases List.mem_cons.1 hy with rfl | hy
  · exact .inl rfl
  · obtain ⟨p, hp, rfl⟩ := List.mem_map.1 hy
    exact ((mae_signClear _ _ _ (List.mem_of_mem_drop (List.of_mem_zip hp).1)).div (maeNaive_signClear _ _ (List.of_mem_zip hp).2)).nonNeg

/-- C47, in every rounding: `emae` of two series without negative values (no minus sign, NaN allowed) is never negative. -/
theorem emae_nonneg (data estimate : List (FP ρ)) (hd : ∀ x ∈ data, SignClear x) (he : ∀ x ∈ estimate, SignClear x) :
    ∀ y ∈ emae data estimate, NonNegOrNaN y := by
  intro y hy
  obtain ⟨i, hi⟩ := List.mem_iff_getElem?.1 hy
  refine scan_idx (I := fun _ s => SignClear s.1 ∧ SignClear s.2) (P := fun _ y => NonNegOrNaN y) ?_ ⟨signClear_zero, signClear_zero⟩ i y hi
  rintro i s ⟨a, e, n⟩ hx ⟨h1, h2⟩
  have hm := List.mem_of_getElem? hx
  rw [zip3_eq] at hm
  have ha := hd _ (List.of_mem_zip hm).1
  have hb := he _ (List.of_mem_zip (List.of_mem_zip hm).2).1
  have g1 := h1.add (signClear_abs (a - e))
  have g2 := h2.add (ha.fmax hb)
  exact ⟨⟨g1, g2⟩, (((g1.div g2).mul signClear_hundred).div (signClear_flt n)).nonNeg⟩

theorem zip_self_mem {α : Type} {l : List α} {p : α × α} (h : p ∈ l.zip l) : p.1 ∈ l ∧ p.2 = p.1 := by
  obtain ⟨i, hi⟩ := List.mem_iff_getElem?.1 h
  rw [List.getElem?_zip_eq_some] at hi
  exact ⟨List.mem_of_getElem? hi.1, Option.some.inj (hi.2.symm.trans hi.1)⟩

/-- A running error all of whose increments are zero. -/
theorem runningError_zero {err fn : FP ρ → FP ρ → FP ρ} {data : List (FP ρ)} (herr : ∀ o ∈ data, err o o = fin 0)
    (hfin : ∀ n, 1 ≤ n → fn (fin 0) (flt n) = fin 0) : ∀ y ∈ runningError err fn data data, y = fin 0 := by
  intro y hy
  obtain ⟨i, hi⟩ := List.mem_iff_getElem?.1 hy
  rw [runningError_at _ _ _ _ _ _ hi, zero_lit, foldl_zero]
  · exact hfin _ (by omega)
  · intro p hp
    obtain ⟨h1, h2⟩ := zip_self_mem (List.mem_of_mem_take hp)
    rw [h2]
    exact herr _ h1

/-- C47, in every rounding: a perfect forecast has `mse` zero. -/
theorem mse_perfect (data : List (FP ρ)) (h : Fins data) : ∀ y ∈ mse data data, y = fin 0 :=
  runningError_zero (fun o ho => by rw [sub_self_zero (h o ho), powi_two_zero]) fun _ => zero_div_flt
/-- C47, in every rounding: a perfect forecast has `rmse` zero. -/
theorem rmse_perfect (data : List (FP ρ)) (h : Fins data) : ∀ y ∈ rmse data data, y = fin 0 :=
  runningError_zero (fun o ho => by rw [sub_self_zero (h o ho), powi_two_zero]) fun _ hn => by rw [zero_div_flt hn, sqrt_zero']

theorem fabs_zero : fabs (fin 0 : FP ρ) = fin 0 := by
  show FP.abs _ = _
  simp [FP.abs]

/-- C47, in every rounding: a perfect forecast has `mae` zero. -/
theorem mae_perfect (data : List (FP ρ)) (h : Fins data) : ∀ y ∈ mae data data, y = fin 0 :=
  runningError_zero (fun o ho => by rw [sub_self_zero (h o ho), fabs_zero]) fun _ => zero_div_flt

theorem fabs_zero_div {o : FP ρ} (h : o.Finite) (h0 : o.val ≠ 0) : fabs ((fin 0 : FP ρ) / o) = fin 0 := by
  show FP.abs (FP.div _ _) = _
  cases o with
  | nan => exact absurd h (by simp [FP.Finite])
  | inf => exact absurd h (by simp [FP.Finite])
  | negz => exact absurd rfl h0
  | fin r =>
    have : r ≠ 0 := h0
    simp only [FP.div, FP.val, this, if_false, zero_div, mk, rnd_zero, if_true, lt_irrefl, true_and, false_or]
    split <;> simp [FP.abs]

/-- C47, in every rounding: a perfect forecast of non-zero actuals has `mape` zero. -/
theorem mape_perfect (data : List (FP ρ)) (h : Fins data) (h0 : ∀ o ∈ data, o.val ≠ 0) : ∀ y ∈ mape data data, y = fin 0 :=
  runningError_zero (fun o ho => by rw [sub_self_zero (h o ho), fabs_zero_div (h o ho) (h0 o ho)]) fun _ hn => by
    rw [hundred_mul_zero, zero_div_flt hn]

theorem fmax_zero_nan : fmax (FP.nan : FP ρ) 0 = fin 0 := by
  rw [← zero_lit]
  exact if_pos (FP.isNaN_iff.2 rfl)

/-- C47, in every rounding: a perfect forecast has `smape` zero (even where the actual is zero). -/
theorem smape_perfect (data : List (FP ρ)) (h : Fins data) : ∀ y ∈ smape data data, y = fin 0 :=
  runningError_zero (fun o ho => by
    rw [sub_self_zero (h o ho), fabs_zero]
    rcases zero_div_signClear (((signClear_abs o).add (signClear_abs o)).div signClear_two) with e | e
    · rw [e, fmax_zero_nan]
    · rw [e]
      rcases fmax_cases (fin 0 : FP ρ) 0 with e | e <;> rw [e]
      exact zero_lit) fun _ hn => by
    rw [hundred_mul_zero, zero_div_flt hn]

/-- C47, in every rounding: a perfect forecast has `mase` zero, or NaN where the naive forecast is perfect too. -/
theorem mase_perfect (data : List (FP ρ)) (h : Fins data) : ∀ y ∈ mase data data, y = FP.nan ∨ y = fin 0 := by
  intro y hy
  rcases List.mem_cons.1 hy with rfl | hy
  · exact .inl rfl
  · obtain ⟨p, hp, rfl⟩ := List.mem_map.1 hy
    have e := mae_perfect data h _ (List.mem_of_mem_drop (List.of_mem_zip hp).1)
    show p.1 / p.2 = _ ∨ p.1 / p.2 = _
    rw [e]
    exact zero_div_signClear (maeNaive_signClear _ _ (List.of_mem_zip hp).2)

end rounded

/-- The errors of the first `i + 1` estimates. -/
noncomputable def errors (f : ℝ → ℝ → ℝ) (ds es : List ℝ) (i : ℕ) : List ℝ := ((ds.zip es).take (i + 1)).map fun p => f p.1 p.2

theorem errors_length {f : ℝ → ℝ → ℝ} {ds es : List ℝ} {i : ℕ} (h : es.length = ds.length) (hi : i < ds.length) : (errors f ds es i).length = i + 1 := by
  simp [errors]; omega

/-- The exact value of a running error. -/
theorem runningError_is {err fn : XF → XF → XF} {f : ℝ → ℝ → ℝ} {v : ℕ → ℝ} {data estimate : List XF} (hl : estimate.length = data.length)
    (herr : ∀ o ∈ data, ∀ e ∈ estimate, err o e ⇓ f o.val e.val)
    (hfin : ∀ i s, i < data.length → s ⇓ (errors f (vals data) (vals estimate) i).sum → fn s (flt (i + 1)) ⇓ v i) :
    Reports data.length 0 v (some (runningError err fn data estimate)) := by
  have hlen := runningError_length err fn data estimate hl
  refine ⟨_, rfl, hlen, fun i h => by omega, fun i _ hi => ?_⟩
  obtain ⟨y, hy⟩ : ∃ y, (runningError err fn data estimate)[i]? = some y := ⟨_, List.getElem?_eq_getElem (by omega)⟩
  refine ⟨y, hy, ?_⟩
  rw [runningError_at _ _ _ _ _ _ hy]
  refine hfin i _ hi ?_
  refine (foldl_add_is (v := fun p : XF × XF => f p.1.val p.2.val) is_zero fun p hp => ?_).congr ?_
  · have := List.of_mem_zip (List.mem_of_mem_take hp)
    exact herr _ this.1 _ this.2
  · simp [errors, vals, List.zip_map, ← List.map_take, Function.comp_def]

section exact
variable (data estimate : List XF)

theorem mean_errors {f : ℝ → ℝ → ℝ} {i : ℕ} (hl : estimate.length = data.length) (hi : i < data.length) :
    mean (errors f (vals data) (vals estimate) i) = (errors f (vals data) (vals estimate) i).sum / ((i + 1 : ℕ) : ℝ) := by
  rw [mean, errors_length (by simpa [vals] using hl) (by simpa [vals] using hi)]

/-- C47: `mse` is the mean of the squared errors so far. -/
theorem mse_reports (hl : estimate.length = data.length) (hd : Fins data) (he : Fins estimate) :
    Reports data.length 0 (fun i => mean (errors (fun o e => (o - e) ^ 2) (vals data) (vals estimate) i)) (some (mse data estimate)) :=
  runningError_is hl (fun o ho e he' => is_powi 2 (is_sub (hd o ho).is (he e he').is)) fun i s hi hs => by
    rw [mean_errors _ _ hl hi]
    exact is_div hs (is_flt _) (by positivity)

/-- C47: `rmse` is the square root of the mean of the squared errors so far. -/
theorem rmse_reports (hl : estimate.length = data.length) (hd : Fins data) (he : Fins estimate) :
    Reports data.length 0 (fun i => Real.sqrt (mean (errors (fun o e => (o - e) ^ 2) (vals data) (vals estimate) i))) (some (rmse data estimate)) :=
  runningError_is hl (fun o ho e he' => is_powi 2 (is_sub (hd o ho).is (he e he').is)) fun i s hi hs => by
    rw [mean_errors _ _ hl hi]
    refine is_sqrt (is_div hs (is_flt _) (by positivity)) ?_
    refine div_nonneg (List.sum_nonneg fun x hx => ?_) (by positivity)
    obtain ⟨p, -, rfl⟩ := List.mem_map.1 hx
    exact sq_nonneg _

/-- C47: `mae` is the mean of the absolute errors so far. -/
theorem mae_reports (hl : estimate.length = data.length) (hd : Fins data) (he : Fins estimate) :
    Reports data.length 0 (fun i => mean (errors (fun o e => |o - e|) (vals data) (vals estimate) i)) (some (mae data estimate)) :=
  runningError_is hl (fun o ho e he' => is_abs (is_sub (hd o ho).is (he e he').is)) fun i s hi hs => by
    rw [mean_errors _ _ hl hi]
    exact is_div hs (is_flt _) (by positivity)

/-- C47: for non-zero actuals `mape` is a hundred times the mean of the relative errors so far. -/
theorem mape_reports (hl : estimate.length = data.length) (hd : Fins data) (he : Fins estimate) (h0 : ∀ o ∈ data, o.val ≠ 0) :
    Reports data.length 0 (fun i => 100 * mean (errors (fun o e => |(o - e) / o|) (vals data) (vals estimate) i)) (some (mape data estimate)) :=
  runningError_is hl (fun o ho e he' => is_abs (is_div (is_sub (hd o ho).is (he e he').is) (hd o ho).is (h0 o ho))) fun i s hi hs => by
    rw [mean_errors _ _ hl hi, ← mul_div_assoc]
    exact is_div (is_mul (is_lit 100) hs) (is_flt _) (by positivity)

/-- One term of `smape`: the error relative to the mean size of actual and estimate, zero if both are zero. -/
noncomputable def symErr (o e : ℝ) : ℝ := |o - e| / ((|o| + |e|) / 2)

theorem symErr_range (o e : ℝ) : 0 ≤ symErr o e ∧ symErr o e ≤ 2 := by
  refine ⟨by unfold symErr; positivity, ?_⟩
  rcases (by positivity : 0 ≤ |o| + |e|).eq_or_lt with h | h
  · simp [symErr, ← h]
  · rw [symErr, div_le_iff₀ (by linarith)]
    have := abs_sub o e
    linarith

theorem is_symErr {o e : XF} (ho : o.Finite) (he : e.Finite) : fmax (fabs (o - e) / ((fabs o + fabs e) / 2)) 0 ⇓ symErr o.val e.val := by
  have hn := is_abs (is_sub ho.is he.is)
  have hd := is_div (is_add (is_abs ho.is) (is_abs he.is)) (is_lit 2) (by norm_num)
  by_cases h : |o.val| + |e.val| = 0
  · have h1 : |o.val| = 0 := le_antisymm (by linarith [abs_nonneg e.val]) (abs_nonneg _)
    have h2 : |e.val| = 0 := by linarith
    have h3 : fabs (o - e) / ((fabs o + fabs e) / 2) = FP.nan := by
      refine (quotIs hn hd).2.1 (by simp [h1, h2]) ?_
      rw [abs_eq_zero] at h1 h2 ⊢
      rw [h1, h2, sub_zero]
    rw [h3, fmax_zero_nan, symErr, h1, h2]
    simpa using is_fin (ρ := Rounding.exact) 0
  · refine (is_fmax (is_div hn hd (by simpa using h)) is_zero).congr ?_
    exact max_eq_left (symErr_range _ _).1

/-- C48: `smape` is a hundred times the mean of the symmetric relative errors so far. -/
theorem smape_reports (hl : estimate.length = data.length) (hd : Fins data) (he : Fins estimate) :
    Reports data.length 0 (fun i => 100 * mean (errors symErr (vals data) (vals estimate) i)) (some (smape data estimate)) :=
  runningError_is hl (fun o ho e he' => is_symErr (hd o ho) (he e he')) fun i s hi hs => by
    rw [mean_errors _ _ hl hi, ← mul_div_assoc]
    exact is_div (is_mul (is_lit 100) hs) (is_flt _) (by positivity)

theorem mean_range {l : List ℝ} {a b : ℝ} (hl : l ≠ []) (h : ∀ x ∈ l, a ≤ x ∧ x ≤ b) : a ≤ mean l ∧ mean l ≤ b := by
  have hp : (0 : ℝ) < l.length := by
    have := List.length_pos_iff.2 hl
    exact_mod_cast this
  have h1 := List.card_nsmul_le_sum l a fun x hx => (h x hx).1
  have h2 := List.sum_le_card_nsmul l b fun x hx => (h x hx).2
  rw [nsmul_eq_mul] at h1 h2
  constructor
  · rw [mean, le_div_iff₀ hp]; linarith
  · rw [mean, div_le_iff₀ hp]; linarith

/-- C48: `smape` lies between 0 and 200 for every pair of finite series. -/
theorem smape_range (hl : estimate.length = data.length) (hd : Fins data) (he : Fins estimate) :
    ReportsP data.length 0 (fun _ => InRange 0 200) (some (smape data estimate)) := by
  obtain ⟨out, e, h1, h2, h3⟩ := smape_reports data estimate hl hd he
  refine ⟨out, e, h1, h2, fun i h0 hi => ?_⟩
  obtain ⟨y, hy, hv⟩ := h3 i h0 hi
  refine ⟨y, hy, .inr ⟨_, hv, ?_⟩⟩
  have := mean_range (l := errors symErr (vals data) (vals estimate) i) (a := 0) (b := 2)
    (List.ne_nil_of_length_pos (by rw [errors_length (by simpa [vals] using hl) (by simpa [vals] using hi)]; omega)) (fun x hx => by
      obtain ⟨p, -, rfl⟩ := List.mem_map.1 hx
      exact symErr_range _ _)
  constructor <;> linarith [this.1, this.2]

/-- C48, where the code and its documentation part: the documented upper bound 100 fails, `smape` reports 200 for an actual of 1 and an
estimate of -1. -/
theorem smape_reaches_200 : ∃ y : XF, smape [fin 1] [fin (-1)] = [y] ∧ y ⇓ 200 := by
  obtain ⟨out, e, h1, -, h3⟩ := smape_reports [fin 1] [fin (-1)] rfl (by simp [Fins, FP.Finite]) (by simp [Fins, FP.Finite])
  obtain ⟨y, hy, hv⟩ := h3 0 le_rfl (by simp)
  refine ⟨y, ?_, hv.congr ?_⟩
  · rw [Option.some.inj e]
    match out, h1, hy with
    | [z], _, hy => simpa using hy
  · norm_num [errors, vals, FP.val, mean, symErr]

/-- C47: `rmse` is at least `mae`, bar by bar, for every pair of finite series. -/
theorem rmse_ge_mae (hl : estimate.length = data.length) (hd : Fins data) (he : Fins estimate) (i : ℕ) (hi : i < data.length) :
    ∃ y z a b, (mae data estimate)[i]? = some y ∧ (rmse data estimate)[i]? = some z ∧ y ⇓ a ∧ z ⇓ b ∧ a ≤ b := by
  obtain ⟨_, e, -, -, h3⟩ := mae_reports data estimate hl hd he
  cases e
  obtain ⟨_, e, -, -, h4⟩ := rmse_reports data estimate hl hd he
  cases e
  obtain ⟨y, hy, hv⟩ := h3 i (Nat.zero_le _) hi
  obtain ⟨z, hz, hw⟩ := h4 i (Nat.zero_le _) hi
  refine ⟨y, z, _, _, hy, hz, hv, hw, Real.le_sqrt_of_sq_le ?_⟩
  show mean (errors _ _ _ i) ^ 2 ≤ _
  rw [mean_errors _ _ hl hi, mean_errors _ _ hl hi, div_pow, div_le_div_iff₀ (by positivity) (by positivity)]
  have hc := cauchy (((vals data).zip (vals estimate)).take (i + 1)) (fun p => |p.1 - p.2|) (fun _ => 1)
  have hlen : (((vals data).zip (vals estimate)).take (i + 1)).length = i + 1 := by simp [vals]; omega
  simp only [mul_one, one_pow, List.map_const', List.sum_replicate, hlen, nsmul_eq_mul, sq_abs] at hc
  have : (0 : ℝ) ≤ ((i + 1 : ℕ) : ℝ) := by positivity
  simp only [errors]
  nlinarith

/-- C47: for positive actuals a perfect forecast has `emae` zero. -/
theorem emae_perfect (hd : Fins data) (h0 : ∀ o ∈ data, 0 < o.val) : ∀ y ∈ emae data data, y ⇓ 0 := by
  intro y hy
  obtain ⟨i, hi⟩ := List.mem_iff_getElem?.1 hy
  refine scan_idx (I := fun i s => s.1 ⇓ 0 ∧ ∃ u, s.2 ⇓ u ∧ 0 ≤ u) (P := fun _ y => y ⇓ 0) ?_ ⟨is_zero, 0, is_zero, le_rfl⟩ i y hi
  rintro i s ⟨a, e, n⟩ hx ⟨h1, u, h2, hu⟩
  rw [zip3_getElem?] at hx
  obtain ⟨ha, hb, hn⟩ := hx
  cases ha.symm.trans hb
  have hm := List.mem_of_getElem? ha
  have hn : 1 ≤ n := by
    obtain ⟨_, hn⟩ := List.getElem?_eq_some_iff.1 hn
    rw [List.getElem_range'] at hn
    omega
  have g1 := is_add h1 (is_abs (is_sub (hd a hm).is (hd a hm).is))
  have g2 := is_add h2 (is_fmax (hd a hm).is (hd a hm).is)
  have hp := h0 a hm
  rw [max_self] at g2
  refine ⟨⟨g1.congr (by simp), _, g2, by linarith⟩, ?_⟩
  refine (is_div (is_mul (is_div g1 g2 (by linarith)) (is_lit 100)) (is_flt n) (by positivity)).congr ?_
  simp

/-- The absolute changes of a series up to bar `i`: the errors of the naive forecast. -/
noncomputable def absChanges (ds : List ℝ) (i : ℕ) : List ℝ := (List.range i).map fun j => |ds.getD (j + 1) 0 - ds.getD j 0|

theorem maeNaive_is (hd : Fins data) (i : ℕ) (y : XF) (hy : (maeNaive data)[i]? = some y) : y ⇓ mean (absChanges (vals data) (i + 1)) := by
  refine scan_idx (I := fun i s => s ⇓ (absChanges (vals data) i).sum) (P := fun i y => y ⇓ mean (absChanges (vals data) (i + 1))) ?_
    (by simpa [absChanges] using is_zero) i y hy
  rintro i s ⟨j, a, b⟩ hx hs
  rw [List.getElem?_zip_eq_some, pairs_eq_zip, List.getElem?_zip_eq_some] at hx
  obtain ⟨hj, ha, hb⟩ := hx
  have hj : j = i := by
    obtain ⟨_, hj⟩ := List.getElem?_eq_some_iff.1 hj
    simpa using hj.symm
  subst hj
  have hb : data[j + 1]? = some b := by rw [← hb]; simp
  have g : ∀ {l : List XF} {j : ℕ} {x : XF}, l[j]? = some x → (vals l).getD j 0 = x.val := fun h => by simp [vals, h]
  have key : s + fabs (b - a) ⇓ (absChanges (vals data) (j + 1)).sum := by
    refine (is_add hs (is_abs (is_sub (hd _ (List.mem_of_getElem? hb)).is (hd _ (List.mem_of_getElem? ha)).is))).congr ?_
    simp only [absChanges, List.range_succ, List.map_append, List.sum_append, List.map_cons, List.map_nil, List.sum_cons, List.sum_nil,
      add_zero, g ha, g hb]
  refine ⟨key, (is_div key (is_flt (j + 1)) (by positivity)).congr ?_⟩
  simp [mean, absChanges]

/-- C47: `mase` is the mean absolute error so far over the mean absolute change so far, the error of the naive forecast. -/
theorem mase_reports (hl : estimate.length = data.length) (hn : 1 ≤ data.length) (hd : Fins data) (he : Fins estimate) :
    ReportsP data.length 1 (fun i => QuotIs (mean (errors (fun o e => |o - e|) (vals data) (vals estimate) i)) (mean (absChanges (vals data) i)))
      (some (mase data estimate)) := by
  refine (mase_aligned data estimate hl hn).reportsP fun out ho i y hi hy => ?_
  cases ho
  obtain ⟨i, rfl⟩ : ∃ j, i = j + 1 := ⟨i - 1, by omega⟩
  rw [mase, List.getElem?_cons_succ, List.getElem?_map, Option.map_eq_some_iff] at hy
  obtain ⟨⟨a, b⟩, h1, rfl⟩ := hy
  rw [List.getElem?_zip_eq_some] at h1
  obtain ⟨h1, h2⟩ := h1
  rw [List.getElem?_drop] at h1
  refine quotIs ?_ (maeNaive_is _ hd _ _ h2)
  obtain ⟨_, e, hlen, -, h3⟩ := mae_reports data estimate hl hd he
  cases e
  have hlt := (List.getElem?_eq_some_iff.1 h1).1
  obtain ⟨z, hz, hv⟩ := h3 (1 + i) (by omega) (by omega)
  cases h1.symm.trans hz
  rwa [add_comm] at hv

/-- C47: `emae` is a hundred times the sum of the absolute errors over the sum of the larger of actual and estimate, over their number. -/
theorem emae_reports (hd : Fins data) (he : Fins estimate) (i : ℕ) (y : XF) (hy : (emae data estimate)[i]? = some y)
    (h0 : (errors max (vals data) (vals estimate) i).sum ≠ 0) :
    y ⇓ (errors (fun o e => |o - e|) (vals data) (vals estimate) i).sum / (errors max (vals data) (vals estimate) i).sum * 100 / (i + 1 : ℕ) := by
  have sumErr : ∀ f : ℝ → ℝ → ℝ, ∀ i a e, data[i]? = some a → estimate[i]? = some e → (errors f (vals data) (vals estimate) i).sum =
      ((((vals data).zip (vals estimate)).take i).map fun p => f p.1 p.2).sum + f a.val e.val := by
    intro f i a e ha hb
    have : ((vals data).zip (vals estimate))[i]? = some (a.val, e.val) := by
      rw [List.getElem?_zip_eq_some]; simp [vals, ha, hb]
    simp [errors, List.take_add_one, this]
  refine scan_idx (I := fun i s => s.1 ⇓ ((((vals data).zip (vals estimate)).take i).map fun p => |p.1 - p.2|).sum ∧
      s.2 ⇓ ((((vals data).zip (vals estimate)).take i).map fun p => max p.1 p.2).sum)
    (P := fun i y => (errors max (vals data) (vals estimate) i).sum ≠ 0 →
      y ⇓ (errors (fun o e => |o - e|) (vals data) (vals estimate) i).sum / (errors max (vals data) (vals estimate) i).sum * 100 / (i + 1 : ℕ))
    ?_ (by simpa using is_zero) i y hy h0
  rintro i s ⟨a, e, n⟩ hx ⟨h1, h2⟩
  rw [zip3_getElem?] at hx
  obtain ⟨ha, hb, hn⟩ := hx
  have hn : n = i + 1 := by
    obtain ⟨_, hn⟩ := List.getElem?_eq_some_iff.1 hn
    rw [List.getElem_range'] at hn
    omega
  subst hn
  have g1 := is_add h1 (is_abs (is_sub (hd a (List.mem_of_getElem? ha)).is (he e (List.mem_of_getElem? hb)).is))
  have g2 := is_add h2 (is_fmax (hd a (List.mem_of_getElem? ha)).is (he e (List.mem_of_getElem? hb)).is)
  rw [← sumErr (fun o e => |o - e|) i a e ha hb] at g1
  rw [← sumErr max i a e ha hb] at g2
  refine ⟨⟨g1, g2⟩, fun h0 => ?_⟩
  exact is_div (is_mul (is_div g1 g2 h0) (is_lit 100)) (is_flt _) (by positivity)

end exact

section mda
variable {ρ : Rounding}

/-- The state of `mda` after `i` comparisons and what it reports for them. -/
theorem mda_at {F : Type} [FloatOps F] {I : ℕ → F → Prop} {P : ℕ → F → Prop} {data estimate : List F} (hl : estimate.length = data.length)
    (h0 : I 0 0) (hstep : ∀ i s d e p, data[i + 1]? = some d → estimate[i + 1]? = some e → data[i]? = some p → I i s →
      I (i + 1) (s + boolF (signum (d - p) ==. signum (e - p))) ∧
        P (i + 1) ((s + boolF (signum (d - p) ==. signum (e - p))) / flt (i + 1)))
    {out : List F} (ho : mda data estimate = some out) (i : ℕ) (y : F) (hi : 1 ≤ i) (hy : out[i]? = some y) : P i y := by
  match data, hl with
  | [], _ => simp [mda, sliceFrom] at ho
  | a :: data, hl =>
    match estimate, hl with
    | b :: estimate, hl =>
      simp only [mda, sliceFrom, List.length_cons, Nat.le_add_left, if_true, List.drop_succ_cons, List.drop_zero, Option.bind_eq_bind,
        Option.bind_some, List.getElem?_cons_zero, Option.some.injEq] at ho
      subst ho
      obtain ⟨i, rfl⟩ : ∃ j, i = j + 1 := ⟨i - 1, by omega⟩
      rw [List.getElem?_cons_succ] at hy
      refine scan_idx (I := fun i s => I i s.1 ∧ (a :: data)[i]? = some s.2) (P := fun i y => P (i + 1) y) ?_ ⟨h0, rfl⟩ i y hy
      rintro i s ⟨j, d, e⟩ hx ⟨h1, h2⟩
      rw [List.getElem?_zip_eq_some, List.getElem?_zip_eq_some] at hx
      obtain ⟨hj, hd, he⟩ := hx
      have hj : j = i := by
        obtain ⟨_, hj⟩ := List.getElem?_eq_some_iff.1 hj
        simpa using hj.symm
      subst hj
      obtain ⟨g1, g2⟩ := hstep j s.1 d e s.2 (by simpa using hd) (by simpa using he) h2 h1
      exact ⟨⟨g1, by simpa using hd⟩, g2⟩

/-- C47, in every rounding: `mda` is a fraction between 0 and 1, for every input without exception (up to 2^53 bars). -/
theorem mda_range (data estimate : List (FP ρ)) (hl : estimate.length = data.length) (hn : 1 ≤ data.length) (hb : data.length ≤ 2 ^ 53) :
    ReportsP data.length 1 (fun _ y => ∃ r, y ⇓ r ∧ 0 ≤ r ∧ r ≤ 1) (mda data estimate) := by
  refine (mda_aligned data estimate hl hn).reportsP fun out ho i y hi hy => ?_
  refine mda_at (I := fun i s => ∃ c : ℕ, s ⇓ (c : ℝ) ∧ c ≤ i) (P := fun _ y => ∃ r, y ⇓ r ∧ 0 ≤ r ∧ r ≤ 1) hl ⟨0, by simpa using isZero, le_rfl⟩ ?_ ho i y hi hy
  rintro i s d e p hd - - ⟨c, hc, hci⟩
  have hi : i + 1 < data.length := (List.getElem?_eq_some_iff.1 hd).1
  obtain ⟨b, hb', hb1⟩ : ∃ b : ℕ, (boolF (signum (d - p) ==. signum (e - p)) : FP ρ) ⇓ (b : ℝ) ∧ b ≤ 1 := by
    cases (signum (d - p) ==. signum (e - p))
    · exact ⟨0, isFlt (n := 0) (by norm_num), by omega⟩
    · exact ⟨1, isFlt (n := 1) (by norm_num), le_rfl⟩
  have key : s + boolF (signum (d - p) ==. signum (e - p)) ⇓ ((c + b : ℕ) : ℝ) := by
    obtain ⟨sg, h⟩ := rounds_add hc hb'
    rw [h]
    have e : ρ.rnd ((c : ℝ) + b) = (c + b : ℕ) := by
      have := ρ.nat (c + b) (by omega)
      simpa using this
    exact (mk_is (by rw [e]; exact ρ.fits_nat (c + b) (by omega))).congr e
  refine ⟨⟨c + b, key, by omega⟩, ?_⟩
  have := (rounds_div key (isFlt (n := i + 1) (by omega)) (by positivity)).between (n := 1) (by norm_num) (by positivity)
    (by rw [div_le_iff₀ (by positivity)]; exact_mod_cast (by omega : c + b ≤ 1 * (i + 1)))
  simpa using this

/-- How many of the estimates for the bars 1 to `i` go the same way from the previous actual as the actual: both below it or both not below. -/
noncomputable def directionHits (ds es : List ℝ) (i : ℕ) : ℕ :=
  (List.range i).countP fun j => decide (ds.getD (j + 1) 0 < ds.getD j 0 ↔ es.getD (j + 1) 0 < ds.getD j 0)

/-- C47, C49: `mda` is the share of the estimates so far that go the way of the actual, an unchanged value counting as a rise (for finite
series without a negative zero). -/
theorem mda_reports (data estimate : List XF) (hl : estimate.length = data.length) (hn : 1 ≤ data.length) (hd : Fins data) (he : Fins estimate)
    (zd : ∀ x ∈ data, x ≠ negz) (ze : ∀ x ∈ estimate, x ≠ negz) :
    Reports data.length 1 (fun i => directionHits (vals data) (vals estimate) i / i) (mda data estimate) := by
  refine (mda_aligned data estimate hl hn).reportsP fun out ho i y hi hy => ?_
  refine mda_at (I := fun i s => s ⇓ (directionHits (vals data) (vals estimate) i : ℝ))
    (P := fun i y => y ⇓ (directionHits (vals data) (vals estimate) i : ℝ) / i) hl (by simpa [directionHits] using is_zero) ?_ ho i y hi hy
  intro i s d e p e1 e2 e3 hs
  have md := List.mem_of_getElem? e1
  have me := List.mem_of_getElem? e2
  have mp := List.mem_of_getElem? e3
  have s1 := Correlation.signum_sub (hd _ md).is (hd _ mp).is (.inr (zd _ md))
  have s2 := Correlation.signum_sub (he _ me).is (hd _ mp).is (.inr (ze _ me))
  have key : s + boolF (signum (d - p) ==. signum (e - p)) ⇓ (directionHits (vals data) (vals estimate) (i + 1) : ℝ) := by
    rw [is_feq s1 s2]
    refine (is_add hs (Correlation.is_boolF_dec _)).congr ?_
    have g : ∀ {l : List XF} {j : ℕ} {x : XF}, l[j]? = some x → (vals l).getD j 0 = x.val := fun h => by
      simp [vals, h]
    simp only [directionHits, List.range_succ, List.countP_append, List.countP_cons, List.countP_nil, g e1, g e2, g e3, Nat.cast_add, zero_add]
    congr 1
    by_cases c1 : d.val < p.val <;> by_cases c2 : e.val < p.val <;> simp [c1, c2] <;> norm_num
  exact ⟨key, is_div key (is_flt _) (by positivity)⟩

end mda

section examples

example : ∀ y ∈ mae [fin 3, FP.nan, fin 2] [fin 1, fin 1, (inf true : XF)], NonNegOrNaN y := mae_nonneg _ _
example : ∀ y ∈ emae [fin 3, FP.nan, fin 2] [fin 1, fin 1, (inf false : XF)], NonNegOrNaN y :=
  emae_nonneg _ _ (by rintro x hx; fin_cases hx <;> simp [SignClear]) (by rintro x hx; fin_cases hx <;> simp [SignClear])
example : ∀ y ∈ mape [fin 3, fin (-2)] [fin 3, (fin (-2) : XF)], y = fin 0 :=
  mape_perfect _ (by simp [Fins, FP.Finite]) (by simp [FP.val])
example : ∀ y ∈ emae [fin 3, fin 2] [fin 3, (fin 2 : XF)], y ⇓ 0 := emae_perfect _ (by simp [Fins, FP.Finite]) (by simp [FP.val])
example : ReportsP 3 0 (fun _ => InRange 0 200) (some (smape [fin 1, fin 0, fin 3] [fin 2, fin 0, (fin (-3) : XF)])) :=
  smape_range _ _ rfl (by simp [Fins, FP.Finite]) (by simp [Fins, FP.Finite])
example : ReportsP 3 1 (fun _ y => ∃ r, y ⇓ r ∧ 0 ≤ r ∧ r ≤ 1) (mda [fin 1, FP.nan, fin 3] [fin 2, fin 0, (fin (-3) : XF)]) :=
  mda_range _ _ rfl (by simp) (by norm_num)
/-- On the way 1, 1, 2 the estimates 0, 3 hit once: the unchanged bar counts as a rise, which the estimate missed. -/
example : Reports 3 1 (fun i => directionHits [1, 1, 2] [5, 0, 3] i / i) (mda [fin 1, fin 1, fin 2] [fin 5, fin 0, (fin 3 : XF)]) := by
  have := mda_reports [fin 1, fin 1, fin 2] [fin 5, fin 0, fin 3] rfl (by simp) (by simp [Fins, FP.Finite]) (by simp [Fins, FP.Finite])
    (by simp) (by simp)
  simpa [vals, FP.val] using this
example : ∃ y z a b, (mae [fin 1, fin 2] [fin 0, (fin 4 : XF)])[1]? = some y ∧ (rmse [fin 1, fin 2] [fin 0, (fin 4 : XF)])[1]? = some z ∧
    y ⇓ a ∧ z ⇓ b ∧ a ≤ b :=
  rmse_ge_mae [fin 1, fin 2] [fin 0, fin 4] rfl (by simp [Fins, FP.Finite]) (by simp [Fins, FP.Finite]) 1 (by simp)

example : ReportsP 3 1 (fun i => QuotIs (mean (errors (fun o e => |o - e|) [1, 2, 4] [1, 1, 1] i)) (mean (absChanges [1, 2, 4] i)))
    (some (mase [fin 1, fin 2, fin 4] [fin 1, fin 1, (fin 1 : XF)])) := by
  have := mase_reports [fin 1, fin 2, fin 4] [fin 1, fin 1, fin 1] rfl (by simp) (by simp [Fins, FP.Finite]) (by simp [Fins, FP.Finite])
  simpa [vals, FP.val] using this
example (y : XF) (hy : (emae [fin 1, fin 2] [fin 1, fin 3])[1]? = some y) : y ⇓ 1 / 4 * 100 / 2 := by
  have := emae_reports [fin 1, fin 2] [fin 1, fin 3] (by simp [Fins, FP.Finite]) (by simp [Fins, FP.Finite]) 1 y hy
    (by norm_num [errors, vals, FP.val])
  norm_num [errors, vals, FP.val] at this ⊢
  exact this

end examples

end Traquer.Regression
