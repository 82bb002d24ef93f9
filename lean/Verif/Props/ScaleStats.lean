import Verif.Props.ScaleVolatility
import Verif.Model.Regression
/-!
# C78: a change of units, statistics
-/

namespace Traquer.Distribution
open FP FloatLit
variable {ρ : Rounding} {k : ℝ} [ρ.Scales k] {data data' estimate estimate' : List (FP ρ)}

theorem variance_units (h0 : Each (Scaled k 1) data data') (window : ℕ) :
    Alike (Each (Scaled k 2)) (variance data window) (variance data' window) := by
  units [variance, winMean, powDev]

units_rule variance_units

theorem zscore_units (h0 : Each (Scaled k 1) data data') (window : ℕ) :
    Alike (Each (Scaled k 0)) (zscore data window) (zscore data' window) := by
  units [zscore, winMean, powDev]

units_rule zscore_units

theorem mad_units (h0 : Each (Scaled k 1) data data') (window : ℕ) :
    Alike (Each (Scaled k 1)) (mad data window) (mad data' window) := by
  units [mad, winMean]

units_rule mad_units

theorem cv_units (h0 : Each (Scaled k 1) data data') (window : ℕ) :
    Alike (Each (Scaled k 0)) (cv data window) (cv data' window) := by
  units [cv, winMean, powDev]

units_rule cv_units

theorem kurtosis_units (h0 : Each (Scaled k 1) data data') (window : ℕ) :
    Alike (Each (Scaled k 0)) (kurtosis data window) (kurtosis data' window) := by
  units [kurtosis, winMean, powDev]

units_rule kurtosis_units

/-- `x.powf(1.5)` turns a squared price into a cubed one. -/
theorem powf_three_halves (h3 : (3 / 2 : FP ρ) = FP.fin (3 / 2)) {x x' : FP ρ} (h : Scaled k 2 x x') :
    Scaled k 3 (powf x (3 / 2)) (powf x' (3 / 2)) := by
  have kp : 0 < k := Rounding.Scales.pos ρ
  have k2 : 0 < k ^ (2 : ℤ) := by positivity
  have odd : ¬ ∃ n : ℤ, (3 / 2 : ℝ) = 2 * n + 1 := by
    rintro ⟨n, hn⟩
    have : (4 * n + 2 : ℤ) = 3 := by
      have : (4 * n + 2 : ℝ) = 3 := by linarith
      exact_mod_cast this
    omega
  have key : ∀ r : ℝ, powf (FP.fin r : FP ρ) (3 / 2) = if r = 0 then FP.fin 0 else if 0 < r then FP.mk false (r ^ (3 / 2 : ℝ)) else nan := by
    intro r
    have int : ¬ ∃ n : ℤ, (3 / 2 : ℝ) = n := by
      rintro ⟨n, hn⟩
      have : (2 * n : ℤ) = 3 := by
        have : (2 * n : ℝ) = 3 := by linarith
        exact_mod_cast this
      omega
    rw [h3]
    show FP.powf _ _ = _
    unfold FP.powf
    by_cases r1 : r = 1
    · subst r1
      have : (FP.mk false ((1 : ℝ) ^ (3 / 2 : ℝ)) : FP ρ) = FP.fin 1 := by
        have h1 : ρ.rnd 1 = 1 := by exact_mod_cast ρ.nat 1 (by norm_num)
        have h2 : ρ.fits 1 := by exact_mod_cast ρ.fits_nat 1 (by norm_num)
        rw [Real.one_rpow, FP.mk, h1, if_neg one_ne_zero, if_pos h2]
      rw [this]; simp
    · have : ¬ ((FP.fin (3 / 2) : FP ρ) = FP.fin 0 ∨ (FP.fin (3 / 2) : FP ρ) = FP.negz ∨ (FP.fin r : FP ρ) = FP.fin 1) := by
        simp [r1]
      rw [if_neg this]
      simp only [FP.val, odd, int, if_false, and_false, show ¬ ((3 / 2 : ℝ) < 0) by norm_num]
      rfl
  have e : x' = x.scaled (k ^ (2 : ℤ)) := h
  subst e
  rcases x with _ | b | _ | r
  · rw [Scaled, h3]
    show FP.powf FP.nan _ = (FP.powf FP.nan _).scaled _
    simp [FP.powf]
  · rw [Scaled, h3]
    show FP.powf (FP.inf b) _ = (FP.powf (FP.inf b) _).scaled _
    simp [FP.powf, show ¬ ((3 / 2 : ℝ) < 0) by norm_num]
  · rw [Scaled, h3]
    show FP.powf FP.negz _ = (FP.powf FP.negz _).scaled _
    simp [FP.powf, FP.val, FP.sgn, odd, show ¬ ((3 / 2 : ℝ) < 0) by norm_num]
  · rw [Scaled, scaled_fin, key, key]
    by_cases r0 : r = 0
    · simp [r0]
    · have : k ^ (2 : ℤ) * r ≠ 0 := mul_ne_zero k2.ne' r0
      rw [if_neg r0, if_neg this]
      by_cases rp : 0 < r
      · rw [if_pos rp, if_pos (mul_pos k2 rp), Real.mul_rpow k2.le rp.le]
        have : (k ^ (2 : ℤ)) ^ (3 / 2 : ℝ) = k ^ (3 : ℤ) := by
          rw [← Real.rpow_intCast, ← Real.rpow_intCast, ← Real.rpow_mul kp.le]; norm_num
        rw [this]
        exact scaled_mk _ _
      · rw [if_neg rp, if_neg (fun h => rp ((mul_pos_iff_of_pos_left k2).1 h))]
        rfl


/-- The exponent `3.0 / 2.0` has to be exact. -/
theorem skew_units (h3 : (3 / 2 : FP ρ) = FP.fin (3 / 2)) (h0 : Each (Scaled k 1) data data') (window : ℕ) :
    Alike (Each (Scaled k 0)) (skew data window) (skew data' window) := by
  simp only [skew, Option.bind_eq_bind]
  refine Alike.bind .same (forall_eq_rel fun n => Alike.bind (.windows h0) fun ws ws' hw =>
    Alike.bind (Alike.mapP (Q := Scaled k 0) hw fun w w' h => Alike.bind .same (forall_eq_rel fun m => .answer ?_)) fun _ _ h => .answer (each_append (each_nans _) h))
  have e2 : Scaled k 2 (powDev w (winMean w window) 2 / flt window) (powDev w' (winMean w' window) 2 / flt window) := by
    units [powDev, winMean]
  have e3 : Scaled k 3 (powDev w (winMean w window) 3 / flt window) (powDev w' (winMean w' window) 3 / flt window) := by
    units [powDev, winMean]
  exact (Scaled.lit.mul e3 rfl).div (powf_three_halves h3 e2) rfl

theorem templMatch_units {tol tol' : FP ρ} (h : Each (Scaled k 1) data data') (ht : Scaled k 1 tol tol') (m i j : ℕ) :
    templMatch data m tol i j = templMatch data' m tol' i j := by
  simp only [templMatch]
  exact (Scaled.foldl_fmax .nan (each_map (Q := Scaled k 1) (each_zip (each_take _ (each_drop _ h)) (each_take _ (each_drop _ h))) fun _ _ h => (h.1.sub h.2).fabs)).le ht

theorem tolOr_units {tol tol' : Option (FP ρ)} (h : Each (Scaled k 1) data data') (ht : Alike (Scaled k 1) tol tol') :
    Alike (Scaled k 1) (tolOr data tol) (tolOr data' tol') := by
  cases ht with
  | panic => simp only [tolOr, Option.bind_eq_bind, h.length]; repeat' units_step
  | answer h => exact .answer h

/-- A given tolerance is a price difference and has to be converted; the default one is computed from the data. -/
theorem approx_entropy_units {tolerance tolerance' : Option (FP ρ)} (h : Each (Scaled k 1) data data') (ht : Alike (Scaled k 1) tolerance tolerance')
    (window : ℕ) (runLength : Option ℕ) :
    Alike (Each (Scaled k 0)) (approx_entropy data window runLength tolerance) (approx_entropy data' window runLength tolerance') := by
  simp only [approx_entropy, Option.bind_eq_bind]
  refine Alike.bind (tolOr_units h ht) fun t t' ht => Alike.bind .same (forall_eq_rel fun n => Alike.bind (.windows h) fun ws ws' hw =>
    Alike.bind (Alike.mapP (Q := Scaled k 0) hw fun w w' h => ?_) fun _ _ h => .answer (each_append (each_nans _) h))
  have e : ∀ m, phi w m t = phi w' m t' := by
    intro m
    have : ∀ i, templMatch w m t i = templMatch w' m t' i := fun i => funext fun j => templMatch_units h ht m i j
    simp only [phi, h.length, this]
  rw [e, e]
  exact Alike.refl fun _ => .lit

theorem sample_entropy_units {tolerance tolerance' : Option (FP ρ)} (h : Each (Scaled k 1) data data') (ht : Alike (Scaled k 1) tolerance tolerance')
    (window : ℕ) (runLength : Option ℕ) :
    Alike (Each (Scaled k 0)) (sample_entropy data window runLength tolerance) (sample_entropy data' window runLength tolerance') := by
  simp only [sample_entropy, Option.bind_eq_bind]
  refine Alike.bind (tolOr_units h ht) fun t t' ht => Alike.bind .same (forall_eq_rel fun n => Alike.bind (.windows h) fun ws ws' hw =>
    Alike.bind (Alike.mapP (Q := Scaled k 0) hw fun w w' h => ?_) fun _ _ h => .answer (each_append (each_nans _) h))
  have e : ∀ m, matchCount w m t = matchCount w' m t' := by
    intro m
    have : ∀ i j, templMatch w m t i j = templMatch w' m t' i j := fun i j => templMatch_units h ht m i j
    simp only [matchCount, h.length, this]
  rw [e, e]
  exact Alike.refl fun _ => .lit

section
variable {T T' : Type} {P : T → T' → Prop} {lt : T → T → Bool} {lt' : T' → T' → Bool}

theorem swap_rel {l : List T} {l' : List T'} (h : Each P l l') (i j : ℕ) : Alike (Each P) (swap l i j) (swap l' i j) := by
  simp only [swap, Option.bind_eq_bind]
  exact Alike.bind (.getElem? h rfl) fun _ _ ha => Alike.bind (.getElem? h rfl) fun _ _ hb => .answer (each_set (each_set h rfl hb) rfl ha)

variable (hlt : ∀ x x', P x x' → ∀ y y', P y y' → lt x y = lt' x' y')
include hlt

theorem lomuto_rel {p : T} {p' : T'} (hp : P p p') (n j i : ℕ) {l : List T} {l' : List T'} (h : Each P l l') :
    Alike (Both (Each P) Eq) (lomuto lt p n j i l) (lomuto lt' p' n j i l') := by
  induction n generalizing j i l l' with
  | zero => exact .answer ⟨h, rfl⟩
  | succ n ih =>
    simp only [lomuto, Option.bind_eq_bind]
    refine Alike.bind (.getElem? h rfl) fun x x' hx => Alike.ite (by rw [hlt _ _ hx _ _ hp]) (Alike.bind (swap_rel h _ _) fun _ _ h => ih _ _ h) (ih _ _ h)

theorem quickselectLoop_rel (m fuel lo hi : ℕ) {l : List T} {l' : List T'} (h : Each P l l') :
    Alike (Both (Each P) P) (quickselectLoop lt m fuel lo hi l) (quickselectLoop lt' m fuel lo hi l') := by
  induction fuel generalizing lo hi l l' with
  | zero => exact .panic
  | succ n ih =>
    simp only [quickselectLoop, Option.bind_eq_bind]
    refine Alike.ite Iff.rfl (Alike.bind (.getElem? h rfl) fun p p' hp => Alike.bind (lomuto_rel hlt hp _ _ _ h) ?_)
      (Alike.bind (.getElem? h rfl) fun x x' hx => .answer ⟨h, hx⟩)
    rintro ⟨d, i⟩ ⟨d', i'⟩ ⟨hd, rfl⟩
    refine Alike.bind (swap_rel hd _ _) fun e e' he => Alike.ite Iff.rfl (Alike.bind (.getElem? he rfl) fun x x' hx => .answer ⟨he, hx⟩)
      (Alike.ite Iff.rfl (Alike.bind .same (forall_eq_rel fun _ => ih _ _ he)) (ih _ _ he))

theorem quickselect_rel {l : List T} {l' : List T'} (h : Each P l l') (m : ℕ) :
    Alike (Both (Each P) P) (quickselect lt l m) (quickselect lt' l' m) := by
  simp only [quickselect, Option.bind_eq_bind, h.length]
  exact Alike.bind .same (forall_eq_rel fun _ => quickselectLoop_rel hlt _ _ _ _ h)
end


theorem quantile_units (h0 : Each (Scaled k 1) data data') (window : ℕ) (q : FP ρ) :
    Alike (Each (Scaled k 1)) (quantile data window q) (quantile data' window q) := by
  simp only [quantile, quantileT, Option.bind_eq_bind]
  have hlt : ∀ x x' : FP ρ, Scaled k 1 x x' → ∀ y y', Scaled k 1 y y' → (x <. y) = (x' <. y') := fun _ _ h _ _ g => h.lt g
  refine Alike.bind .same (forall_eq_rel fun n => Alike.bind (.windows h0) fun ws ws' hw =>
    Alike.bind (Alike.mapP (Q := Scaled k 1) hw fun w w' h => ?_) fun _ _ h => .answer (each_append (each_nans _) h))
  refine Alike.ite Iff.rfl (Alike.bind (quickselect_rel hlt h _) fun _ _ hx => .answer hx.2)
    (Alike.bind (quickselect_rel hlt h _) fun _ _ hx => Alike.bind (.sliceFrom hx.1 rfl) fun _ _ hr => .answer ?_)
  exact (hx.2.mul .lit rfl).add (Scaled.mul (foldl_rel (X := Scaled k 1) .nan hr fun _ _ hs _ _ hx => hs.fmin hx) .lit rfl)

units_rule quantile_units

theorem median_units (h0 : Each (Scaled k 1) data data') (window : ℕ) :
    Alike (Each (Scaled k 1)) (median data window) (median data' window) := by
  units [median]

units_rule median_units

end Traquer.Distribution

namespace Traquer.Regression
open FP FloatLit
variable {ρ : Rounding} {k : ℝ} [ρ.Scales k] {data data' estimate estimate' : List (FP ρ)}

theorem mse_units (h0 : Each (Scaled k 1) data data') (h1 : Each (Scaled k 1) estimate estimate') :
    Each (Scaled k 2) (mse data estimate) (mse data' estimate') := by
  units [mse, runningError]

units_rule mse_units

theorem rmse_units (h0 : Each (Scaled k 1) data data') (h1 : Each (Scaled k 1) estimate estimate') :
    Each (Scaled k 1) (rmse data estimate) (rmse data' estimate') := by
  units [rmse, runningError]

units_rule rmse_units

theorem mae_units (h0 : Each (Scaled k 1) data data') (h1 : Each (Scaled k 1) estimate estimate') :
    Each (Scaled k 1) (mae data estimate) (mae data' estimate') := by
  units [mae, runningError]

units_rule mae_units

theorem mape_units (h0 : Each (Scaled k 1) data data') (h1 : Each (Scaled k 1) estimate estimate') :
    Each (Scaled k 0) (mape data estimate) (mape data' estimate') := by
  units [mape, runningError]

units_rule mape_units

theorem smape_units (h0 : Each (Scaled k 1) data data') (h1 : Each (Scaled k 1) estimate estimate') :
    Each (Scaled k 0) (smape data estimate) (smape data' estimate') := by
  units [smape, runningError]

units_rule smape_units

theorem mda_units (h0 : Each (Scaled k 1) data data') (h1 : Each (Scaled k 1) estimate estimate') :
    Alike (Each (Scaled k 0)) (mda data estimate) (mda data' estimate') := by
  units [mda]

units_rule mda_units

theorem maeNaive_units (h0 : Each (Scaled k 1) data data') :
    Each (Scaled k 1) (maeNaive data) (maeNaive data') := by
  units [maeNaive]

units_rule maeNaive_units

theorem mase_units (h0 : Each (Scaled k 1) data data') (h1 : Each (Scaled k 1) estimate estimate') :
    Each (Scaled k 0) (mase data estimate) (mase data' estimate') := by
  units [mase]

units_rule mase_units

theorem emae_units (h0 : Each (Scaled k 1) data data') (h1 : Each (Scaled k 1) estimate estimate') :
    Each (Scaled k 0) (emae data estimate) (emae data' estimate') := by
  units [emae]

units_rule emae_units

end Traquer.Regression
