import Verif.Props.Dispersion
import Mathlib.Algebra.QuadraticDiscriminant
/-!
# Covariance and the Cauchy-Schwarz inequality on lists
-/

namespace Traquer

section
variable {α : Type}

theorem sum_map_add' (l : List α) (f g : α → ℝ) : (l.map fun x => f x + g x).sum = (l.map f).sum + (l.map g).sum := by
  induction l with
  | nil => simp
  | cons x l ih => simp only [List.map_cons, List.sum_cons, ih]; ring

theorem sum_map_mul (l : List α) (c : ℝ) (f : α → ℝ) : (l.map fun x => c * f x).sum = c * (l.map f).sum := by
  induction l with
  | nil => simp
  | cons x l ih => simp only [List.map_cons, List.sum_cons, ih]; ring

theorem sum_map_sub' (l : List α) (f g : α → ℝ) : (l.map fun x => f x - g x).sum = (l.map f).sum - (l.map g).sum := by
  induction l with
  | nil => simp
  | cons x l ih => simp only [List.map_cons, List.sum_cons, ih]; ring

theorem sum_map_const (l : List α) (c : ℝ) : (l.map fun _ => c).sum = l.length * c := by
  induction l with
  | nil => simp
  | cons x l ih => simp only [List.map_cons, List.sum_cons, ih, List.length_cons]; push_cast; ring

theorem sum_map_nonneg {l : List α} {f : α → ℝ} (h : ∀ x ∈ l, 0 ≤ f x) : 0 ≤ (l.map f).sum :=
  List.sum_nonneg fun x hx => by
    obtain ⟨y, hy, rfl⟩ := List.mem_map.1 hx
    exact h y hy

theorem sum_map_le {l : List α} {f g : α → ℝ} (h : ∀ x ∈ l, f x ≤ g x) : (l.map f).sum ≤ (l.map g).sum := by
  have := sum_map_nonneg (l := l) (f := fun x => g x - f x) fun x hx => sub_nonneg.2 (h x hx)
  rw [sum_map_sub'] at this
  linarith

/-- The Cauchy-Schwarz inequality. -/
theorem cauchy (l : List α) (f g : α → ℝ) :
    (l.map fun x => f x * g x).sum ^ 2 ≤ (l.map fun x => f x ^ 2).sum * (l.map fun x => g x ^ 2).sum := by
  have h : ∀ t : ℝ, 0 ≤ (l.map fun x => f x ^ 2).sum * (t * t) + 2 * (l.map fun x => f x * g x).sum * t + (l.map fun x => g x ^ 2).sum := by
    intro t
    have h0 : 0 ≤ (l.map fun x => (f x * t + g x) ^ 2).sum := sum_map_nonneg fun x _ => sq_nonneg _
    have e : (l.map fun x => (f x * t + g x) ^ 2).sum =
        (l.map fun x => f x ^ 2).sum * (t * t) + 2 * (l.map fun x => f x * g x).sum * t + (l.map fun x => g x ^ 2).sum := by
      rw [show (fun x => (f x * t + g x) ^ 2) = fun x => ((t * t) * f x ^ 2 + (2 * t) * (f x * g x)) + g x ^ 2 by funext x; ring,
        sum_map_add' l (fun x => (t * t) * f x ^ 2 + (2 * t) * (f x * g x)), sum_map_add' l (fun x => (t * t) * f x ^ 2),
        sum_map_mul l (t * t) (fun x => f x ^ 2), sum_map_mul l (2 * t) (fun x => f x * g x)]
      ring
    linarith
  have := discrim_le_zero h
  rw [discrim] at this
  nlinarith
end

variable {xs ys : List ℝ}

theorem zip_fst (h : ys.length = xs.length) : (xs.zip ys).map (fun p => p.1) = xs := List.map_fst_zip (by omega)
theorem zip_snd (h : ys.length = xs.length) : (xs.zip ys).map (fun p => p.2) = ys := List.map_snd_zip (by omega)

theorem map_zip_fst (h : ys.length = xs.length) (f : ℝ → ℝ) : (xs.zip ys).map (fun p => f p.1) = xs.map f := by
  conv_rhs => rw [← zip_fst h, List.map_map]
  rfl
theorem map_zip_snd (h : ys.length = xs.length) (f : ℝ → ℝ) : (xs.zip ys).map (fun p => f p.2) = ys.map f := by
  conv_rhs => rw [← zip_snd h, List.map_map]
  rfl

theorem covar_sq_le (h : ys.length = xs.length) : covar xs ys ^ 2 ≤ moment 2 xs * moment 2 ys := by
  have := cauchy (xs.zip ys) (fun p => p.1 - mean xs) (fun p => p.2 - mean ys)
  rw [map_zip_fst h fun x => (x - mean xs) ^ 2, map_zip_snd h fun x => (x - mean ys) ^ 2] at this
  rw [covar, moment, moment, mean_of_length (l := List.map _ (xs.zip ys)) (w := xs.length) (by simp [h]),
    mean_of_length (l := List.map _ xs) (w := xs.length) (by simp), mean_of_length (l := List.map _ ys) (w := xs.length) (by simp [h])]
  rw [div_pow, div_mul_div_comm, ← pow_two]
  exact div_le_div_of_nonneg_right this (by positivity)

theorem moment_two_eq (xs : List ℝ) : xs.length ^ 2 * moment 2 xs = xs.length * (xs.map fun x => x ^ 2).sum - xs.sum ^ 2 := by
  by_cases h : xs.length = 0
  · rw [List.length_eq_zero_iff] at h; subst h; simp
  have hn : (xs.length : ℝ) ≠ 0 := by exact_mod_cast h
  rw [moment, mean, List.length_map]
  have e : (xs.map fun x => (x - mean xs) ^ 2).sum = (xs.map fun x => x ^ 2).sum - 2 * mean xs * xs.sum + xs.length * mean xs ^ 2 := by
    rw [show (fun x => (x - mean xs) ^ 2) = fun x => (x ^ 2 + (-2 * mean xs) * x) + mean xs ^ 2 by funext x; ring,
      sum_map_add' xs (fun x => x ^ 2 + (-2 * mean xs) * x), sum_map_add' xs (fun x => x ^ 2), sum_map_mul xs (-2 * mean xs) (fun x => x),
      sum_map_const, List.map_id']
    ring
  rw [e, mean]
  field_simp
  ring

theorem covar_eq (h : ys.length = xs.length) :
    xs.length ^ 2 * covar xs ys = xs.length * ((xs.zip ys).map fun p => p.1 * p.2).sum - xs.sum * ys.sum := by
  by_cases h0 : xs.length = 0
  · rw [List.length_eq_zero_iff] at h0; subst h0; simp
  have hn : (xs.length : ℝ) ≠ 0 := by exact_mod_cast h0
  have hl : (xs.zip ys).length = xs.length := by simp [h]
  rw [covar, mean, List.length_map, hl]
  have e : ((xs.zip ys).map fun p => (p.1 - mean xs) * (p.2 - mean ys)).sum =
      ((xs.zip ys).map fun p => p.1 * p.2).sum - mean ys * xs.sum - mean xs * ys.sum + xs.length * (mean xs * mean ys) := by
    rw [show (fun p : ℝ × ℝ => (p.1 - mean xs) * (p.2 - mean ys)) =
        fun p => ((p.1 * p.2 + (-mean ys) * p.1) + (-mean xs) * p.2) + mean xs * mean ys by funext p; ring,
      sum_map_add' _ (fun p : ℝ × ℝ => (p.1 * p.2 + (-mean ys) * p.1) + (-mean xs) * p.2),
      sum_map_add' _ (fun p : ℝ × ℝ => p.1 * p.2 + (-mean ys) * p.1), sum_map_add' _ (fun p : ℝ × ℝ => p.1 * p.2),
      sum_map_mul _ (-mean ys) (fun p : ℝ × ℝ => p.1), sum_map_mul _ (-mean xs) (fun p : ℝ × ℝ => p.2), zip_fst h, zip_snd h,
      sum_map_const, hl]
    ring
  rw [e, mean, mean, h]
  field_simp
  ring

theorem abs_covar_le (h : ys.length = xs.length) : |covar xs ys| ≤ stdDev xs * stdDev ys := by
  rw [stdDev, stdDev, ← Real.sqrt_mul (moment_two_nonneg xs), ← Real.sqrt_sq_eq_abs]
  exact Real.sqrt_le_sqrt (covar_sq_le h)

/-- The correlation coefficient lies between -1 and 1. -/
theorem pearson_range (h : ys.length = xs.length) : -1 ≤ pearson xs ys ∧ pearson xs ys ≤ 1 := by
  have h1 := abs_covar_le h
  rw [← abs_le, pearson, abs_div, abs_of_nonneg (mul_nonneg (stdDev_nonneg xs) (stdDev_nonneg ys))]
  exact div_le_one_of_le₀ h1 (mul_nonneg (stdDev_nonneg xs) (stdDev_nonneg ys))

theorem covar_symm (xs ys : List ℝ) : covar xs ys = covar ys xs := by
  unfold covar
  congr 1
  rw [← List.zip_swap ys xs, List.map_map]
  exact List.map_congr_left fun p _ => by simp only [Function.comp, Prod.swap]; ring

theorem covar_self (xs : List ℝ) : covar xs xs = moment 2 xs := by
  rw [covar, moment]
  congr 1
  rw [← map_zip_fst (xs := xs) (ys := xs) rfl]
  refine List.map_congr_left fun p hp => ?_
  have : p.1 = p.2 := by
    obtain ⟨i, hi⟩ := List.mem_iff_getElem?.1 hp
    obtain ⟨h1, h2⟩ := List.getElem?_zip_eq_some.1 hi
    exact Option.some.inj (h1.symm.trans h2)
  rw [this]; ring

theorem covar_affine (h : xs ≠ []) (c d : ℝ) : covar xs (xs.map fun x => c * x + d) = c * moment 2 xs := by
  have hm : mean (xs.map fun x => c * x + d) = c * mean xs + d := by
    have := mean_add (l := xs.map fun x => c * x) d (by simpa using h)
    rw [List.map_map] at this
    rw [← mean_mul, ← this]; rfl
  rw [← covar_self, covar, covar, hm, ← mean_mul (List.map _ (xs.zip xs)) c, List.map_map]
  congr 1
  rw [List.zip_map_right, List.map_map]
  exact List.map_congr_left fun p _ => by simp only [Function.comp, Prod.map]; simp only [id]; ring

theorem moment_two_affine (xs : List ℝ) (c d : ℝ) : moment 2 (xs.map fun x => c * x + d) = c ^ 2 * moment 2 xs := by
  have := moment_shift 2 (xs.map fun x => c * x) d
  rw [List.map_map, moment_scale] at this
  exact this

theorem stdDev_pos (h : ¬ Flat xs) : 0 < stdDev xs := lt_of_le_of_ne (stdDev_nonneg xs) fun e => h (stdDev_eq_zero.1 e.symm)

theorem Flat.nil : Flat ([] : List ℝ) := fun x hx => by simp at hx

/-- An increasing affine relation gives 1, a decreasing one -1. -/
theorem pearson_affine (h : ¬ Flat xs) {c : ℝ} (hc : c ≠ 0) (d : ℝ) : pearson xs (xs.map fun x => c * x + d) = c / |c| := by
  have hne : xs ≠ [] := fun e => h (e ▸ Flat.nil)
  have hp := stdDev_pos h
  have hsd : stdDev (xs.map fun x => c * x + d) = |c| * stdDev xs := by
    rw [stdDev, moment_two_affine, Real.sqrt_mul (sq_nonneg c), Real.sqrt_sq_eq_abs]; rfl
  rw [pearson, covar_affine hne, hsd]
  have e : moment 2 xs = stdDev xs * stdDev xs := (Real.mul_self_sqrt (moment_two_nonneg xs)).symm
  rw [e]
  have : |c| ≠ 0 := abs_ne_zero.2 hc
  field_simp

theorem pearson_symm (xs ys : List ℝ) : pearson xs ys = pearson ys xs := by
  rw [pearson, pearson, covar_symm, mul_comm]

theorem covar_flat (h : ys.length = xs.length) (hf : Flat xs ∨ Flat ys) : covar xs ys = 0 := by
  have := covar_sq_le h
  have h0 : moment 2 xs * moment 2 ys = 0 := by
    rcases hf with hf | hf
    · rw [moment_two_eq_zero.2 hf, zero_mul]
    · rw [moment_two_eq_zero.2 hf, mul_zero]
  rw [h0] at this
  exact pow_eq_zero_iff (two_ne_zero) |>.1 (le_antisymm this (sq_nonneg _))

end Traquer
