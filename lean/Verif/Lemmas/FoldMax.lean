import Verif.Lemmas.RoundsTo
/-!
# Folds that start at `±f64::MAX`
-/

namespace Traquer
open FP FloatLit
variable {ρ : Rounding}

theorem fmin_nan_left (x : FP ρ) : fmin (nan : FP ρ) x = x := rfl
theorem fmax_nan_left (x : FP ρ) : fmax (nan : FP ρ) x = x := rfl
theorem fmin_nan_right (x : FP ρ) : fmin x (nan : FP ρ) = x := by
  rcases x with _ | _ | _ | _ <;> rfl
theorem fmax_nan_right (x : FP ρ) : fmax x (nan : FP ρ) = x := by
  rcases x with _ | _ | _ | _ <;> rfl

theorem nan_of_isNaN {x : FP ρ} (h : isNaN x = true) : x = nan := by
  rcases x with _ | _ | _ | _ <;> first | rfl | cases h

theorem fmin_def {x y : FP ρ} (hx : isNaN x = false) (hy : isNaN y = false) : fmin x y = if y.toE < x.toE then y else x := by
  simp [fmin, hx, hy, toE_lt hy hx]

theorem fmax_def {x y : FP ρ} (hx : isNaN x = false) (hy : isNaN y = false) : fmax x y = if x.toE < y.toE then y else x := by
  simp [fmax, hx, hy, toE_lt hx hy]

theorem fmin_assoc (x y z : FP ρ) : fmin (fmin x y) z = fmin x (fmin y z) := by
  rcases hx : isNaN x with _ | _
  swap; · rw [nan_of_isNaN hx]; rfl
  rcases hy : isNaN y with _ | _
  swap; · rw [nan_of_isNaN hy, fmin_nan_right, fmin_nan_left]
  rcases hz : isNaN z with _ | _
  swap; · rw [nan_of_isNaN hz, fmin_nan_right, fmin_nan_right]
  rw [fmin_def (toE_fmin hx hy).1 hz, fmin_def hx (toE_fmin hy hz).1, fmin_def hx hy, fmin_def hy hz]
  by_cases h1 : y.toE < x.toE <;> by_cases h2 : z.toE < y.toE <;> simp [h1, h2]
  · exact fun h => absurd (h2.trans h1) (not_lt.2 h)
  · exact fun h => absurd h (not_lt.2 ((not_lt.1 h1).trans (not_lt.1 h2)))

theorem fmax_assoc (x y z : FP ρ) : fmax (fmax x y) z = fmax x (fmax y z) := by
  rcases hx : isNaN x with _ | _
  swap; · rw [nan_of_isNaN hx]; rfl
  rcases hy : isNaN y with _ | _
  swap; · rw [nan_of_isNaN hy, fmax_nan_right, fmax_nan_left]
  rcases hz : isNaN z with _ | _
  swap; · rw [nan_of_isNaN hz, fmax_nan_right, fmax_nan_right]
  rw [fmax_def (toE_fmax hx hy).1 hz, fmax_def hx (toE_fmax hy hz).1, fmax_def hx hy, fmax_def hy hz]
  by_cases h1 : x.toE < y.toE <;> by_cases h2 : y.toE < z.toE <;> simp [h1, h2]
  · exact fun h => absurd (h1.trans h2) (not_lt.2 h)
  · exact fun h => absurd h (not_lt.2 ((not_lt.1 h2).trans (not_lt.1 h1)))

/-- Starting a minimum at `s` is taking the minimum with `s` at the end. -/
theorem foldl_fmin_start (l : List (FP ρ)) (s : FP ρ) : l.foldl fmin s = fmin s (l.foldl fmin nan) := by
  induction l using List.reverseRecOn with
  | nil => exact (fmin_nan_right s).symm
  | append_singleton l x ih => rw [List.foldl_append, List.foldl_append, ih]; exact fmin_assoc _ _ _

theorem foldl_fmax_start (l : List (FP ρ)) (s : FP ρ) : l.foldl fmax s = fmax s (l.foldl fmax nan) := by
  induction l using List.reverseRecOn with
  | nil => exact (fmax_nan_right s).symm
  | append_singleton l x ih => rw [List.foldl_append, List.foldl_append, ih]; exact fmax_assoc _ _ _

theorem eq_of_toE {x y : FP ρ} (hx : isNaN x = false) (hy : isNaN y = false) (h : x.toE = y.toE) (h0 : y.toE ≠ 0) : x = y := by
  rcases x with _ | (_ | _) | _ | r <;> rcases y with _ | (_ | _) | _ | s <;>
    simp_all [toE, isNaN_def, FP.isNaN]
  exact h0 (by exact_mod_cast h.symm)

theorem toE_maxValue : isNaN (maxValue : FP ρ) = false ∧ 0 < (maxValue : FP ρ).toE := by
  have h1 : (1 : ℝ) ≤ (2 - 2 ^ (-52 : ℤ)) * 2 ^ (1023 : ℤ) := by
    have a : (1 : ℝ) ≤ 2 - 2 ^ (-52 : ℤ) := by norm_num
    have b : (1 : ℝ) ≤ 2 ^ (1023 : ℤ) := one_le_zpow₀ (by norm_num) (by norm_num)
    exact one_le_mul_of_one_le_of_one_le a b
  have hm : (maxValue : FP ρ) = mk false ((2 - 2 ^ (-52 : ℤ)) * 2 ^ (1023 : ℤ)) := rfl
  rw [hm]
  generalize ((2 - 2 ^ (-52 : ℤ)) * 2 ^ (1023 : ℤ) : ℝ) = r at h1 ⊢
  have hr : 1 ≤ ρ.rnd r := by
    have := ρ.mono _ _ h1
    have e := ρ.nat 1 (by norm_num)
    rw [Nat.cast_one] at e
    rwa [e] at this
  have hd : decide (r < 0) = false := decide_eq_false (by linarith)
  unfold mk
  rw [hd]
  split_ifs with a b c <;> first | (exfalso; linarith) | simp_all [toE, isNaN_def, FP.isNaN]
  linarith

/-- all entries are numbers not beyond `±f64::MAX` (so every number of `f64` except the infinities) -/
def WithinMax (l : List (FP ρ)) : Prop := ∀ x ∈ l, (-maxValue <=. x) = true ∧ (x <=. maxValue) = true

theorem maxValue_le {x : FP ρ} (h : (x <=. maxValue) = true) : fmin maxValue x = x := by
  have hx : isNaN x = false := by rcases x with _ | _ | _ | _ <;> first | rfl | (simp [le_def, le, FP.isNaN] at h)
  obtain ⟨hM, h0⟩ := toE_maxValue (ρ := ρ)
  rw [toE_le hx hM, decide_eq_true_eq] at h
  rw [fmin_def hM hx]
  split
  · rfl
  · rename_i hn
    exact (eq_of_toE hx hM (le_antisymm h (not_lt.1 hn)) h0.ne').symm

theorem toE_neg' {x : FP ρ} : (-x).toE = -x.toE ∧ isNaN (-x) = isNaN x := by
  rcases x with _ | (_ | _) | _ | r <;> simp [neg_def, FP.neg, toE, isNaN_def, FP.isNaN]
  by_cases h : r = 0 <;> simp [h]

theorem neg_maxValue_le {x : FP ρ} (h : (-maxValue <=. x) = true) : fmax (-maxValue) x = x := by
  obtain ⟨hM, h0⟩ := toE_maxValue (ρ := ρ)
  obtain ⟨e, hN⟩ := toE_neg' (x := (maxValue : FP ρ))
  rw [hM] at hN
  have hx : isNaN x = false := by rcases x with _ | _ | _ | _ <;> first | rfl | (simp [le_def, le, FP.isNaN] at h)
  rw [toE_le hN hx, decide_eq_true_eq] at h
  rw [fmax_def hN hx]
  split
  · rfl
  · rename_i hn
    refine (eq_of_toE hx hN (le_antisymm (not_lt.1 hn) h) ?_).symm
    rw [e]
    simpa using h0.ne'

/-- The smallest of some numbers within the range of `f64` is found whether or not one starts with `f64::MAX`. -/
theorem WithinMax.foldl_fmin {l : List (FP ρ)} (h : WithinMax l) (hl : l ≠ []) : l.foldl fmin maxValue = l.foldl fmin nan := by
  obtain ⟨x, l, rfl⟩ := List.exists_cons_of_ne_nil hl
  rw [List.foldl_cons, List.foldl_cons, maxValue_le (h x (by simp)).2, fmin_nan_left]

theorem WithinMax.foldl_fmax {l : List (FP ρ)} (h : WithinMax l) (hl : l ≠ []) : l.foldl fmax (-maxValue) = l.foldl fmax nan := by
  obtain ⟨x, l, rfl⟩ := List.exists_cons_of_ne_nil hl
  rw [List.foldl_cons, List.foldl_cons, neg_maxValue_le (h x (by simp)).1, fmax_nan_left]

theorem WithinMax.sublist {l m : List (FP ρ)} (h : WithinMax l) (hm : ∀ x ∈ m, x ∈ l) : WithinMax m := fun x hx => h x (hm x hx)

end Traquer
