import Verif.Lemmas.NearSeries
/-! Order properties of the averages: they are monotone and never exceed the average of the absolute values. -/

namespace Traquer

variable {k w n : ℕ} {f g : ℕ → ℝ}

theorem mean_lastOf_mono (hw : 1 ≤ w) (h : ∀ i, k ≤ i → i < n → f i ≤ g i) (i : ℕ) (hi : k + (w - 1) ≤ i) (hin : i < n) :
    mean (lastOf f w i) ≤ mean (lastOf g w i) := by
  have l1 : (lastOf f w i).length = w := by simp [lastOf]
  have l2 : (lastOf g w i).length = w := by simp [lastOf]
  rw [mean, mean, l1, l2]
  refine div_le_div_of_nonneg_right ?_ (Nat.cast_nonneg _)
  refine List.sum_le_sum fun j hj => ?_
  rw [List.mem_range] at hj
  exact h _ (by omega) (by omega)

theorem ewmaFrom_mono (hw : 1 ≤ w) (h : ∀ i, k ≤ i → i < n → f i ≤ g i) : ∀ i, k + (w - 1) ≤ i → i < n → ewmaFrom k w f i ≤ ewmaFrom k w g i := by
  intro i hi
  induction i, hi using Nat.le_induction with
  | base =>
    intro hin
    have e0 : ∀ x : ℕ → ℝ, ewmaFrom k w x (k + (w - 1)) = mean (lastOf x w (k + w - 1)) := fun x => by
      cases hk : k + (w - 1) with
      | zero => rfl
      | succ j => rw [ewmaFrom, if_pos (by omega)]
    rw [e0, e0]
    exact mean_lastOf_mono hw h _ (by omega) (by omega)
  | succ i hi ih =>
    intro hin
    rw [ewmaFrom, ewmaFrom, if_neg (by omega), if_neg (by omega)]
    obtain ⟨a0, a1⟩ := Smooth.two_div_succ_range hw
    have := mul_le_mul_of_nonneg_right (h (i + 1) (by omega) hin) a0
    have := mul_le_mul_of_nonneg_right (ih (by omega)) (sub_nonneg.2 a1)
    linarith

theorem wilderFrom_mono (hw : 1 ≤ w) (h : ∀ i, k ≤ i → i < n → f i ≤ g i) :
    ∀ i, k + (w - 1) ≤ i → i < n → wilderFrom k w f i ≤ wilderFrom k w g i := by
  intro i hi
  induction i, hi using Nat.le_induction with
  | base =>
    intro hin
    have e0 : ∀ x : ℕ → ℝ, wilderFrom k w x (k + (w - 1)) = mean (lastOf x w (k + w - 1)) := fun x => by
      cases hk : k + (w - 1) with
      | zero => rfl
      | succ j => rw [wilderFrom, if_pos (by omega)]
    rw [e0, e0]
    exact mean_lastOf_mono hw h _ (by omega) (by omega)
  | succ i hi ih =>
    intro hin
    rw [wilderFrom, wilderFrom, if_neg (by omega), if_neg (by omega)]
    have w1 : (1 : ℝ) ≤ w := by exact_mod_cast hw
    refine div_le_div_of_nonneg_right ?_ (by linarith)
    have := mul_le_mul_of_nonneg_right (ih (by omega)) (sub_nonneg.2 w1)
    linarith [h (i + 1) (by omega) hin]

theorem wilderFrom_nonneg (hw : 1 ≤ w) (h : ∀ i, k ≤ i → i < n → 0 ≤ f i) (i : ℕ) (hi : k + (w - 1) ≤ i) (hin : i < n) :
    0 ≤ wilderFrom k w f i := by
  have := wilderFrom_mono (f := fun _ => 0) hw h i hi hin
  rwa [wilderFrom_zero] at this

theorem ewmaFrom_nonneg (hw : 1 ≤ w) (h : ∀ i, k ≤ i → i < n → 0 ≤ f i) (i : ℕ) (hi : k + (w - 1) ≤ i) (hin : i < n) :
    0 ≤ ewmaFrom k w f i := by
  have := ewmaFrom_mono (f := fun _ => 0) hw h i hi hin
  rwa [ewmaFrom_zero] at this

theorem ewmaFrom_neg (k w : ℕ) (f : ℕ → ℝ) (i : ℕ) : ewmaFrom k w (fun j => -f j) i = -ewmaFrom k w f i := by
  have hm : ∀ j, mean (lastOf (fun j => -f j) w j) = -mean (lastOf f w j) := fun j => by
    have e : lastOf (fun j => -f j) w j = (lastOf f w j).map fun x => -x := by simp [lastOf]
    rw [mean, mean, e, List.length_map, ← neg_div]
    congr 1
    induction lastOf f w j with
    | nil => simp
    | cons a t ih => simp [ih]; ring
  induction i with
  | zero => rw [ewmaFrom, ewmaFrom, hm]
  | succ i ih =>
    rw [ewmaFrom, ewmaFrom, ih, hm]
    split <;> ring

/-- An average is at most the average of the absolute values. -/
theorem ewmaFrom_abs_le (hw : 1 ≤ w) (h : ∀ i, k ≤ i → i < n → |f i| ≤ g i) (i : ℕ) (hi : k + (w - 1) ≤ i) (hin : i < n) :
    |ewmaFrom k w f i| ≤ ewmaFrom k w g i := by
  refine abs_le.2 ⟨?_, ewmaFrom_mono hw (fun j h1 h2 => (le_abs_self _).trans (h j h1 h2)) i hi hin⟩
  have := ewmaFrom_mono (f := fun j => -f j) hw (fun j h1 h2 => (neg_le_abs _).trans (h j h1 h2)) i hi hin
  rw [ewmaFrom_neg] at this
  linarith

end Traquer
