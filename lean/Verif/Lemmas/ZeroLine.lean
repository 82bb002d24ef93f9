import Verif.Spec.ZeroLine
import Verif.Lemmas.AverageOrder
/-!
# Averages of a rising series
-/

namespace Traquer
open FP

/-- The series rises from bar `k` up to the last bar before `n`. -/
def Climbs (k n : ℕ) (x : ℕ → ℝ) : Prop := ∀ i, k ≤ i → i + 1 < n → x i < x (i + 1)

theorem Rising.climbs {l : List ℝ} (h : Rising l) : Climbs 0 l.length (bar l) := fun i _ hi => h i hi

theorem Falling.climbs {l : List ℝ} (h : Falling l) : Climbs 0 l.length (fun i => -bar l i) := fun i _ hi => neg_lt_neg (h i hi)

section
variable {k n w : ℕ} {x : ℕ → ℝ}

theorem Climbs.lt (h : Climbs k n x) {i j : ℕ} (hk : k ≤ i) (hij : i < j) (hj : j < n) : x i < x j := by
  induction j, (show i + 1 ≤ j by omega) using Nat.le_induction with
  | base => exact h i hk hj
  | succ j hj' ih => exact (ih (by omega) (by omega)).trans (h j (by omega) hj)

theorem Climbs.le (h : Climbs k n x) {i j : ℕ} (hk : k ≤ i) (hij : i ≤ j) (hj : j < n) : x i ≤ x j := by
  rcases hij.eq_or_lt with rfl | hij
  · exact le_rfl
  · exact (h.lt hk hij hj).le

theorem mean_lastOf_lt {c : ℝ} (hw : 1 ≤ w) {i : ℕ} (hi : k + w ≤ i + 1) (h : ∀ j, k ≤ j → j ≤ i → x j ≤ c) (hs : ∃ j, i + 1 - w ≤ j ∧ j ≤ i ∧ x j < c) :
    mean (lastOf x w i) < c := by
  have hw' : (0 : ℝ) < w := by exact_mod_cast hw
  have hl : (lastOf x w i).length = w := by simp [lastOf]
  rw [mean, hl, div_lt_iff₀ hw']
  have e : c * w = ((List.range w).map fun _ => c).sum := by simp [mul_comm]
  rw [e, lastOf]
  refine List.sum_lt_sum _ _ (fun j hj => h _ (by omega) (by have := List.mem_range.1 hj; omega)) ?_
  obtain ⟨j, j1, j2, j3⟩ := hs
  exact ⟨j - (i + 1 - w), List.mem_range.2 (by omega), by rwa [show i + 1 - w + (j - (i + 1 - w)) = j by omega]⟩

theorem mean_lastOf_pos (hw : 1 ≤ w) {i : ℕ} (hi : k + w ≤ i + 1) (h : ∀ j, k ≤ j → j ≤ i → 0 < x j) : 0 < mean (lastOf x w i) := by
  have hw' : (0 : ℝ) < w := by exact_mod_cast hw
  have hl : (lastOf x w i).length = w := by simp [lastOf]
  rw [mean, hl]
  refine div_pos (List.sum_pos _ ?_ (by intro e; rw [e] at hl; simp at hl; omega)) hw'
  intro y hy
  obtain ⟨j, hj, rfl⟩ := List.mem_map.1 hy
  exact h _ (by omega) (by have := List.mem_range.1 hj; omega)

theorem Climbs.mean_lt (h : Climbs k n x) (hw : 2 ≤ w) {i : ℕ} (hi : k + w ≤ i + 1) (hn : i < n) : mean (lastOf x w i) < x i :=
  mean_lastOf_lt (by omega) hi (fun j h1 h2 => h.le h1 h2 hn) ⟨i - 1, by omega, by omega, h.lt (by omega) (by omega) hn⟩

theorem Climbs.mean_le (h : Climbs k n x) (hw : 1 ≤ w) {i : ℕ} (hi : k + w ≤ i + 1) (hn : i < n) : mean (lastOf x w i) ≤ x i := by
  rcases hw.eq_or_lt with rfl | hw
  · simp [lastOf, mean]
  · exact (h.mean_lt hw hi hn).le

theorem Climbs.mean_step (h : Climbs k n x) (hw : 1 ≤ w) : Climbs (k + (w - 1)) n fun i => mean (lastOf x w i) := by
  intro i hi hn
  have hw' : (0 : ℝ) < w := by exact_mod_cast hw
  have hl : ∀ i, (lastOf x w i).length = w := fun i => by simp [lastOf]
  show mean _ < mean _
  rw [mean, mean, hl, hl, div_lt_div_iff_of_pos_right hw', lastOf, lastOf]
  refine List.sum_lt_sum _ _ (fun j hj => ?_) ⟨0, List.mem_range.2 (by omega), ?_⟩
  · have := List.mem_range.1 hj
    exact h.le (by omega) (by omega) (by omega)
  · exact h.lt (by omega) (by omega) (by omega)

theorem ewmaFrom_seed (k w : ℕ) (x : ℕ → ℝ) (hw : 1 ≤ w) : ewmaFrom k w x (k + (w - 1)) = mean (lastOf x w (k + w - 1)) := by
  cases hk : k + (w - 1) with
  | zero => rfl
  | succ j => rw [ewmaFrom, if_pos (by omega)]

theorem gain_range (hw : 1 ≤ w) : (0 : ℝ) < 2 / (w + 1) ∧ (2 : ℝ) / (w + 1) ≤ 1 := by
  have hw' : (1 : ℝ) ≤ w := by exact_mod_cast hw
  exact ⟨by positivity, (div_le_one (by linarith)).2 (by linarith)⟩

theorem gain_lt (hw : 2 ≤ w) : (2 : ℝ) / (w + 1) < 1 := by
  have hw' : (2 : ℝ) ≤ w := by exact_mod_cast hw
  exact (div_lt_one (by linarith)).2 (by linarith)

/-- The exponential average does not run ahead of a rising series. -/
theorem Climbs.ewma_le (h : Climbs k n x) (hw : 1 ≤ w) : ∀ i, k + (w - 1) ≤ i → i < n → ewmaFrom k w x i ≤ x i := by
  intro i hi
  induction i, hi using Nat.le_induction with
  | base =>
    intro hn
    rw [ewmaFrom_seed k w x hw]
    have := h.mean_le hw (i := k + w - 1) (by omega) (by omega)
    rwa [show k + w - 1 = k + (w - 1) by omega] at this ⊢
  | succ i hi ih =>
    intro hn
    rw [ewmaFrom, if_neg (by omega)]
    obtain ⟨a0, a1⟩ := gain_range hw
    have := h i (by omega) hn
    have := mul_le_mul_of_nonneg_right ((ih (by omega)).trans this.le) (sub_nonneg.2 a1)
    linarith

theorem Climbs.ewma_lt (h : Climbs k n x) (hw : 2 ≤ w) (i : ℕ) (hi : k + (w - 1) ≤ i) (hn : i < n) : ewmaFrom k w x i < x i := by
  rcases hi.eq_or_lt with rfl | hi
  · rw [ewmaFrom_seed k w x (by omega)]
    have := h.mean_lt hw (i := k + w - 1) (by omega) (by omega)
    rwa [show k + w - 1 = k + (w - 1) by omega] at this ⊢
  · obtain ⟨j, rfl⟩ : ∃ j, i = j + 1 := ⟨i - 1, by omega⟩
    rw [ewmaFrom, if_neg (by omega)]
    have := h.ewma_le (w := w) (by omega) j (by omega) (by omega)
    have := h j (by omega) hn
    have := mul_lt_mul_of_pos_right (show ewmaFrom k w x j < x (j + 1) by linarith) (sub_pos.2 (gain_lt hw))
    linarith

/-- The exponential average of a rising series rises. -/
theorem Climbs.ewma (h : Climbs k n x) (hw : 1 ≤ w) : Climbs (k + (w - 1)) n (ewmaFrom k w x) := by
  intro i hi hn
  have h1 := h.ewma_le hw i hi (by omega)
  have h2 := h i (by omega) hn
  rw [show ewmaFrom k w x (i + 1) = x (i + 1) * (2 / (w + 1)) + ewmaFrom k w x i * (1 - 2 / (w + 1)) by
    rw [ewmaFrom, if_neg (by omega)]]
  have := mul_pos (show 0 < x (i + 1) - ewmaFrom k w x i by linarith) (gain_range hw).1
  linarith

/-- The exponential average of positive values is positive. -/
theorem ewmaFrom_pos (hw : 1 ≤ w) (h : ∀ i, k ≤ i → i < n → 0 < x i) : ∀ i, k + (w - 1) ≤ i → i < n → 0 < ewmaFrom k w x i := by
  intro i hi
  induction i, hi using Nat.le_induction with
  | base =>
    intro hn
    rw [ewmaFrom_seed k w x hw]
    exact mean_lastOf_pos hw (k := k) (by omega) fun j h1 h2 => h j h1 (by omega)
  | succ i hi ih =>
    intro hn
    rw [ewmaFrom, if_neg (by omega)]
    obtain ⟨a0, a1⟩ := gain_range hw
    have := mul_pos (h (i + 1) (by omega) hn) a0
    have := mul_nonneg (ih (by omega)).le (sub_nonneg.2 a1)
    linarith

theorem mean_snoc (x : ℕ → ℝ) (m : ℕ) : mean (lastOf x (m + 2) (m + 1)) = mean (lastOf x (m + 1) m) + (x (m + 1) - mean (lastOf x (m + 1) m)) / (m + 2) := by
  have e : (lastOf x (m + 2) (m + 1)).sum = (lastOf x (m + 1) m).sum + x (m + 1) := by
    rw [lastOf, lastOf, List.range_succ, List.map_append, List.sum_append]
    simp
  have l1 : (lastOf x (m + 2) (m + 1)).length = m + 2 := by simp [lastOf]
  have l2 : (lastOf x (m + 1) m).length = m + 1 := by simp [lastOf]
  rw [mean, mean, l1, l2, e]
  push_cast
  field_simp
  ring

/-- On a rising series the exponential average keeps above the mean of all values so far. -/
theorem Climbs.ewma_ge_mean (h : Climbs 0 n x) (hw : 1 ≤ w) : ∀ i, w - 1 ≤ i → i < n → mean (lastOf x (i + 1) i) ≤ ewmaFrom 0 w x i ∧
    (w ≤ i → mean (lastOf x (i + 1) i) < ewmaFrom 0 w x i) := by
  intro i hi
  induction i, hi using Nat.le_induction with
  | base =>
    intro hn
    have := ewmaFrom_seed 0 w x hw
    rw [Nat.zero_add, Nat.zero_add] at this
    rw [this, show w - 1 + 1 = w by omega]
    exact ⟨le_rfl, fun _ => by omega⟩
  | succ i hi ih =>
    intro hn
    have ih := (ih (by omega)).1
    have key : mean (lastOf x (i + 1 + 1) (i + 1)) < ewmaFrom 0 w x (i + 1) := by
      rw [ewmaFrom, if_neg (by omega), mean_snoc]
      have hM : mean (lastOf x (i + 1) i) ≤ x i := h.mean_le (by omega) (by omega) (by omega)
      have hx := h i (by omega) hn
      have hE := h.ewma_le hw i (by omega) (by omega)
      set M := mean (lastOf x (i + 1) i)
      set e := ewmaFrom 0 w x i
      obtain ⟨a0, a1⟩ := gain_range hw
      have hw' : (1 : ℝ) ≤ w := by exact_mod_cast hw
      have hwi : (w : ℝ) ≤ i + 1 := by exact_mod_cast (by omega : w ≤ i + 1)
      have hg : 1 / ((i : ℝ) + 2) < 2 / (w + 1) := by
        rw [div_lt_div_iff₀ (by positivity) (by positivity)]; linarith
      have p1 : (x (i + 1) - M) * (1 / ((i : ℝ) + 2)) < (x (i + 1) - M) * (2 / (w + 1)) := mul_lt_mul_of_pos_left hg (by linarith)
      have p2 := mul_nonneg (sub_nonneg.2 ih) (sub_nonneg.2 a1)
      rw [mul_one_div] at p1
      linarith
    exact ⟨key.le, fun _ => key⟩

/-- On a rising series the faster of two exponential averages is the higher one. -/
theorem Climbs.fast_above_slow (h : Climbs 0 n x) {s l : ℕ} (hs : 1 ≤ s) (hl : s < l) :
    ∀ i, l - 1 ≤ i → i < n → ewmaFrom 0 l x i < ewmaFrom 0 s x i := by
  intro i hi
  induction i, hi using Nat.le_induction with
  | base =>
    intro hn
    have e := ewmaFrom_seed 0 l x (by omega)
    rw [Nat.zero_add, Nat.zero_add] at e
    have := (h.ewma_ge_mean hs (l - 1) (by omega) hn).2 (by omega)
    rwa [e, show l - 1 + 1 = l by omega] at *
  | succ i hi ih =>
    intro hn
    have ih := ih (by omega)
    rw [ewmaFrom, if_neg (by omega), ewmaFrom, if_neg (by omega)]
    have h1 := h.ewma_le hs i (by omega) (by omega)
    have h2 := h i (by omega) hn
    obtain ⟨a0, a1⟩ := gain_range (show 1 ≤ l by omega)
    have hg : (2 : ℝ) / (l + 1) < 2 / (s + 1) := by
      have : (s : ℝ) < l := by exact_mod_cast hl
      exact div_lt_div_of_pos_left (by norm_num) (by positivity) (by linarith)
    have p1 := mul_lt_mul_of_pos_left hg (show 0 < x (i + 1) - ewmaFrom 0 s x i by linarith)
    have p2 := mul_nonneg (sub_nonneg.2 ih.le) (sub_nonneg.2 a1)
    linarith

end

theorem ewmaFrom_falling {l : List ℝ} (k w i : ℕ) : ewmaFrom k w (bar l) i = -ewmaFrom k w (fun j => -bar l j) i := by
  rw [ewmaFrom_neg, neg_neg]

end Traquer
