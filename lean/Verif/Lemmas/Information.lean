import Verif.Spec.Information
import Verif.Lemmas.Range
import Mathlib.Algebra.Order.BigOperators.Group.Finset
import Mathlib.Tactic.FieldSimp
/-!
# Gibbs' inequality for mutual information
-/

namespace Traquer
open Finset

theorem sum_map_count {α : Type} [i : BEq α] [LawfulBEq α] [DecidableEq α] (l : List α) (f : α → ℝ) :
    (l.map f).sum = ∑ a ∈ l.toFinset, (l.count a : ℝ) * f a := by
  obtain rfl := lawful_beq_subsingleton i instBEqOfDecidableEq
  rw [Finset.sum_list_map_count]
  simp [nsmul_eq_mul]

theorem sum_count {α : Type} [i : BEq α] [LawfulBEq α] [DecidableEq α] (l : List α) : ∑ a ∈ l.toFinset, (l.count a : ℝ) = l.length := by
  have := sum_map_count l fun _ => 1
  simpa using this.symm

theorem count_zip_fst (x y : List ℕ) (p : ℕ × ℕ) : (x.zip y).count p ≤ x.count p.1 := by
  induction x generalizing y with
  | nil => simp
  | cons a x ih =>
    cases y with
    | nil => simp
    | cons b y =>
      have := ih y
      simp only [List.zip_cons_cons, List.count_cons]
      by_cases h : (a, b) = p
      · subst h; simpa using this
      · rw [if_neg (by simpa using h)]; omega

theorem count_zip_snd (x y : List ℕ) (p : ℕ × ℕ) : (x.zip y).count p ≤ y.count p.2 := by
  induction x generalizing y with
  | nil => simp
  | cons a x ih =>
    cases y with
    | nil => simp
    | cons b y =>
      have := ih y
      simp only [List.zip_cons_cons, List.count_cons]
      by_cases h : (a, b) = p
      · subst h; simpa using this
      · rw [if_neg (by simpa using h)]; omega

section
variable {x y : List ℕ} (hl : y.length = x.length)
include hl

/-- Mutual information as a mean over the points. -/
theorem mutualInformation_eq (hx : x ≠ []) : mutualInformation x y =
    ((x.zip y).map fun p => Real.logb 2 ((x.length * (x.zip y).count p : ℝ) / (x.count p.1 * y.count p.2))).sum / x.length := by
  have hn : (x.length : ℝ) ≠ 0 := by have := List.length_pos_iff.2 hx; positivity
  rw [sum_map_count, sum_div, mutualInformation]
  refine sum_congr rfl fun p hp => ?_
  have c0 : 0 < (x.zip y).count p := List.count_pos_iff.2 (List.mem_toFinset.1 hp)
  have c1 := count_zip_fst x y p
  have c2 := count_zip_snd x y p
  have d0 : ((x.zip y).count p : ℝ) ≠ 0 := by positivity
  have d1 : (x.count p.1 : ℝ) ≠ 0 := by exact_mod_cast (by omega : x.count p.1 ≠ 0)
  have d2 : (y.count p.2 : ℝ) ≠ 0 := by exact_mod_cast (by omega : y.count p.2 ≠ 0)
  simp only [freq, List.length_zip, hl, min_self]
  rw [show ((x.zip y).count p : ℝ) / x.length / (x.count p.1 / x.length * (y.count p.2 / x.length)) =
    (x.length * (x.zip y).count p : ℝ) / (x.count p.1 * y.count p.2) by field_simp]
  ring

theorem mutualInformation_nonneg : 0 ≤ mutualInformation x y := by
  by_cases hx : x = []
  · subst hx; simp [mutualInformation]
  rw [mutualInformation_eq hl hx]
  have h0 := List.length_pos_iff.2 hx
  have hn : (0 : ℝ) < x.length := by positivity
  refine div_nonneg ?_ hn.le
  have l2 : (0 : ℝ) < Real.log 2 := Real.log_pos (by norm_num)
  have key : ((x.zip y).map fun p => (1 - (x.count p.1 * y.count p.2 : ℝ) / (x.length * (x.zip y).count p)) / Real.log 2).sum ≤
      ((x.zip y).map fun p => Real.logb 2 ((x.length * (x.zip y).count p : ℝ) / (x.count p.1 * y.count p.2))).sum := by
    refine List.sum_le_sum fun p hp => ?_
    have c0 : 0 < (x.zip y).count p := List.count_pos_iff.2 hp
    have c1 := count_zip_fst x y p
    have c2 := count_zip_snd x y p
    have c1' : 0 < x.count p.1 := by omega
    have c2' : 0 < y.count p.2 := by omega
    rw [Real.logb]
    refine div_le_div_of_nonneg_right ?_ l2.le
    have := Real.one_sub_inv_le_log_of_pos (x := (x.length * (x.zip y).count p : ℝ) / (x.count p.1 * y.count p.2)) (by positivity)
    rwa [inv_div] at this
  refine le_trans ?_ key
  have e : ((x.zip y).map fun p => (1 - (x.count p.1 * y.count p.2 : ℝ) / (x.length * (x.zip y).count p)) / Real.log 2).sum =
      (x.length - (∑ p ∈ (x.zip y).toFinset, (x.count p.1 * y.count p.2 : ℝ)) / x.length) / Real.log 2 := by
    have hlen : ∑ p ∈ (x.zip y).toFinset, ((x.zip y).count p : ℝ) = x.length := by
      rw [sum_count, List.length_zip, hl, min_self]
    have e0 : ∀ p ∈ (x.zip y).toFinset, ((x.zip y).count p : ℝ) * ((1 - (x.count p.1 * y.count p.2 : ℝ) / (x.length * (x.zip y).count p)) / Real.log 2) =
        ((x.zip y).count p - (x.count p.1 * y.count p.2 : ℝ) / x.length) / Real.log 2 := fun p hp => by
      have c0 : 0 < (x.zip y).count p := List.count_pos_iff.2 (List.mem_toFinset.1 hp)
      have d0 : ((x.zip y).count p : ℝ) ≠ 0 := by positivity
      field_simp
    rw [sum_map_count, sum_congr rfl e0, ← sum_div, sum_sub_distrib, hlen, sum_div]
  rw [e]
  refine div_nonneg ?_ l2.le
  have hsub : ∑ p ∈ (x.zip y).toFinset, (x.count p.1 * y.count p.2 : ℝ) ≤ x.length * x.length := by
    have s1 : (x.zip y).toFinset ⊆ x.toFinset ×ˢ y.toFinset := fun p hp => by
      obtain ⟨a, b⟩ := p
      have := List.of_mem_zip (List.mem_toFinset.1 hp)
      simpa using this
    refine (sum_le_sum_of_subset_of_nonneg s1 fun p _ _ => by positivity).trans ?_
    rw [sum_product]
    dsimp only
    rw [← sum_mul_sum, sum_count, sum_count, hl]
  rw [sub_nonneg, div_le_iff₀ hn]
  exact hsub

/-- Mutual information is at most the logarithm of the number of labels of the first series. -/
theorem mutualInformation_le {k : ℕ} (hk : ∀ a ∈ x, a < k) (hk0 : 1 ≤ k) : mutualInformation x y ≤ Real.logb 2 k := by
  have l2 : (0 : ℝ) < Real.log 2 := Real.log_pos (by norm_num)
  have hk' : (0 : ℝ) < k := by positivity
  by_cases hx : x = []
  · subst hx
    simp only [mutualInformation, List.zip_nil_left, List.toFinset_nil, sum_empty]
    exact Real.logb_nonneg (by norm_num) (by exact_mod_cast hk0)
  rw [mutualInformation_eq hl hx]
  have h0 := List.length_pos_iff.2 hx
  have hn : (0 : ℝ) < x.length := by positivity
  rw [div_le_iff₀ hn]
  have key : ((x.zip y).map fun p => Real.logb 2 ((x.length * (x.zip y).count p : ℝ) / (x.count p.1 * y.count p.2))).sum ≤
      ((x.zip y).map fun p => Real.logb 2 k + (((x.length : ℝ) / (k * x.count p.1)) - 1) / Real.log 2).sum := by
    refine List.sum_le_sum fun p hp => ?_
    have c0 : 0 < (x.zip y).count p := List.count_pos_iff.2 hp
    have c1 := count_zip_fst x y p
    have c2 := count_zip_snd x y p
    have c1' : 0 < x.count p.1 := by omega
    have c2' : 0 < y.count p.2 := by omega
    rw [Real.logb, Real.logb, ← add_div]
    refine div_le_div_of_nonneg_right ?_ l2.le
    have h1 : Real.log ((x.length * (x.zip y).count p : ℝ) / (x.count p.1 * y.count p.2)) ≤ Real.log (k * (x.length / (k * x.count p.1))) := by
      refine Real.log_le_log (by positivity) ?_
      rw [show (k : ℝ) * (x.length / (k * x.count p.1)) = x.length / x.count p.1 by field_simp]
      rw [div_le_div_iff₀ (by positivity) (by positivity)]
      have : ((x.zip y).count p : ℝ) ≤ y.count p.2 := by exact_mod_cast c2
      have : (x.length * x.count p.1 : ℝ) * (x.zip y).count p ≤ (x.length * x.count p.1 : ℝ) * y.count p.2 :=
        mul_le_mul_of_nonneg_left this (by positivity)
      linarith
    rw [Real.log_mul hk'.ne' (by positivity)] at h1
    have h2 := Real.log_le_sub_one_of_pos (x := (x.length : ℝ) / (k * x.count p.1)) (by positivity)
    linarith
  refine key.trans ?_
  have e1 : ((x.zip y).map fun p => Real.logb 2 k + (((x.length : ℝ) / (k * x.count p.1)) - 1) / Real.log 2) =
      x.map fun a => Real.logb 2 k + (((x.length : ℝ) / (k * x.count a)) - 1) / Real.log 2 := by
    conv_rhs => rw [← List.map_fst_zip (l₁ := x) (l₂ := y) (by omega), List.map_map]
    simp only [Function.comp_def, List.map_fst_zip (l₁ := x) (l₂ := y) (by omega : x.length ≤ y.length)]
  have hlen : ∑ a ∈ x.toFinset, (x.count a : ℝ) = x.length := sum_count x
  have e2 : (x.map fun a => Real.logb 2 k + (((x.length : ℝ) / (k * x.count a)) - 1) / Real.log 2).sum =
      x.length * Real.logb 2 k + (x.toFinset.card * (x.length / k) - x.length) / Real.log 2 := by
    rw [sum_map_count]
    have : ∀ a ∈ x.toFinset, (x.count a : ℝ) * (Real.logb 2 k + (((x.length : ℝ) / (k * x.count a)) - 1) / Real.log 2) =
        x.count a * Real.logb 2 k + (x.length / k - x.count a) / Real.log 2 := fun a ha => by
      have c0 : 0 < x.count a := List.count_pos_iff.2 (List.mem_toFinset.1 ha)
      have d0 : (x.count a : ℝ) ≠ 0 := by positivity
      field_simp
    rw [sum_congr rfl this, sum_add_distrib, ← sum_mul, ← sum_div, sum_sub_distrib, hlen, sum_const, nsmul_eq_mul]
  rw [e1, e2]
  have hc : (x.toFinset.card : ℝ) ≤ k := by
    have : x.toFinset ⊆ range k := fun a ha => mem_range.2 (hk a (List.mem_toFinset.1 ha))
    have := card_le_card this
    rw [card_range] at this
    exact_mod_cast this
  have : (x.toFinset.card * (x.length / k) - x.length : ℝ) / Real.log 2 ≤ 0 := by
    refine div_nonpos_of_nonpos_of_nonneg ?_ l2.le
    have := mul_le_mul_of_nonneg_right hc (by positivity : (0 : ℝ) ≤ x.length / k)
    rw [mul_div_cancel₀ _ hk'.ne'] at this
    linarith
  linarith

theorem mutualInformation_symm : mutualInformation x y = mutualInformation y x := by
  by_cases hx : x = []
  · subst hx
    obtain rfl : y = [] := List.length_eq_zero_iff.1 hl
    rfl
  have hy : y ≠ [] := by rintro rfl; exact hx (List.length_eq_zero_iff.1 hl.symm)
  rw [mutualInformation_eq hl hx, mutualInformation_eq hl.symm hy, hl]
  congr 2
  rw [← List.zip_swap x y, List.map_map]
  refine List.map_congr_left fun p _ => ?_
  simp only [Function.comp_apply, Prod.fst_swap, Prod.snd_swap]
  rw [mul_comm (y.count p.2 : ℝ)]
  congr 3
  rw [List.count_map_of_injective _ _ Prod.swap_injective]
end

end Traquer
