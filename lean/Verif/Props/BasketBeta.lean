import Verif.Props.Beta
import Verif.Props.Extremes
import Mathlib.Algebra.BigOperators.Field
/-!
# C141: the beta of a basket
-/

namespace Traquer.Correlation
open FP

/-- The return of the basket `p` at bar `j` is the weighted sum of the returns of the assets (a basket rebalanced at every bar). -/
def BasketReturn {ι : Type} [Fintype ι] (c : ι → ℝ) (s : ι → List XF) (p : List XF) (j : ℕ) : Prop :=
  returnAt (vals p) j = ∑ k, c k * returnAt (vals (s k)) j

theorem mean_lastOf_Ico {v : ℕ → ℝ} {w i : ℕ} (h : w ≤ i + 1) : mean (lastOf v w i) = (∑ j ∈ Finset.Ico (i + 1 - w) (i + 1), v j) / w := by
  rw [mean, lastOf_sum_Ico v h, lastOf, List.length_map, List.length_range]

theorem mean_lastOf_basket {ι : Type} [Fintype ι] (c : ι → ℝ) (v : ι → ℕ → ℝ) {u : ℕ → ℝ} {w i : ℕ} (h : w ≤ i + 1)
    (hu : ∀ j, i + 1 - w ≤ j → j ≤ i → u j = ∑ k, c k * v k j) : mean (lastOf u w i) = ∑ k, c k * mean (lastOf (v k) w i) := by
  simp only [mean_lastOf_Ico h]
  rw [Finset.sum_congr rfl fun j hj => hu j (Finset.mem_Ico.1 hj).1 (by have := (Finset.mem_Ico.1 hj).2; omega), Finset.sum_comm, Finset.sum_div]
  refine Finset.sum_congr rfl fun k _ => ?_
  rw [← Finset.mul_sum, mul_div_assoc]

section
variable {ι : Type} [Fintype ι] (c : ι → ℝ) (s : ι → List XF) (p m : List XF) (w i : ℕ) (hl : ∀ k, (s k).length = m.length) (lp : p.length = m.length)
  (hw : 1 ≤ w) (fs : ∀ k, Fins (s k)) (fp : Fins p) (fm : Fins m) (zs : ∀ k, ∀ x ∈ vals (s k), x ≠ 0) (zp : ∀ x ∈ vals p, x ≠ 0)
  (zm : ∀ x ∈ vals m, x ≠ 0) (h1 : 2 * (w - 1) + 1 ≤ i) (h2 : i < m.length)
  (hb : ∀ j, i + 2 - 2 * w ≤ j → j ≤ i → BasketReturn c s p j)
include hl lp hw fs fp fm zs zp zm h1 h2 hb

/-- C141: if each asset has a beta, that of the basket is their weighted sum. -/
theorem beta_basket [Nonempty ι] (b : ι → ℝ) (h : ∀ k, Shows i (beta (s k) m w) (b k)) :
    Shows i (beta p m w) (∑ k, c k * b k) := by
  have hk : ∀ k, mean (lastOf (fun j => deviationAt (returnAt (vals m)) w j ^ 2) w i) ≠ 0 ∧
      mean (lastOf (fun j => deviationAt (returnAt (vals (s k))) w j * deviationAt (returnAt (vals m)) w j) w i) /
        mean (lastOf (fun j => deviationAt (returnAt (vals m)) w j ^ 2) w i) = b k := fun k =>
    ((beta_reports (s k) m w (hl k).symm hw (by rw [hl]; omega) (fs k) fm (zs k) zm).shows_iff h1 (by rw [hl]; exact h2) fun y hy => hy.is_iff).1 (h k)
  have den := hk (Classical.arbitrary ι)
  refine ((beta_reports p m w lp.symm hw (by omega) fp fm zp zm).shows_iff h1 (by omega) fun y hy => hy.is_iff).2 ⟨den.1, ?_⟩
  have dev : ∀ j, i + 1 - w ≤ j → j ≤ i → deviationAt (returnAt (vals p)) w j = ∑ k, c k * deviationAt (returnAt (vals (s k))) w j := by
    intro j hj hj'
    have e := mean_lastOf_basket c (fun k => returnAt (vals (s k))) (u := returnAt (vals p)) (w := w) (i := j) (by omega)
      fun t ht ht' => hb t (by omega) (by omega)
    simp only [deviationAt]
    rw [e, hb j (by omega) hj', ← Finset.sum_sub_distrib]
    exact Finset.sum_congr rfl fun k _ => by ring
  rw [mean_lastOf_basket c (fun k j => deviationAt (returnAt (vals (s k))) w j * deviationAt (returnAt (vals m)) w j) (by omega) fun j hj hj' => by
    rw [dev j hj hj', Finset.sum_mul]
    exact Finset.sum_congr rfl fun k _ => by ring, Finset.sum_div]
  refine Finset.sum_congr rfl fun k _ => ?_
  rw [← (hk k).2, mul_div_assoc]

end

/-! An example: half of the money follows the market (beta 1), the other half is cash (beta 0). -/

theorem four_ne {a b c d : ℝ} (ha : a ≠ 0) (hb : b ≠ 0) (hc : c ≠ 0) (hd : d ≠ 0) : ∀ x ∈ vals ([.fin a, .fin b, .fin c, .fin d] : List XF), x ≠ 0 := by
  intro x hx
  simp [vals, val] at hx
  rcases hx with rfl | rfl | rfl | rfl <;> assumption

theorem four_fins (a b c d : ℝ) : Fins ([.fin a, .fin b, .fin c, .fin d] : List XF) := by simp [Fins, FP.Finite]

theorem four_beta {a b c d v : ℝ} (ha : a ≠ 0) (hb : b ≠ 0) (hc : c ≠ 0) (hd : d ≠ 0)
    (hv : ((-(1 / 2)) * ((c / b - 1) - ((b / a - 1) + (c / b - 1)) / 2) + 1 * ((d / c - 1) - ((c / b - 1) + (d / c - 1)) / 2)) / (5 / 4) = v) :
    Shows 3 (beta ([.fin a, .fin b, .fin c, .fin d] : List XF) [.fin 1, .fin 2, .fin 2, .fin 6] 2) v := by
  have hr := beta_reports [.fin a, .fin b, .fin c, .fin d] [.fin 1, .fin 2, .fin 2, .fin 6] 2 rfl (by norm_num) (by simp) (four_fins _ _ _ _)
    (four_fins _ _ _ _) (four_ne ha hb hc hd) (four_ne (by norm_num) (by norm_num) (by norm_num) (by norm_num))
  refine hr.shows (i := 3) (by norm_num) (by simp) fun y hy => hy.is_iff.2 ?_
  simp only [deviationAt, returnAt, lastOf, mean, bar, vals, val, List.range_succ, List.range_zero, List.map_cons, List.map_nil, List.nil_append,
    List.cons_append, List.sum_cons, List.sum_nil, List.length_cons, List.length_nil]
  simp
  constructor
  · norm_num
  · rw [← hv]
    field_simp
    ring

example : Shows 3 (beta ([.fin 2, .fin 3, .fin 3, .fin 6] : List XF) [.fin 1, .fin 2, .fin 2, .fin 6] 2) (1 / 2) := by
  have h := beta_basket ![1 / 2, 1 / 2] ![[.fin 1, .fin 2, .fin 2, .fin 6], [.fin 1, .fin 1, .fin 1, .fin 1]] [.fin 2, .fin 3, .fin 3, .fin 6]
    [.fin 1, .fin 2, .fin 2, .fin 6] 2 3 (by intro k; fin_cases k <;> simp) rfl (by norm_num) (by intro k; fin_cases k <;> exact four_fins _ _ _ _)
    (four_fins _ _ _ _) (four_fins _ _ _ _)
    (by intro k; fin_cases k <;> exact four_ne (by norm_num) (by norm_num) (by norm_num) (by norm_num))
    (four_ne (by norm_num) (by norm_num) (by norm_num) (by norm_num)) (four_ne (by norm_num) (by norm_num) (by norm_num) (by norm_num))
    (by norm_num) (by simp) (fun j h1 h2 => by
      rcases (by omega : j = 1 ∨ j = 2 ∨ j = 3) with rfl | rfl | rfl <;> simp [BasketReturn, returnAt, bar, vals, val, Fin.sum_univ_two] <;> norm_num)
    ![1, 0] (fun k => by
      fin_cases k
      · exact four_beta (by norm_num) (by norm_num) (by norm_num) (by norm_num) (by norm_num)
      · exact four_beta (by norm_num) (by norm_num) (by norm_num) (by norm_num) (by norm_num))
  simpa [Fin.sum_univ_two] using h

end Traquer.Correlation
