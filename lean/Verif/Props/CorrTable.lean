import Verif.Props.Pearson
import Verif.Props.Identities
import Mathlib.Algebra.BigOperators.Field
import Mathlib.Algebra.Order.BigOperators.Ring.Finset
/-!
# C140: a table of correlations is a correlation matrix
-/

namespace Traquer
open FP

/-- `r` is the table of the correlations of several quantities: each correlates fully with itself, the order of the two does not matter, and no
combination of the quantities has a negative variance. -/
def CorrTable {ι : Type} [Fintype ι] (r : ι → ι → ℝ) : Prop :=
  (∀ k, r k k = 1) ∧ (∀ k l, r k l = r l k) ∧ ∀ c : ι → ℝ, 0 ≤ ∑ k, ∑ l, c k * c l * r k l

theorem sum_zip_range (f : ℝ → ℝ → ℝ) : ∀ {xs ys : List ℝ}, ys.length = xs.length →
    ((xs.zip ys).map fun p => f p.1 p.2).sum = ∑ t ∈ Finset.range xs.length, f (xs.getD t 0) (ys.getD t 0)
  | [], [], _ => by simp
  | x :: xs, y :: ys, h => by
    rw [List.zip_cons_cons, List.map_cons, List.sum_cons, sum_zip_range f (by simpa using h), List.length_cons, Finset.sum_range_succ']
    simp [add_comm]

/-- Covariances as a sum over the bars of the window. -/
theorem covar_sum {xs ys : List ℝ} {n : ℕ} (hx : xs.length = n) (hy : ys.length = n) :
    covar xs ys = (∑ t ∈ Finset.range n, (xs.getD t 0 - mean xs) * (ys.getD t 0 - mean ys)) / n := by
  have h := sum_zip_range (fun x y => (x - mean xs) * (y - mean ys)) (xs := xs) (ys := ys) (hy.trans hx.symm)
  rw [covar, mean, List.length_map, h, hx]
  simp [hx, hy]

theorem pearson_table {ι : Type} [Fintype ι] {v : ι → List ℝ} {n : ℕ} (hl : ∀ k, (v k).length = n) (hf : ∀ k, ¬ Flat (v k)) :
    CorrTable fun k l => pearson (v k) (v l) := by
  refine ⟨fun k => ?_, fun k l => pearson_symm _ _, fun c => ?_⟩
  · have h := stdDev_pos (hf k)
    have e : stdDev (v k) * stdDev (v k) = moment 2 (v k) := Real.mul_self_sqrt (moment_two_nonneg _)
    simp only [pearson]
    rw [covar_self, ← e, div_self (mul_pos h h).ne']
  · have e : ∑ k, ∑ l, c k * c l * pearson (v k) (v l) =
        (∑ t ∈ Finset.range n, (∑ k, c k / stdDev (v k) * ((v k).getD t 0 - mean (v k))) ^ 2) / n := by
      have h : ∀ k l, c k * c l * pearson (v k) (v l) = ∑ t ∈ Finset.range n,
          (c k / stdDev (v k) * ((v k).getD t 0 - mean (v k))) * (c l / stdDev (v l) * ((v l).getD t 0 - mean (v l))) / n := by
        intro k l
        rw [pearson, covar_sum (hl k) (hl l), Finset.sum_div, Finset.sum_div, Finset.mul_sum]
        refine Finset.sum_congr rfl fun t _ => ?_
        have h1 := (stdDev_pos (hf k)).ne'
        have h2 := (stdDev_pos (hf l)).ne'
        field_simp
      simp only [h]
      rw [Finset.sum_congr rfl fun k _ => Finset.sum_comm, Finset.sum_comm, Finset.sum_div]
      refine Finset.sum_congr rfl fun t _ => ?_
      rw [pow_two, Finset.sum_mul_sum, Finset.sum_div]
      exact Finset.sum_congr rfl fun k _ => (Finset.sum_div _ _ _).symm
    rw [e]
    exact div_nonneg (Finset.sum_nonneg fun t _ => sq_nonneg _) (Nat.cast_nonneg _)

/-- Equal ranks are equal values. -/
theorem flat_of_ranks {xs : List ℝ} (h : Flat (ranksOf xs)) : Flat xs := by
  have key : ∀ x ∈ xs, ∀ y ∈ xs, ¬ x < y := by
    intro x hx y hy hlt
    have e := h _ (List.mem_map.2 ⟨x, hx, rfl⟩) _ (List.mem_map.2 ⟨y, hy, rfl⟩)
    have e' : (xs.countP fun z => decide (z < x)) = xs.countP fun z => decide (z < y) := by
      simp only [add_left_inj, Nat.cast_inj] at e
      exact e
    have hs : ∀ {l : List ℝ}, x ∈ l → (l.countP fun z => decide (z < x)) < l.countP fun z => decide (z < y) := by
      intro l
      induction l with
      | nil => intro h; simp at h
      | cons a l ih =>
        intro ha
        have hle : (l.countP fun z => decide (z < x)) ≤ l.countP fun z => decide (z < y) :=
          List.countP_mono_left fun z _ hz => by simp only [decide_eq_true_eq] at *; linarith
        rw [List.countP_cons, List.countP_cons]
        rcases List.mem_cons.1 ha with rfl | hm
        · simp [hlt]; omega
        · have := ih hm
          by_cases h1 : a < x
          · have h2 : a < y := h1.trans hlt
            simp [h1, h2]; omega
          · simp only [h1, decide_false]
            split <;> simp_all
            omega
    exact absurd e' (hs hx).ne
  intro x hx y hy
  rcases lt_trichotomy x y with h1 | h1 | h1
  · exact absurd h1 (key x hx y hy)
  · exact h1
  · exact absurd h1 (key y hy x hx)

namespace Correlation
section
variable {ι : Type} [Fintype ι] (s : ι → List XF) (n w i : ℕ) (hl : ∀ k, (s k).length = n) (hw : 1 ≤ w) (hd : ∀ k, Fins (s k))
  (h1 : w ≤ i + 1) (h2 : i < n) (hf : ∀ k, ¬ Flat (recent (vals (s k)) w i))
include hl hw hd h1 h2 hf

/-- C140: the correlations of several series over the same window. -/
theorem pcc_table : ∃ r : ι → ι → ℝ, (∀ k l, Shows i (pcc (s k) (s l) w) (r k l)) ∧ CorrTable r := by
  refine ⟨fun k l => pearson (recent (vals (s k)) w i) (recent (vals (s l)) w i), fun k l => ?_, pearson_table (n := w) (fun k => ?_) hf⟩
  · exact (pcc_reports (s k) (s l) w (by rw [hl, hl]) hw (by rw [hl]; omega) (hd k) (hd l)).shows (by omega) (by rw [hl]; exact h2)
      fun y hy => hy.1 (hf k) (hf l)
  · exact recent_length h1 (by rw [vals_length, hl]; exact h2)

open Distribution in
/-- C140: the rank correlations of several series over the same window. -/
theorem srcc_table (srt : Sorter XF) (hs : srt.Valid) : ∃ r : ι → ι → ℝ, (∀ k l, Shows i (srcc srt (s k) (s l) w) (r k l)) ∧ CorrTable r := by
  have hf' : ∀ k, ¬ Flat (ranksOf (recent (vals (s k)) w i)) := fun k h => hf k (flat_of_ranks h)
  refine ⟨fun k l => pearson (ranksOf (recent (vals (s k)) w i)) (ranksOf (recent (vals (s l)) w i)), fun k l => ?_,
    pearson_table (n := w) (fun k => ?_) hf'⟩
  · exact (srcc_reports srt hs (s k) (s l) w (by rw [hl, hl]) hw (by rw [hl]; omega) (hd k) (hd l)).shows (by omega) (by rw [hl]; exact h2)
      fun y hy => hy.1 (hf' k) (hf' l)
  · rw [ranksOf, List.length_map]
    exact recent_length h1 (by rw [vals_length, hl]; exact h2)

end
end Correlation

/-- Three correlations: two of them bound the third. -/
theorem CorrTable.three {r : Fin 3 → Fin 3 → ℝ} (h : CorrTable r) :
    r 0 1 ^ 2 + r 0 2 ^ 2 + r 1 2 ^ 2 ≤ 1 + 2 * (r 0 1 * r 0 2 * r 1 2) := by
  obtain ⟨h1, h2, h3⟩ := h
  have key : ∀ x y z : ℝ, 0 ≤ x ^ 2 + y ^ 2 + z ^ 2 + 2 * (x * y * r 0 1) + 2 * (x * z * r 0 2) + 2 * (y * z * r 1 2) := by
    intro x y z
    have := h3 ![x, y, z]
    simp only [Fin.sum_univ_three, h1, h2 1 0, h2 2 0, h2 2 1, Matrix.cons_val_zero, Matrix.cons_val_one, Matrix.cons_val] at this
    nlinarith
  generalize r 0 1 = a at *
  generalize r 0 2 = b at *
  generalize r 1 2 = d at *
  have p := key 0 1 1
  have m := key 0 1 (-1)
  rcases lt_or_ge (d ^ 2) 1 with hd | hd
  · have q := key (1 - d ^ 2) (b * d - a) (a * d - b)
    have e : (1 - d ^ 2) ^ 2 + (b * d - a) ^ 2 + (a * d - b) ^ 2 + 2 * ((1 - d ^ 2) * (b * d - a) * a) + 2 * ((1 - d ^ 2) * (a * d - b) * b) +
        2 * ((b * d - a) * (a * d - b) * d) = (1 - d ^ 2) * (1 + 2 * (a * b * d) - (a ^ 2 + b ^ 2 + d ^ 2)) := by ring
    rw [e] at q
    have := nonneg_of_mul_nonneg_right q (by linarith)
    linarith
  · have hd' : d = 1 ∨ d = -1 := by
      have : d ^ 2 = 1 := le_antisymm (by nlinarith) hd
      rcases mul_eq_zero.1 (show (d - 1) * (d + 1) = 0 by linarith [show (d - 1) * (d + 1) = d ^ 2 - 1 by ring]) with h | h
      · exact .inl (by linarith)
      · exact .inr (by linarith)
    rcases hd' with rfl | rfl
    · have := key (b - a) 1 (-1)
      nlinarith
    · have := key (-(a + b)) 1 1
      nlinarith

namespace Correlation

/-- C140: with the correlations of one series to two others, the correlation between those two is bounded. -/
theorem pcc_three (s1 s2 s3 : List XF) (w i : ℕ) (l2 : s2.length = s1.length) (l3 : s3.length = s1.length) (hw : 1 ≤ w) (d1 : Fins s1) (d2 : Fins s2)
    (d3 : Fins s3) (h1 : w ≤ i + 1) (h2 : i < s1.length) (f1 : ¬ Flat (recent (vals s1) w i)) (f2 : ¬ Flat (recent (vals s2) w i))
    (f3 : ¬ Flat (recent (vals s3) w i)) : ∃ a b d : ℝ, Shows i (pcc s1 s2 w) a ∧ Shows i (pcc s1 s3 w) b ∧ Shows i (pcc s2 s3 w) d ∧
      a ^ 2 + b ^ 2 + d ^ 2 ≤ 1 + 2 * (a * b * d) := by
  obtain ⟨r, hr, ht⟩ := pcc_table ![s1, s2, s3] s1.length w i (by intro k; fin_cases k <;> simp [l2, l3]) hw
    (by intro k; fin_cases k <;> assumption) h1 h2 (by intro k; fin_cases k <;> assumption)
  exact ⟨r 0 1, r 0 2, r 1 2, hr 0 1, hr 0 2, hr 1 2, ht.three⟩

/-- Three short series that are not constant. -/
example : ∃ a b d : ℝ, Shows 2 (pcc [.fin 1, .fin 2, .fin 4] [.fin 3, .fin 1, .fin 2] 3 : Option (List XF)) a ∧
    Shows 2 (pcc [.fin 1, .fin 2, .fin 4] [.fin 0, .fin 5, .fin 5] 3 : Option (List XF)) b ∧
    Shows 2 (pcc [.fin 3, .fin 1, .fin 2] [.fin 0, .fin 5, .fin 5] 3 : Option (List XF)) d ∧ a ^ 2 + b ^ 2 + d ^ 2 ≤ 1 + 2 * (a * b * d) := by
  refine pcc_three _ _ _ 3 2 rfl rfl (by decide) (by simp [Fins, FP.Finite]) (by simp [Fins, FP.Finite]) (by simp [Fins, FP.Finite]) (by decide) (by decide)
    ?_ ?_ ?_ <;> intro h
  · have := h 1 (by simp [recent, vals, val]) 2 (by simp [recent, vals, val]); norm_num at this
  · have := h 3 (by simp [recent, vals, val]) 1 (by simp [recent, vals, val]); norm_num at this
  · have := h 0 (by simp [recent, vals, val]) 5 (by simp [recent, vals, val]); norm_num at this

example (srt : Distribution.Sorter XF) (hs : srt.Valid) : ∃ r : Fin 2 → Fin 2 → ℝ,
    (∀ k l, Shows 2 (srcc srt (![[.fin 1, .fin 2, .fin 4], [.fin 3, .fin 1, .fin 1]] k) (![[.fin 1, .fin 2, .fin 4], [.fin 3, .fin 1, .fin 1]] l) 3) (r k l)) ∧
    CorrTable r := by
  refine srcc_table _ 3 3 2 (by intro k; fin_cases k <;> rfl) (by decide) (by intro k; fin_cases k <;> simp [Fins, FP.Finite]) (by decide) (by decide)
    ?_ srt hs
  intro k h
  fin_cases k
  · have := h 1 (by simp [recent, vals, val]) 2 (by simp [recent, vals, val]); norm_num at this
  · have := h 3 (by simp [recent, vals, val]) 1 (by simp [recent, vals, val]); norm_num at this

end Correlation
end Traquer
