import Verif.Props.Rsi64
import Verif.Props.SignCases
/-!
# C94: concrete cases
-/

namespace Traquer
open FP FloatLit

theorem price_nat (n : ℕ) (h1 : 1 ≤ n) (h : n ≤ 2 ^ 53) : Price (FP.fin (n : ℝ)) := by
  refine ⟨stored_nat n h, n, ⟨trivial, rfl⟩, ?_, ?_⟩
  · have : (1 : ℝ) ≤ n := by exact_mod_cast h1
    refine le_trans ?_ this
    exact zpow_le_one_of_nonpos₀ (by norm_num) (by norm_num)
  · have : (n : ℝ) ≤ 2 ^ 53 := by exact_mod_cast h
    exact this.trans (pow_le_pow_right₀ (by norm_num) (by norm_num))

theorem plain_nat (n : ℕ) (h : n ≤ 2 ^ 53) : Plain (FP.fin (n : ℝ)) := by
  rcases Nat.eq_zero_or_pos n with rfl | h1
  · refine ⟨stored_nat 0 (by norm_num), 0, ⟨trivial, by simp [FP.val]⟩, .inl rfl, by positivity⟩
  · exact (price_nat n h1 h).plain

/-- Whole prices. -/
noncomputable def whole (l : List ℕ) : List F64 := l.map fun n : ℕ => FP.fin (n : ℝ)

theorem whole_price {l : List ℕ} (h : ∀ n ∈ l, 1 ≤ n ∧ n ≤ 2 ^ 53) : ∀ x ∈ whole l, Price x := fun x hx => by
  obtain ⟨n, hn, rfl⟩ := List.mem_map.1 hx
  exact price_nat n (h n hn).1 (h n hn).2
theorem whole_plain {l : List ℕ} (h : ∀ n ∈ l, n ≤ 2 ^ 53) : ∀ x ∈ whole l, Plain x := fun x hx => by
  obtain ⟨n, hn, rfl⟩ := List.mem_map.1 hx
  exact plain_nat n (h n hn)
theorem whole_fins (l : List ℕ) : Fins (whole l) := fun x hx => by
  obtain ⟨n, hn, rfl⟩ := List.mem_map.1 hx
  trivial
theorem whole_vals (l : List ℕ) : vals (whole l) = l.map fun n : ℕ => (n : ℝ) := by
  simp [whole, vals, FP.val, Function.comp_def]

end Traquer

namespace Traquer.Volume
open FP FloatLit

/-- Three bars, one without volume: the mean of 20 and 30 with weights 1 and 3. -/
example : ∃ out y, vwma (whole [10, 20, 30]) (whole [0, 1, 3]) 2 = some out ∧ out[2]? = some y ∧ WithinUnits 12 (55 / 2) y := by
  obtain ⟨out, e, -, -, h⟩ := vwma_accurate (whole [10, 20, 30]) (whole [0, 1, 3]) 2 rfl (by norm_num) (by norm_num) (by simp [whole])
    (whole_price (by simp)) (whole_plain (by simp))
  obtain ⟨y, hy, q⟩ := h 2 (by norm_num) (by simp [whole])
  refine ⟨out, y, e, hy, ?_⟩
  norm_num [whole_vals, recent] at q
  exact q

/-- The second session starts at bar 2. -/
example : ∃ out y, vwap (whole [12, 20, 33, 36]) (whole [9, 18, 27, 30]) (whole [9, 19, 30, 33]) (whole [5, 1, 2, 0]) (some [2]) = some out ∧
    out[3]? = some y ∧ WithinUnits 18 30 y := by
  obtain ⟨out, e, -, -, h⟩ := vwap_accurate (whole [12, 20, 33, 36]) (whole [9, 18, 27, 30]) (whole [9, 19, 30, 33]) (whole [5, 1, 2, 0]) (some [2])
    rfl rfl rfl (by simp [whole]) (whole_price (by simp)) (whole_price (by simp)) (whole_price (by simp)) (whole_plain (by simp))
    (by simp) (by simp)
  obtain ⟨y, hy, q⟩ := h 3 (by norm_num) (by simp [whole])
  refine ⟨out, y, e, hy, ?_⟩
  norm_num [whole_vals, session, lastReset, recent, zip4, typical] at q
  exact q

theorem index_room {x : ℝ} (h1 : 1 ≤ x) (h2 : x ≤ 1000) : (2 : ℝ) ^ (-900 : ℤ) ≤ x ∧ x ≤ 2 ^ 900 :=
  ⟨(zpow_le_one_of_nonpos₀ (by norm_num) (by norm_num)).trans h1, h2.trans (le_trans (by norm_num : (1000 : ℝ) ≤ 2 ^ 10)
    (pow_le_pow_right₀ (by norm_num) (by norm_num)))⟩

/-- Volume rises at bar 1 only. -/
example : ∃ y, (pvi (whole [10, 13, 17]) (whole [5, 6, 4]))[2]? = some y ∧ WithinUnits 8 130 y := by
  have f1 : pviFactor (vals (whole [10, 13, 17])) (vals (whole [5, 6, 4])) 1 = 13 / 10 := by norm_num [pviFactor, whole_vals, bar]
  have f2 : pviFactor (vals (whole [10, 13, 17])) (vals (whole [5, 6, 4])) 2 = 1 := by norm_num [pviFactor, whole_vals, bar]
  obtain ⟨out, e, -, -, h⟩ := pvi_accurate (whole [10, 13, 17]) (whole [5, 6, 4]) rfl (by simp [whole]) (by simp [whole])
    (whole_price (by simp)) (whole_fins _) (by
      intro i hi
      simp only [whole, List.length_map, List.length_cons, List.length_nil] at hi
      interval_cases i
      · exact index_room (by norm_num) (by norm_num)
      · rw [Finset.prod_Ico_succ_top (by norm_num), f1]; exact index_room (by norm_num) (by norm_num)
      · rw [Finset.prod_Ico_succ_top (by norm_num), Finset.prod_Ico_succ_top (by norm_num), f1, f2]; exact index_room (by norm_num) (by norm_num))
  cases e
  obtain ⟨y, hy, q⟩ := h 2 (by norm_num) (by simp [whole])
  refine ⟨y, hy, ?_⟩
  rw [Finset.prod_Ico_succ_top (by norm_num), Finset.prod_Ico_succ_top (by norm_num), f1, f2] at q
  norm_num at q
  exact q

/-- Volume falls at bar 2 only. -/
example : ∃ y, (nvi (whole [10, 20, 17]) (whole [5, 6, 4]))[2]? = some y ∧ WithinUnits 8 85 y := by
  have f1 : nviFactor (vals (whole [10, 20, 17])) (vals (whole [5, 6, 4])) 1 = 1 := by norm_num [nviFactor, whole_vals, bar]
  have f2 : nviFactor (vals (whole [10, 20, 17])) (vals (whole [5, 6, 4])) 2 = 17 / 20 := by norm_num [nviFactor, whole_vals, bar]
  obtain ⟨out, e, -, -, h⟩ := nvi_accurate (whole [10, 20, 17]) (whole [5, 6, 4]) rfl (by simp [whole]) (by simp [whole])
    (whole_price (by simp)) (whole_fins _) (by
      intro i hi
      simp only [whole, List.length_map, List.length_cons, List.length_nil] at hi
      interval_cases i
      · exact index_room (by norm_num) (by norm_num)
      · rw [Finset.prod_Ico_succ_top (by norm_num), f1]; exact index_room (by norm_num) (by norm_num)
      · rw [Finset.prod_Ico_succ_top (by norm_num), Finset.prod_Ico_succ_top (by norm_num), f1, f2]; exact index_room (by norm_num) (by norm_num))
  cases e
  obtain ⟨y, hy, q⟩ := h 2 (by norm_num) (by simp [whole])
  refine ⟨y, hy, ?_⟩
  rw [Finset.prod_Ico_succ_top (by norm_num), Finset.prod_Ico_succ_top (by norm_num), f1, f2] at q
  norm_num at q
  exact q

end Traquer.Volume

namespace Traquer.Momentum
open FP FloatLit

theorem visible_of {x : ℝ} (h1 : 1 ≤ 100 * x) : Visible x := by
  right
  have h : (2 : ℝ) ^ (-900 : ℤ) ≤ 2 ^ (-7 : ℤ) := zpow_le_zpow_right₀ (by norm_num) (by norm_num)
  refine h.trans ?_
  norm_num
  linarith

/-- A rise of 3 and a fall of 1 on prices far above them: `rsi` is 75. -/
example : ∃ out y, rsi (whole [1000000, 1000003, 1000002]) 2 = some out ∧ out[2]? = some y ∧ Approx y 75 (30 * unit64 * 75 + 2⁻¹ ^ 1075) := by
  have er : rises (vals (whole [1000000, 1000003, 1000002])) = [3, 0] := by norm_num [rises, whole_vals, pairs]
  have ef : falls (vals (whole [1000000, 1000003, 1000002])) = [0, 1] := by norm_num [falls, whole_vals, pairs]
  have wr : wilderOf 2 [3, 0] 1 = 3 / 2 := by norm_num [wilderOf, mean]
  have wf : wilderOf 2 [0, 1] 1 = 1 / 2 := by norm_num [wilderOf, mean]
  obtain ⟨out, e, -, -, h⟩ := rsi_accurate (whole [1000000, 1000003, 1000002]) 2 (by norm_num) (by norm_num) (by simp [whole]) (by simp [whole])
    (whole_price (by simp)) (by
      intro i h1 h2
      simp only [whole, List.length_map, List.length_cons, List.length_nil] at h2
      obtain rfl : i = 1 := by omega
      rw [er, wr]; exact visible_of (by norm_num)) (by
      intro i h1 h2
      simp only [whole, List.length_map, List.length_cons, List.length_nil] at h2
      obtain rfl : i = 1 := by omega
      rw [ef, wf]; exact visible_of (by norm_num))
  obtain ⟨y, hy, q⟩ := h 2 (by norm_num) (by simp [whole])
  refine ⟨out, y, e, hy, ?_⟩
  rw [er, ef] at q
  simp only [show 2 - 1 = 1 by norm_num, wr, wf] at q
  have := q (by norm_num)
  rw [show (100 * (3 / 2) / (3 / 2 + 1 / 2) : ℝ) = 75 by norm_num, show (12 * ((2 : ℕ) : ℝ) + 6) = 30 by norm_num] at this
  exact this

end Traquer.Momentum
