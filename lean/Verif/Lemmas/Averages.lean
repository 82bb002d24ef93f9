import Verif.Spec.Averages
import Verif.Lemmas.Range
import Verif.Props.Trailing
/-!
# Averages of series that start late
-/

namespace Traquer
open FP FloatLit

theorem some_bar {l : List ℝ} {i : ℕ} (h : i < l.length) : l[i]? = some (bar l i) := by simp [bar, h]

/-- A list whose values are those of `v` from bar `k` on, averaged. -/
theorem ewmaOf_eq {k w n : ℕ} {v : ℕ → ℝ} {l : List ℝ} (hw : 1 ≤ w) (hl : ∀ i, i < n → l[i]? = some (v (k + i))) (hn : w ≤ n) :
    ∀ i, w - 1 ≤ i → i < n → ewmaOf w l i = ewmaFrom k w v (k + i) := by
  have hm : mean (l.take w) = mean (lastOf v w (k + w - 1)) := by
    congr 1
    apply List.ext_getElem?
    intro i
    by_cases h : i < w
    · rw [List.getElem?_take_of_lt h, hl i (by omega), lastOf, List.getElem?_map, List.getElem?_range h]
      simp only [Option.map_some]
      congr 2; omega
    · rw [List.getElem?_eq_none (by simp; omega), List.getElem?_eq_none (by simp [lastOf]; omega)]
  have h0 : ewmaFrom k w v (k + (w - 1)) = mean (lastOf v w (k + w - 1)) := by
    cases h : k + (w - 1) with
    | zero => rfl
    | succ j => rw [ewmaFrom, if_pos (by omega)]
  intro i hi
  induction i, hi using Nat.le_induction with
  | base =>
    intro _
    rw [h0, ← hm]
    cases h : w - 1 with
    | zero => rfl
    | succ j => rw [ewmaOf, if_pos (by omega)]
  | succ i hi ih =>
    intro hin
    rw [ewmaOf, if_neg (by omega), ih (by omega), ← Nat.add_assoc, ewmaFrom, if_neg (by omega), hl (i + 1) hin]
    simp [Nat.add_assoc]

/-- `ewma` over the output of another indicator, its NaN prefix cut off. -/
theorem ewma_after {n k w : ℕ} {v : ℕ → ℝ} {m : List XF} (hm : Reports n k v (some m)) (hw : 1 ≤ w) (hn : k + w ≤ n) :
    ∃ m', sliceFrom m k = some (m.drop k) ∧ Smooth.ewma (m.drop k) w = some m' ∧
      Reports n (k + (w - 1)) (ewmaFrom k w v) (some (nans k ++ m')) ∧ m'.length = n - k := by
  obtain ⟨h1, h2, h3⟩ := hm.drop
  obtain ⟨m', e, r, l⟩ := (ewma_is (m.drop k) w hw (by omega) h1).some
  refine ⟨m', sliceFrom_of_le (by have := hm.length; omega), e, ?_, by omega⟩
  have := r.pad k
  rw [h2, show k + (n - k) = n by omega] at this
  refine this.congr fun i hi hin => ?_
  rw [ewmaOf_eq hw h3 (by omega) (i - k) (by omega) (by omega), show k + (i - k) = i by omega]

/-- `ewma` of a finite series. -/
theorem ewma_values (data : List XF) (w : ℕ) (hw : 1 ≤ w) (hn : w ≤ data.length) (hd : Fins data) :
    Reports data.length (w - 1) (ewmaFrom 0 w (bar (vals data))) (Smooth.ewma data w) := by
  refine (ewma_is data w hw hn hd).congr fun i hi hin => ?_
  rw [ewmaOf_eq (k := 0) (n := data.length) (v := bar (vals data)) hw (fun i hi => by
    rw [Nat.zero_add, some_bar (by simpa [vals] using hi)]) hn i hi hin, Nat.zero_add]

/-- The same for Wilder's average. -/
theorem wilderOf_eq {k w n : ℕ} {v : ℕ → ℝ} {l : List ℝ} (hw : 1 ≤ w) (hl : ∀ i, i < n → l[i]? = some (v (k + i))) (hn : w ≤ n) :
    ∀ i, w - 1 ≤ i → i < n → wilderOf w l i = wilderFrom k w v (k + i) := by
  have hm : mean (l.take w) = mean (lastOf v w (k + w - 1)) := by
    congr 1
    apply List.ext_getElem?
    intro i
    by_cases h : i < w
    · rw [List.getElem?_take_of_lt h, hl i (by omega), lastOf, List.getElem?_map, List.getElem?_range h]
      simp only [Option.map_some]
      congr 2; omega
    · rw [List.getElem?_eq_none (by simp; omega), List.getElem?_eq_none (by simp [lastOf]; omega)]
  have h0 : wilderFrom k w v (k + (w - 1)) = mean (lastOf v w (k + w - 1)) := by
    cases h : k + (w - 1) with
    | zero => rfl
    | succ j => rw [wilderFrom, if_pos (by omega)]
  intro i hi
  induction i, hi using Nat.le_induction with
  | base =>
    intro _
    rw [h0, ← hm]
    cases h : w - 1 with
    | zero => rfl
    | succ j => rw [wilderOf, if_pos (by omega)]
  | succ i hi ih =>
    intro hin
    rw [wilderOf, if_neg (by omega), ih (by omega), ← Nat.add_assoc, wilderFrom, if_neg (by omega), hl (i + 1) hin]
    simp [Nat.add_assoc]

/-- `wilder` over the output of another indicator, its NaN prefix cut off. -/
theorem wilder_after {n k w : ℕ} {v : ℕ → ℝ} {m : List XF} (hm : Reports n k v (some m)) (hw : 1 ≤ w) (hn : k + w ≤ n) :
    ∃ m', sliceFrom m k = some (m.drop k) ∧ Smooth.wilder (m.drop k) w = some m' ∧
      Reports n (k + (w - 1)) (wilderFrom k w v) (some (nans k ++ m')) ∧ m'.length = n - k := by
  obtain ⟨h1, h2, h3⟩ := hm.drop
  obtain ⟨m', e, r, l⟩ := (wilder_is (m.drop k) w hw (by omega) h1).some
  refine ⟨m', sliceFrom_of_le (by have := hm.length; omega), e, ?_, by omega⟩
  have := r.pad k
  rw [h2, show k + (n - k) = n by omega] at this
  refine this.congr fun i hi hin => ?_
  rw [wilderOf_eq hw h3 (by omega) (i - k) (by omega) (by omega), show k + (i - k) = i by omega]

/-- `wilder` of a finite series. -/
theorem wilder_values (data : List XF) (w : ℕ) (hw : 1 ≤ w) (hn : w ≤ data.length) (hd : Fins data) :
    Reports data.length (w - 1) (wilderFrom 0 w (bar (vals data))) (Smooth.wilder data w) := by
  refine (wilder_is data w hw hn hd).congr fun i hi hin => ?_
  rw [wilderOf_eq (k := 0) (n := data.length) (v := bar (vals data)) hw (fun i hi => by
    rw [Nat.zero_add, some_bar (by simpa [vals] using hi)]) hn i hi hin, Nat.zero_add]

end Traquer
