import Verif.Props.Docs
import Verif.Props.Identities
/-!
# C136: when the choppiness index stays within 0 and 100

`chop` adds up true ranges, and the first of them looks at the close before the window. If that close lies within the range of the window, the
reading is between 0 and 100. If it does not, no number bounds the reading.
-/

namespace Traquer.Volatility
open FP

/-- No true range of the window is wider than the window, if the close before it lies within. -/
theorem trSum_le {high low close : List ℝ} {w i : ℕ} {H L : ℝ} (hi : w ≤ i)
    (hs : ∀ j, j ≤ i → bar low j ≤ bar close j ∧ bar close j ≤ bar high j)
    (hH : ∀ j, i + 1 - w ≤ j → j ≤ i → bar high j ≤ H) (hL : ∀ j, i + 1 - w ≤ j → j ≤ i → L ≤ bar low j)
    (h0 : L ≤ bar close (i - w) ∧ bar close (i - w) ≤ H) : (lastOf (trAt high low close) w i).sum ≤ w * (H - L) := by
  have := List.sum_le_card_nsmul (lastOf (trAt high low close) w i) (H - L) fun y hy => by
    obtain ⟨j, hj, rfl⟩ := List.mem_map.1 hy
    have := List.mem_range.1 hj
    generalize ha : i + 1 - w + j = a
    have a1 := hH a (by omega) (by omega)
    have a2 := hL a (by omega) (by omega)
    have a3 := hs a (by omega)
    have a4 : L ≤ bar close (a - 1) ∧ bar close (a - 1) ≤ H := by
      rcases Nat.eq_zero_or_pos j with rfl | hj0
      · rwa [show a - 1 = i - w by omega]
      · have b1 := hH (a - 1) (by omega) (by omega)
        have b2 := hL (a - 1) (by omega) (by omega)
        have b3 := hs (a - 1) (by omega)
        exact ⟨by linarith, by linarith⟩
    rw [trAt, trueRangeOf]
    refine max_le (by linarith) (max_le (abs_le.2 ⟨by linarith, by linarith⟩) (abs_le.2 ⟨by linarith, by linarith⟩))
  simpa [lastOf] using this

/-- C136: wherever the window has a range and the close before the window lies within it, `chop` is a number between 0 and 100. -/
theorem chop_within (high low close : List XF) (w : ℕ) (hl : low.length = high.length) (hc : close.length = high.length)
    (hw : 2 ≤ w) (hn : w ≤ high.length) (fh : Fins high) (fl : Fins low) (fc : Fins close)
    (hs : ∀ i, i < high.length → bar (vals low) i ≤ bar (vals close) i ∧ bar (vals close) i ≤ bar (vals high) i) : ReportsP high.length w
      (fun i y => maxOf (recent (vals high) w i) ≠ minOf (recent (vals low) w i) →
        minOf (recent (vals low) w i) ≤ bar (vals close) (i - w) ∧ bar (vals close) (i - w) ≤ maxOf (recent (vals high) w i) →
        ∃ r, y ⇓ r ∧ 0 ≤ r ∧ r ≤ 100) (chop high low close w) := by
  refine (chop_reports high low close w hl hc hw hn fh fl fc).mono fun i y hi hin h1 hne h0 => ?_
  have bH : ∀ j, i + 1 - w ≤ j → j ≤ i → bar (vals high) j ≤ maxOf (recent (vals high) w i) := fun j a b =>
    le_maxOf (bar_mem_recent (by omega) (by simpa using hin) a b)
  have bL : ∀ j, i + 1 - w ≤ j → j ≤ i → minOf (recent (vals low) w i) ≤ bar (vals low) j := fun j a b =>
    minOf_le (bar_mem_recent (by omega) (by simp; omega) a b)
  have S := trSum_le (high := vals high) (low := vals low) (close := vals close) hi (fun j hj => hs j (by omega)) bH bL h0
  have R : 0 < maxOf (recent (vals high) w i) - minOf (recent (vals low) w i) := by
    have := hs i hin
    have := bH i (by omega) le_rfl
    have := bL i (by omega) le_rfl
    exact sub_pos.2 (lt_of_le_of_ne (by linarith) (Ne.symm hne))
  have w1 : (1 : ℝ) < w := by exact_mod_cast (by omega : 1 < w)
  have T : maxOf (recent (vals high) w i) - minOf (recent (vals low) w i) ≤ (lastOf (trAt (vals high) (vals low) (vals close)) w i).sum := by
    obtain ⟨x, x1, x2, ex⟩ := mem_recent_bar (l := vals high) (w := w) (i := i) (by omega) (by simpa using hin)
      (maxOf_mem (List.ne_nil_of_length_pos (by rw [recent_length (by omega) (by simpa using hin)]; omega)))
    obtain ⟨z, z1, z2, ez⟩ := mem_recent_bar (l := vals low) (w := w) (i := i) (by omega) (by simp; omega)
      (minOf_mem (List.ne_nil_of_length_pos (by rw [recent_length (by omega) (by simp; omega)]; omega)))
    have key := (range_le_sum (high := vals high) (low := vals low) (close := vals close) (a := i + 1 - w) (w - 1)
      (fun j h1 h2 => hs j (by omega))).2 x z x1 (by omega) z1 (by omega)
    rw [← ex, ← ez, show w - 1 + 1 = w by omega] at key
    exact key
  have l2 := Real.log_pos w1
  refine ⟨_, h1 (R.trans_le T) R, ?_, ?_⟩
  · have := Real.log_nonneg ((one_le_div R).2 T)
    positivity
  · rw [div_le_iff₀ l2]
    exact mul_le_mul_of_nonneg_left (Real.log_le_log (div_pos (R.trans_le T) R) ((div_le_iff₀ R).2 S)) (by norm_num)

/-- The bars of `chop_unbounded`: a bar that trades at `-M` only, then two bars between 0 and 1. -/
noncomputable def gapHigh (M : ℝ) : List XF := [.fin (-M), .fin 1, .fin 1]
noncomputable def gapLow (M : ℝ) : List XF := [.fin (-M), .fin 0, .fin 0]

/-- C136: after a gap `chop` exceeds every number, even for bars whose close lies within their range. -/
theorem chop_unbounded (B : ℝ) : ∃ (high low close : List XF) (r : ℝ), Fins high ∧ Fins low ∧ Fins close ∧
    low.length = high.length ∧ close.length = high.length ∧
    (∀ i, i < high.length → bar (vals low) i ≤ bar (vals close) i ∧ bar (vals close) i ≤ bar (vals high) i) ∧
    Shows 2 (chop high low close 2) r ∧ B < r := by
  set M := Real.exp (B * Real.log 2 / 100)
  have M0 : 0 < M := Real.exp_pos _
  have l2 : 0 < Real.log 2 := Real.log_pos (by norm_num)
  have fh : Fins (gapHigh M) := by simp [gapHigh, Fins]
  have fl : Fins (gapLow M) := by simp [gapLow, Fins]
  have vh : vals (gapHigh M) = [-M, 1, 1] := by simp [vals, gapHigh]
  have vl : vals (gapLow M) = [-M, 0, 0] := by simp [vals, gapLow]
  refine ⟨gapHigh M, gapLow M, gapLow M, 100 * Real.log (M + 2) / Real.log 2, fh, fl, fl, by simp [gapLow, gapHigh], by simp [gapLow, gapHigh], ?_, ?_, ?_⟩
  · intro i hi
    rw [vh, vl]
    have : i < 3 := hi
    obtain rfl | rfl | rfl : i = 0 ∨ i = 1 ∨ i = 2 := by omega
    all_goals norm_num [bar]
  · refine (chop_reports (gapHigh M) (gapLow M) (gapLow M) 2 rfl rfl (by norm_num) (by simp [gapHigh]) fh fl fl).shows le_rfl (by simp [gapHigh]) fun y hy => ?_
    have e1 : (lastOf (trAt (vals (gapHigh M)) (vals (gapLow M)) (vals (gapLow M))) 2 2).sum = M + 2 := by
      rw [vh, vl]
      have h1 : max (1 : ℝ) (max |1 + M| |M|) = 1 + M := by
        rw [abs_of_pos (by linarith), abs_of_pos M0, max_eq_left (by linarith : M ≤ 1 + M), max_eq_right (by linarith)]
      simp [lastOf, List.range_succ, trAt, trueRangeOf, bar, h1]
      linarith
    have e2 : maxOf (recent (vals (gapHigh M)) 2 2) = 1 := by rw [vh]; exact maxOf_eq (by simp [recent]) (by simp [recent])
    have e3 : minOf (recent (vals (gapLow M)) 2 2) = 0 := by rw [vl]; exact minOf_eq (by simp [recent]) (by simp [recent])
    rw [e1, e2, e3] at hy
    have := hy (by linarith) (by norm_num)
    simpa using this
  · rw [lt_div_iff₀ l2]
    have : Real.log M < Real.log (M + 2) := Real.log_lt_log M0 (by linarith)
    rw [Real.log_exp] at this
    linarith

/-- C136: the hypotheses of `chop_within` are met by three bars; the close before the window lies within its range. -/
example : ∃ r, Shows 2 (chop ([3, 4, 5].map (fin : ℝ → XF)) ([1, 1, 2].map fin) ([2, 3, 4].map fin) 2) r ∧ 0 ≤ r ∧ r ≤ 100 := by
  obtain ⟨o, e, -, -, h⟩ := chop_within ([3, 4, 5].map (fin : ℝ → XF)) ([1, 1, 2].map fin) ([2, 3, 4].map fin) 2 rfl rfl (by norm_num) (by simp)
    (by simp [Fins]) (by simp [Fins]) (by simp [Fins]) (fun i hi => by
      have : i < 3 := hi
      obtain rfl | rfl | rfl : i = 0 ∨ i = 1 ∨ i = 2 := by omega
      all_goals norm_num [bar, vals])
  obtain ⟨y, hy, h⟩ := h 2 le_rfl (by simp)
  have e2 : maxOf (recent (vals ([3, 4, 5].map (fin : ℝ → XF))) 2 2) = 5 := maxOf_eq (by simp [recent, vals]) (by norm_num [recent, vals])
  have e3 : minOf (recent (vals ([1, 1, 2].map (fin : ℝ → XF))) 2 2) = 1 := minOf_eq (by simp [recent, vals]) (by norm_num [recent, vals])
  rw [e2, e3] at h
  obtain ⟨r, hr, h⟩ := h (by norm_num) (by norm_num [bar, vals])
  exact ⟨r, ⟨o, y, e, hy, hr⟩, h⟩

end Traquer.Volatility
