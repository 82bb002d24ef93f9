import Verif.Spec.Trend
import Verif.Props.Rsi
import Verif.Props.Accumulate
import Verif.Props.MomentumFormulas2
import Verif.Props.MoneyFlow
import Verif.Props.TrendFormulas
import Verif.Props.Stochastic
import Verif.Props.Aroon
import Verif.Props.Adx
import Verif.Props.Kendall
/-!
# C88: oscillators in a steady trend

While prices only rise the bounded oscillators sit at their upper end, while they only fall at their lower end.
-/

namespace Traquer
open FP

theorem Rising.lt {l : List ℝ} (h : Rising l) {i j : ℕ} (hij : i < j) (hj : j < l.length) : bar l i < bar l j := by
  induction j, (show i + 1 ≤ j by omega) using Nat.le_induction with
  | base => exact h i hj
  | succ j hj' ih => exact (ih (by omega) (by omega)).trans (h j hj)

theorem Falling.lt {l : List ℝ} (h : Falling l) {i j : ℕ} (hij : i < j) (hj : j < l.length) : bar l j < bar l i := by
  induction j, (show i + 1 ≤ j by omega) using Nat.le_induction with
  | base => exact h i hj
  | succ j hj' ih => exact (h j hj).trans (ih (by omega) (by omega))

theorem bar_eq {l : List ℝ} {j : ℕ} {a : ℝ} (h : l[j]? = some a) : bar l j = a := by
  rw [bar, List.getD_eq_getElem?_getD, h, Option.getD_some]

theorem Rising.step {l : List ℝ} (h : Rising l) {j : ℕ} {a b : ℝ} (ha : l[j]? = some a) (hb : l[j + 1]? = some b) : a < b := by
  have := h j (List.getElem?_eq_some_iff.1 hb).1
  rwa [bar_eq ha, bar_eq hb] at this

theorem Falling.step {l : List ℝ} (h : Falling l) {j : ℕ} {a b : ℝ} (ha : l[j]? = some a) (hb : l[j + 1]? = some b) : b < a := by
  have := h j (List.getElem?_eq_some_iff.1 hb).1
  rwa [bar_eq ha, bar_eq hb] at this

theorem Rising.pair {l : List ℝ} (h : Rising l) {p : ℝ × ℝ} (hp : p ∈ pairs l) : p.1 < p.2 := by
  obtain ⟨j, hj⟩ := List.mem_iff_getElem?.1 hp
  obtain ⟨h1, h2⟩ := pairs_getElem?_some hj
  exact h.step h1 h2

theorem Falling.pair {l : List ℝ} (h : Falling l) {p : ℝ × ℝ} (hp : p ∈ pairs l) : p.2 < p.1 := by
  obtain ⟨j, hj⟩ := List.mem_iff_getElem?.1 hp
  obtain ⟨h1, h2⟩ := pairs_getElem?_some hj
  exact h.step h1 h2

theorem bar_recent {l : List ℝ} {w i j : ℕ} (hj : j < w) : bar (recent l w i) j = bar l (i + 1 - w + j) := by
  simp [bar, recent, List.getD_eq_getElem?_getD, List.getElem?_take, hj, List.getElem?_drop]

theorem Rising.recent {l : List ℝ} (h : Rising l) (w i : ℕ) : Rising (recent l w i) := fun j hj => by
  have hl : (Traquer.recent l w i).length ≤ w := by simp [Traquer.recent]
  have hl2 : (Traquer.recent l w i).length ≤ l.length - (i + 1 - w) := by simp [Traquer.recent]
  rw [bar_recent (by omega), bar_recent (by omega)]
  exact h (i + 1 - w + j) (by omega)

theorem Falling.recent {l : List ℝ} (h : Falling l) (w i : ℕ) : Falling (recent l w i) := fun j hj => by
  have hl : (Traquer.recent l w i).length ≤ w := by simp [Traquer.recent]
  have hl2 : (Traquer.recent l w i).length ≤ l.length - (i + 1 - w) := by simp [Traquer.recent]
  rw [bar_recent (by omega), bar_recent (by omega)]
  exact h (i + 1 - w + j) (by omega)

theorem rises_of_rising {l : List ℝ} (h : Rising l) {x : ℝ} (hx : x ∈ rises l) : 0 < x := by
  obtain ⟨p, hp, rfl⟩ := List.mem_map.1 hx
  exact lt_max_of_lt_right (by linarith [h.pair hp])

theorem falls_of_rising {l : List ℝ} (h : Rising l) {x : ℝ} (hx : x ∈ falls l) : x = 0 := by
  obtain ⟨p, hp, rfl⟩ := List.mem_map.1 hx
  exact max_eq_left (by linarith [h.pair hp])

theorem falls_of_falling {l : List ℝ} (h : Falling l) {x : ℝ} (hx : x ∈ falls l) : 0 < x := by
  obtain ⟨p, hp, rfl⟩ := List.mem_map.1 hx
  exact lt_max_of_lt_right (by linarith [h.pair hp])

theorem rises_of_falling {l : List ℝ} (h : Falling l) {x : ℝ} (hx : x ∈ rises l) : x = 0 := by
  obtain ⟨p, hp, rfl⟩ := List.mem_map.1 hx
  exact max_eq_left (by linarith [h.pair hp])

theorem sum_zero {l : List ℝ} (h : ∀ x ∈ l, x = 0) : l.sum = 0 := List.sum_eq_zero h

theorem sum_positive {l : List ℝ} (hl : l ≠ []) (h : ∀ x ∈ l, 0 < x) : 0 < l.sum := List.sum_pos _ h hl

end Traquer

namespace Traquer.Momentum
open FP FloatLit

/-- A positive series has positive exponential averages. -/
theorem ewmaOf_pos {w : ℕ} {l : List ℝ} (hw : 1 ≤ w) {i : ℕ} (h1 : w ≤ i + 1) (h2 : i < l.length) (h : ∀ x ∈ l, 0 < x) : 0 < ewmaOf w l i := by
  have hne : l.take (i + 1) ≠ [] := by rw [← List.length_pos_iff]; simp; omega
  have := (ewmaOf_within (lo := minOf (l.take (i + 1))) (hi := maxOf (l.take (i + 1))) hw h1 h2
    fun x hx => ⟨minOf_le hx, le_maxOf hx⟩).1
  exact lt_of_lt_of_le (h _ (List.mem_of_mem_take (minOf_mem hne))) this

theorem ewmaOf_neg {w : ℕ} (l : List ℝ) (i : ℕ) : ewmaOf w (l.map fun x => -x) i = -ewmaOf w l i := by
  have hm : mean ((l.map fun x => -x).take w) = -mean (l.take w) := by
    rw [← List.map_take, mean, mean, List.length_map, ← List.sum_neg]
    exact neg_div _ _
  induction i with
  | zero => exact hm
  | succ i ih =>
    rw [ewmaOf, ewmaOf, hm, ih, List.getElem?_map]
    split
    · rfl
    · cases l[i + 1]? <;> simp <;> ring

theorem ewmaSeries_neg {w : ℕ} (l : List ℝ) : ewmaSeries w (l.map fun x => -x) = (ewmaSeries w l).map fun x => -x := by
  simp [ewmaSeries, ewmaOf_neg]

theorem ewmaSeries_pos {w : ℕ} {l : List ℝ} (hw : 1 ≤ w) (h : ∀ x ∈ l, 0 < x) : ∀ x ∈ ewmaSeries w l, 0 < x := fun x hx => by
  obtain ⟨j, hj, rfl⟩ := List.mem_map.1 hx
  rw [List.mem_range] at hj
  exact ewmaOf_pos hw (by omega) (by omega) h

section
variable (data : List XF) (hd : Fins data)
include hd

/-- C88: `rsi` is 100 while prices rise. -/
theorem rsi_rising (w : ℕ) (hw : 1 ≤ w) (hn : w + 1 ≤ data.length) (h : Rising (vals data)) : Reports data.length w (fun _ => 100) (rsi data w) :=
  (rsi_only_gains data w hw hn hd).mono fun _ _ _ _ hy => hy fun _ _ _ _ ha hb => h.step ha hb

/-- C88: `rsi` is 0 while prices fall. -/
theorem rsi_falling (w : ℕ) (hw : 1 ≤ w) (hn : w + 1 ≤ data.length) (h : Falling (vals data)) : Reports data.length w (fun _ => 0) (rsi data w) :=
  (rsi_only_losses data w hw hn hd).mono fun _ _ _ _ hy => hy fun _ _ _ _ ha hb => h.step ha hb

private theorem recent_long {w i : ℕ} (hi : w ≤ i) (hl : i < data.length) : (recent (vals data) (w + 1) i).length = w + 1 :=
  recent_length (by omega) (by simpa using hl)

/-- C88: `cmo` is 100 while prices rise. -/
theorem cmo_rising (w : ℕ) (hw : 1 ≤ w) (hn : w ≤ data.length) (h : Rising (vals data)) : Reports data.length w (fun _ => 100) (cmo data w) := by
  refine (cmo_reports data w hn (by omega) hd).mono fun i y hi hl hy => ?_
  have hr := h.recent (w + 1) i
  have h1 : (falls (recent (vals data) (w + 1) i)).sum = 0 := sum_zero fun x hx => falls_of_rising hr hx
  have h2 : 0 < (rises (recent (vals data) (w + 1) i)).sum := sum_positive (by
    rw [← List.length_pos_iff, rises_length, recent_long data hd hi hl]; omega) fun x hx => rises_of_rising hr hx
  refine (hy.1 (by rw [h1]; linarith)).congr ?_
  rw [h1, sub_zero, add_zero, div_self h2.ne', one_mul]

/-- C88: `cmo` is -100 while prices fall. -/
theorem cmo_falling (w : ℕ) (hw : 1 ≤ w) (hn : w ≤ data.length) (h : Falling (vals data)) : Reports data.length w (fun _ => -100) (cmo data w) := by
  refine (cmo_reports data w hn (by omega) hd).mono fun i y hi hl hy => ?_
  have hr := h.recent (w + 1) i
  have h1 : (rises (recent (vals data) (w + 1) i)).sum = 0 := sum_zero fun x hx => rises_of_falling hr hx
  have h2 : 0 < (falls (recent (vals data) (w + 1) i)).sum := sum_positive (by
    rw [← List.length_pos_iff, falls_length, recent_long data hd hi hl]; omega) fun x hx => falls_of_falling hr hx
  refine (hy.1 (by rw [h1]; linarith)).congr ?_
  rw [h1, zero_sub, zero_add, neg_div, div_self h2.ne']; norm_num

/-- C88: `tsi` is 100 while prices rise. -/
theorem tsi_rising (short long : ℕ) (hs : 1 ≤ short) (hl : 1 ≤ long) (hn : long + short ≤ data.length) (h : Rising (vals data)) :
    Reports data.length (long + short - 1) (fun _ => 100) (tsi data short long) := by
  refine (tsi_reports data short long hs hl hn hd).mono fun i y hi hlt hy => ?_
  have hp : ∀ x ∈ changes (vals data), 0 < x := fun x hx => by
    obtain ⟨p, hp, rfl⟩ := List.mem_map.1 hx
    linarith [h.pair hp]
  have e : (changes (vals data)).map (fun x => |x|) = changes (vals data) := by
    conv_rhs => rw [← List.map_id (changes (vals data))]
    exact List.map_congr_left fun x hx => abs_of_pos (hp x hx)
  have hlen : (changes (vals data)).length = data.length - 1 := by simp [changes]
  have pos := ewmaOf_pos (w := short) (i := i - long) hs (by omega) (by simp [ewmaSeries, hlen]; omega) (ewmaSeries_pos (w := long) hl hp)
  rw [e] at hy
  refine (hy.1 pos.ne').congr ?_
  rw [mul_div_assoc, div_self pos.ne', mul_one]

/-- C88: `tsi` is -100 while prices fall. -/
theorem tsi_falling (short long : ℕ) (hs : 1 ≤ short) (hl : 1 ≤ long) (hn : long + short ≤ data.length) (h : Falling (vals data)) :
    Reports data.length (long + short - 1) (fun _ => -100) (tsi data short long) := by
  refine (tsi_reports data short long hs hl hn hd).mono fun i y hi hlt hy => ?_
  have hp : ∀ x ∈ (changes (vals data)).map fun x => -x, 0 < x := fun x hx => by
    obtain ⟨y, hy, rfl⟩ := List.mem_map.1 hx
    obtain ⟨p, hp, rfl⟩ := List.mem_map.1 hy
    linarith [h.pair hp]
  have e : (changes (vals data)).map (fun x => |x|) = (changes (vals data)).map fun x => -x := by
    refine List.map_congr_left fun x hx => abs_of_neg ?_
    have := hp (-x) (List.mem_map.2 ⟨x, hx, rfl⟩)
    linarith
  have hlen : ((changes (vals data)).map fun x => -x).length = data.length - 1 := by simp [changes]
  have pos := ewmaOf_pos (w := short) (i := i - long) hs (by omega) (by rw [ewmaSeries, List.length_map, List.length_range, hlen]; omega)
    (ewmaSeries_pos (w := long) hl hp)
  rw [e] at hy
  refine (hy.1 pos.ne').congr ?_
  rw [ewmaSeries_neg, ewmaOf_neg] at pos ⊢
  rw [div_neg, mul_div_assoc, div_self (by linarith), mul_one]

/-- C88: `psych` is 100 while prices rise. -/
theorem psych_rising (w : ℕ) (hw : 1 ≤ w) (hn : w ≤ data.length) (hz : ∀ x ∈ data, x ≠ negz) (h : Rising (vals data)) :
    Reports data.length w (fun _ => 100) (psych data w) := by
  refine (psych_reports data w hw hn hd hz).congr fun i hi hlt => ?_
  have e : lastOf (fun j => if bar (vals data) j < bar (vals data) (j - 1) then (0 : ℝ) else 1) w i = List.replicate w 1 := by
    refine List.eq_replicate_iff.2 ⟨by simp [lastOf], fun x hx => ?_⟩
    obtain ⟨j, hj, rfl⟩ := List.mem_map.1 hx
    rw [List.mem_range] at hj
    exact if_neg (not_lt.2 (h.lt (by omega) (by simp; omega)).le)
  have hp := Smooth.natCast_pos hw
  rw [e, mean, List.sum_replicate, List.length_replicate, nsmul_eq_mul, mul_one, div_self hp.ne', mul_one]

/-- C88: `psych` is 0 while prices fall. -/
theorem psych_falling (w : ℕ) (hw : 1 ≤ w) (hn : w ≤ data.length) (hz : ∀ x ∈ data, x ≠ negz) (h : Falling (vals data)) :
    Reports data.length w (fun _ => 0) (psych data w) := by
  refine (psych_reports data w hw hn hd hz).congr fun i hi hlt => ?_
  have e : (lastOf (fun j => if bar (vals data) j < bar (vals data) (j - 1) then (0 : ℝ) else 1) w i).sum = 0 := sum_zero fun x hx => by
    obtain ⟨j, hj, rfl⟩ := List.mem_map.1 hx
    rw [List.mem_range] at hj
    exact if_pos (h.lt (by omega) (by simp; omega))
  rw [mean, e, zero_div, mul_zero]

end

/-- The mean of a window is below its last value if no value exceeds it and one is smaller. -/
theorem mean_lt_last {v : ℕ → ℝ} {w i : ℕ} (hw : 2 ≤ w) (hi : w ≤ i + 1) (h : ∀ j, i + 1 - w ≤ j → j < i → v j < v i) : mean (lastOf v w i) < v i := by
  have hp : (0 : ℝ) < w := by exact_mod_cast (by omega : 0 < w)
  have hl : (lastOf v w i).length = w := by simp [lastOf]
  rw [mean, hl, div_lt_iff₀ hp]
  have : (lastOf v w i).sum < ((List.range w).map fun _ => v i).sum := by
    refine List.sum_lt_sum _ _ (fun j hj => ?_) ⟨0, by simp; omega, h _ (by omega) (by omega)⟩
    rw [List.mem_range] at hj
    rcases (show i + 1 - w + j < i ∨ i + 1 - w + j = i by omega) with hlt | he
    · exact (h _ (by omega) hlt).le
    · rw [he]
  simpa [mul_comm] using this

/-- The mean of a window is above its last value if no value is below it and one is larger. -/
theorem last_lt_mean {v : ℕ → ℝ} {w i : ℕ} (hw : 2 ≤ w) (hi : w ≤ i + 1) (h : ∀ j, i + 1 - w ≤ j → j < i → v i < v j) : v i < mean (lastOf v w i) := by
  have hp : (0 : ℝ) < w := by exact_mod_cast (by omega : 0 < w)
  have hl : (lastOf v w i).length = w := by simp [lastOf]
  rw [mean, hl, lt_div_iff₀ hp]
  have : ((List.range w).map fun _ => v i).sum < (lastOf v w i).sum := by
    refine List.sum_lt_sum _ _ (fun j hj => ?_) ⟨0, by simp; omega, h _ (by omega) (by omega)⟩
    rw [List.mem_range] at hj
    rcases (show i + 1 - w + j < i ∨ i + 1 - w + j = i by omega) with hlt | he
    · exact (h _ (by omega) hlt).le
    · rw [he]
  simpa [mul_comm] using this

theorem lastOf_sum_pos {v : ℕ → ℝ} {w i : ℕ} (hw : 1 ≤ w) (hi : w ≤ i + 1) (h : ∀ j, j ≤ i → 0 ≤ v j) (hp : 0 < v i) : 0 < (lastOf v w i).sum := by
  have : ((List.range w).map fun _ => (0 : ℝ)).sum < (lastOf v w i).sum := by
    refine List.sum_lt_sum _ _ (fun j hj => ?_) ⟨w - 1, by simp; omega, ?_⟩
    · rw [List.mem_range] at hj
      exact h _ (by omega)
    · rw [show i + 1 - w + (w - 1) = i by omega]; exact hp
  simpa using this

/-- C88: `tii` is 100 while prices rise, from the bar on at which the average exists. -/
theorem tii_rising (data : List XF) (hd : Fins data) (w : ℕ) (hw : 2 ≤ w) (hn : w ≤ data.length + 1) (h : Rising (vals data)) :
    ReportsP data.length ((w + 1) / 2 - 1) (fun i y => w ≤ i + 1 → y ⇓ 100) (tii data w) := by
  refine (tii_reports data w (by omega) hn hd).mono fun i y hi hlt hy hwi => ?_
  have pos : ∀ j, w ≤ j + 1 → j ≤ i → 0 < deviation (bar (vals data)) w j := fun j h1 h2 => by
    rw [deviation, if_pos h1, sub_pos]
    exact mean_lt_last hw h1 fun k _ hk => h.lt hk (by simp; omega)
  have nn : ∀ j, j ≤ i → 0 ≤ deviation (bar (vals data)) w j := fun j hj => by
    by_cases h1 : w ≤ j + 1
    · exact (pos j h1 hj).le
    · rw [deviation, if_neg h1]
  have d0 : (lastOf (fun j => max (-deviation (bar (vals data)) w j) 0) ((w + 1) / 2) i).sum = 0 := sum_zero fun x hx => by
    obtain ⟨j, hj, rfl⟩ := List.mem_map.1 hx
    rw [List.mem_range] at hj
    exact max_eq_right (by linarith [nn (i + 1 - (w + 1) / 2 + j) (by omega)])
  have u0 : 0 < (lastOf (fun j => max (deviation (bar (vals data)) w j) 0) ((w + 1) / 2) i).sum :=
    lastOf_sum_pos (by omega) (by omega) (fun j _ => le_max_right _ _) (lt_max_of_lt_left (pos i hwi le_rfl))
  simp only [d0, add_zero] at hy
  refine (hy.1 u0.ne').congr ?_
  rw [mul_div_assoc, div_self u0.ne', mul_one]

/-- C88: `tii` is 0 while prices fall, from the bar on at which the average exists. -/
theorem tii_falling (data : List XF) (hd : Fins data) (w : ℕ) (hw : 2 ≤ w) (hn : w ≤ data.length + 1) (h : Falling (vals data)) :
    ReportsP data.length ((w + 1) / 2 - 1) (fun i y => w ≤ i + 1 → y ⇓ 0) (tii data w) := by
  refine (tii_reports data w (by omega) hn hd).mono fun i y hi hlt hy hwi => ?_
  have neg : ∀ j, w ≤ j + 1 → j ≤ i → deviation (bar (vals data)) w j < 0 := fun j h1 h2 => by
    rw [deviation, if_pos h1, sub_neg]
    exact last_lt_mean hw h1 fun k _ hk => h.lt hk (by simp; omega)
  have nn : ∀ j, j ≤ i → deviation (bar (vals data)) w j ≤ 0 := fun j hj => by
    by_cases h1 : w ≤ j + 1
    · exact (neg j h1 hj).le
    · rw [deviation, if_neg h1]
  have u0 : (lastOf (fun j => max (deviation (bar (vals data)) w j) 0) ((w + 1) / 2) i).sum = 0 := sum_zero fun x hx => by
    obtain ⟨j, hj, rfl⟩ := List.mem_map.1 hx
    rw [List.mem_range] at hj
    exact max_eq_right (nn (i + 1 - (w + 1) / 2 + j) (by omega))
  have d0 : 0 < (lastOf (fun j => max (-deviation (bar (vals data)) w j) 0) ((w + 1) / 2) i).sum :=
    lastOf_sum_pos (by omega) (by omega) (fun j _ => le_max_right _ _) (lt_max_of_lt_left (by linarith [neg i hwi le_rfl]))
  simp only [u0, zero_add, mul_zero] at hy
  refine (hy.1 d0.ne').congr ?_
  rw [zero_div]

end Traquer.Momentum
