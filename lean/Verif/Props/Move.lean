import Verif.Spec.Move
import Verif.Lemmas.Cauchy
import Verif.Lemmas.Averages
import Verif.Props.Accumulate
import Verif.Props.ForecastErrors
import Verif.Props.MomentumFormulas
import Verif.Props.Extremes
import Verif.Props.Identities
import Verif.Props.Dispersion
import Verif.Props.SmoothWeights
import Verif.Props.Composed
import Verif.Props.Bands
import Verif.Props.Settle2
import Verif.Props.TrendFormulas
/-!
# C110: what one more bar does

How the reading changes from one bar to the next, and how far a single bar can push it.
-/

namespace Traquer
open FP FloatLit
open scoped BigOperators
variable {ρ : Rounding}

theorem Reports.moves {n k : ℕ} {v : ℕ → ℝ} {r : Option (List (FP ρ))} (h : Reports n k v r) {P : ℕ → ℝ → ℝ → Prop}
    (hP : ∀ i, k < i → i < n → P i (v (i - 1)) (v i)) : Moves n k P r := by
  obtain ⟨out, e, l, -, hv⟩ := h
  refine ⟨out, e, l, fun i hi hn => ?_⟩
  obtain ⟨x, hx, vx⟩ := hv (i - 1) (by omega) (by omega)
  obtain ⟨y, hy, vy⟩ := hv i (by omega) hn
  exact ⟨x, y, _, _, hx, hy, vx, vy, hP i hi hn⟩

theorem lastOf_sum_move (v : ℕ → ℝ) {w i : ℕ} (h : w ≤ i) : (lastOf v w i).sum = (lastOf v w (i - 1)).sum + (v i - v (i - w)) := by
  rcases Nat.eq_zero_or_pos w with rfl | hw
  · simp [lastOf]
  rw [lastOf_sum_Ico v (show w ≤ i + 1 by omega), lastOf_sum_Ico v (show w ≤ i - 1 + 1 by omega), show i - 1 + 1 = i by omega,
    Finset.sum_Ico_succ_top (by omega), Finset.sum_eq_sum_Ico_succ_bot (show i - w < i by omega), show i - w + 1 = i + 1 - w by omega]
  ring

theorem lastOf_mean_move (v : ℕ → ℝ) {w i : ℕ} (h : w ≤ i) : mean (lastOf v w i) = mean (lastOf v w (i - 1)) + (v i - v (i - w)) / w := by
  have l : ∀ j, (lastOf v w j).length = w := fun j => by simp [lastOf]
  rw [mean_of_length (l i), mean_of_length (l (i - 1)), lastOf_sum_move v h, add_div]

theorem recent_mean_move {l : List ℝ} {w i : ℕ} (h : w ≤ i) (hi : i < l.length) (hw : 1 ≤ w) :
    mean (recent l w i) = mean (recent l w (i - 1)) + (bar l i - bar l (i - w)) / w := by
  rw [← lastOf_bar (by omega) hi, ← lastOf_bar (by omega) (by omega)]
  exact lastOf_mean_move _ h

theorem bar_recent_mem {l : List ℝ} {w i j : ℕ} (h : w ≤ i + 1) (hi : i < l.length) (h1 : i + 1 - w ≤ j) (h2 : j ≤ i) : bar l j ∈ recent l w i := by
  rw [← lastOf_bar h hi]
  exact (mem_lastOf h).2 ⟨j, h1, h2, rfl⟩

end Traquer

namespace Traquer.Smooth
open FP FloatLit
open scoped BigOperators

section
variable {data : List XF} {w : ℕ} (hw : 1 ≤ w) (hd : Fins data)
include hw hd

/-- C110: `sma` moves by the difference between the new bar and the one that leaves, over the window. -/
theorem sma_moves (hn : w ≤ data.length + 1) :
    Moves data.length (w - 1) (fun i a b => b = a + (bar (vals data) i - bar (vals data) (i - w)) / w) (sma data w) :=
  (sma_reports data w hw hn hd).moves fun i h1 h2 => recent_mean_move (by omega) (by simpa [vals] using h2) hw

/-- C110: so one bar moves `sma` by at most the range of the last `w + 1` bars over the window. -/
theorem sma_moves_bound (hn : w ≤ data.length + 1) :
    Moves data.length (w - 1) (fun i a b => ∀ lo hi, Within lo hi (recent (vals data) (w + 1) i) → |b - a| ≤ (hi - lo) / w) (sma data w) := by
  refine (sma_reports data w hw hn hd).moves fun i h1 h2 lo hi hr => ?_
  have h2' : i < (vals data).length := by simpa [vals] using h2
  have hw' : (0 : ℝ) < w := by exact_mod_cast hw
  have m1 := hr _ (bar_recent_mem (j := i) (show w + 1 ≤ i + 1 by omega) h2' (by omega) le_rfl)
  have m2 := hr _ (bar_recent_mem (j := i - w) (show w + 1 ≤ i + 1 by omega) h2' (by omega) (by omega))
  rw [recent_mean_move (by omega) h2' hw, add_sub_cancel_left, abs_div, abs_of_pos hw']
  gcongr
  rw [abs_le]
  constructor <;> linarith [m1.1, m1.2, m2.1, m2.2]

omit hd in
theorem wma_weights_sum : ((List.range' 1 w).map fun i : ℕ => (i : ℝ)).sum = w * (w + 1) / 2 := by
  clear hw
  induction w with
  | zero => simp
  | succ w ih =>
    rw [List.range'_1_concat, List.map_append, List.sum_append, ih]
    simp
    ring

omit hd in
theorem wma_window (v : ℕ → ℝ) (i : ℕ) : (((List.range' 1 w).map fun i : ℕ => (i : ℝ)).zip (lastOf v w i)).map (fun p => p.1 * p.2) =
    (List.range w).map fun k : ℕ => ((k : ℝ) + 1) * v (i + 1 - w + k) := by
  clear hw
  rw [lastOf, List.range'_eq_map_range, List.map_map, List.zip_map', List.map_map]
  refine List.map_congr_left fun k _ => ?_
  simp [add_comm]

/-- C110: `wma` moves by `2 / (w + 1)` of the distance from the plain mean of the previous window to the new bar. -/
theorem wma_moves (hn : w ≤ data.length + 1) :
    Moves data.length (w - 1) (fun i a b => b = a + 2 / (w + 1) * (bar (vals data) i - mean (recent (vals data) w (i - 1)))) (wma data w) := by
  refine (wma_reports data w hw hn hd).moves fun i h1 h2 => ?_
  have h2' : i < (vals data).length := by simpa [vals] using h2
  have hw' : (0 : ℝ) < w := by exact_mod_cast hw
  rw [← lastOf_bar (by omega) h2', ← lastOf_bar (by omega) (show i - 1 < (vals data).length by omega)]
  generalize bar (vals data) = v
  unfold weightedMean
  rw [wma_weights_sum hw, wma_window hw, wma_window hw, mean_of_length (w := w) (by simp [lastOf]), sum_over_range, sum_over_range]
  have e : ∀ k, v (i + 1 - w + k) = v (i - 1 + 1 - w + (k + 1)) := fun k => by congr 1; omega
  simp only [e]
  rw [lastOf, sum_over_range]
  have ex : v i = v (i - 1 + 1 - w + w) := by congr 1; omega
  rw [ex]
  generalize hu : (fun k => v (i - 1 + 1 - w + k)) = u
  have hu' : ∀ k, v (i - 1 + 1 - w + k) = u k := fun k => by rw [← hu]
  simp only [hu']
  have key : ∑ k ∈ Finset.range w, ((k : ℝ) + 1) * u (k + 1) = ∑ k ∈ Finset.range w, ((k : ℝ) + 1) * u k - ∑ k ∈ Finset.range w, u k + w * u w := by
    rw [← Finset.sum_sub_distrib]
    have := Finset.sum_range_succ' (fun k : ℕ => (k : ℝ) * u k) w
    rw [Finset.sum_range_succ] at this
    push_cast at this
    rw [zero_mul, add_zero] at this
    rw [← this]
    congr 1
    exact Finset.sum_congr rfl fun k _ => by ring
  rw [key]
  field_simp
  ring

end

section
variable {data : List XF} {w : ℕ} (hw : 1 ≤ w) (hd : Fins data) (hn : w ≤ data.length)
include hw hd hn

/-- C110: `ewma` moves by `2 / (w + 1)` of the distance to the new bar: towards it and not past it. -/
theorem ewma_moves : Moves data.length (w - 1)
    (fun i a b => b = a + 2 / (w + 1) * (bar (vals data) i - a) ∧ Between a b (bar (vals data) i)) (ewma data w) := by
  refine (ewma_values data w hw hn hd).moves fun i h1 h2 => ?_
  obtain ⟨i, rfl⟩ : ∃ j, i = j + 1 := ⟨i - 1, by omega⟩
  have hw' : (1 : ℝ) ≤ w := by exact_mod_cast hw
  rw [Nat.add_sub_cancel, ewmaFrom, if_neg (by omega)]
  generalize ewmaFrom 0 w (bar (vals data)) i = a
  generalize bar (vals data) (i + 1) = p
  have hg0 : 0 ≤ 2 / ((w : ℝ) + 1) := by positivity
  have hg1 : 2 / ((w : ℝ) + 1) ≤ 1 := by rw [div_le_one (by positivity)]; linarith
  generalize 2 / ((w : ℝ) + 1) = g at hg0 hg1
  refine ⟨by ring, ?_⟩
  rcases le_total a p with h | h
  · left; constructor <;> nlinarith
  · right; constructor <;> nlinarith

/-- C110: `wilder` moves by `1 / w` of the distance to the new bar. -/
theorem wilder_moves : Moves data.length (w - 1)
    (fun i a b => b = a + (bar (vals data) i - a) / w ∧ Between a b (bar (vals data) i)) (wilder data w) := by
  refine (wilder_values data w hw hn hd).moves fun i h1 h2 => ?_
  obtain ⟨i, rfl⟩ : ∃ j, i = j + 1 := ⟨i - 1, by omega⟩
  have hw' : (1 : ℝ) ≤ w := by exact_mod_cast hw
  have hw0 : (w : ℝ) ≠ 0 := by positivity
  rw [Nat.add_sub_cancel, wilderFrom, if_neg (by omega)]
  generalize wilderFrom 0 w (bar (vals data)) i = a
  generalize bar (vals data) (i + 1) = p
  have e : (a * (w - 1) + p) / w = a + (p - a) / w := by field_simp; ring
  rw [e]
  refine ⟨rfl, ?_⟩
  rcases le_total a p with h | h
  · left
    refine ⟨le_add_of_nonneg_right (div_nonneg (by linarith) (by positivity)), ?_⟩
    have : (p - a) / w ≤ p - a := div_le_self (by linarith) hw'
    linarith
  · right
    have h1 : (a - p) / w ≤ a - p := div_le_self (by linarith) hw'
    have h2 : 0 ≤ (a - p) / w := div_nonneg (by linarith) (by positivity)
    have h3 : (p - a) / w = -((a - p) / w) := by rw [← neg_div]; ring_nf
    constructor <;> linarith

end

/-- C110: `kama` moves towards the new bar and not past it. -/
theorem kama_moves (data : List XF) (w : ℕ) (short long : Option ℕ) (hw : 2 ≤ w) (hs : 1 ≤ short.getD 2) (hl : 1 ≤ long.getD 30)
    (hn : w ≤ data.length + 1) (hd : Fins data)
    (hm : ∀ i, w ≤ i + 1 → i < data.length → ((changes (recent (vals data) w i)).map fun c => |c|).sum ≠ 0) :
    Moves data.length (w - 1) (fun i a b => Between a b (bar (vals data) i)) (kama data w short long) := by
  refine (kama_reports data w short long hw hn hd hm).moves fun i h1 h2 => ?_
  obtain ⟨i, rfl⟩ : ∃ j, i = j + 1 := ⟨i - 1, by omega⟩
  rw [Nat.add_sub_cancel, adaptive, if_neg (by omega)]
  generalize adaptive _ _ _ i = a
  generalize bar (vals data) (i + 1) = p
  have he : 0 ≤ efficiency (recent (vals data) w (i + 1)) ∧ efficiency (recent (vals data) w (i + 1)) ≤ 1 :=
    efficiency_mem (recent_ne_nil (by omega) (by omega) (by simpa [vals] using h2))
  generalize efficiency (recent (vals data) w (i + 1)) = e at he ⊢
  have h2' : ∀ k : ℕ, 1 ≤ k → 0 ≤ 2 / ((k : ℝ) + 1) ∧ 2 / ((k : ℝ) + 1) ≤ 1 := fun k hk => by
    have : (1 : ℝ) ≤ k := by exact_mod_cast hk
    exact ⟨by positivity, by rw [div_le_one (by positivity)]; linarith⟩
  obtain ⟨s0, s1⟩ := h2' _ hs
  obtain ⟨l0, l1⟩ := h2' _ hl
  generalize 2 / (((short.getD 2 : ℕ) : ℝ) + 1) = s at s0 s1 ⊢
  generalize 2 / (((long.getD 30 : ℕ) : ℝ) + 1) = l at l0 l1 ⊢
  have g0 : 0 ≤ e * (s - l) + l := by nlinarith [mul_nonneg he.1 s0, mul_nonneg (sub_nonneg.2 he.2) l0]
  have g1 : e * (s - l) + l ≤ 1 := by nlinarith [mul_nonneg he.1 (sub_nonneg.2 s1), mul_nonneg (sub_nonneg.2 he.2) (sub_nonneg.2 l1)]
  have q0 : 0 ≤ (e * (s - l) + l) ^ 2 := sq_nonneg _
  have q1 : (e * (s - l) + l) ^ 2 ≤ 1 := by nlinarith
  generalize (e * (s - l) + l) ^ 2 = g at q0 q1 ⊢
  rcases le_total a p with h | h
  · left; constructor <;> nlinarith
  · right; constructor <;> nlinarith

end Traquer.Smooth

namespace Traquer.Distribution
open FP FloatLit

/-- C110: `variance` moves by the product of the change of the bars and the sum of their distances from the new and the old mean, over the
window. -/
theorem variance_moves {data : List XF} {w : ℕ} (hw : 1 ≤ w) (hn : w ≤ data.length + 1) (hd : Fins data) :
    Moves data.length (w - 1) (fun i a b => b = a + (bar (vals data) i - bar (vals data) (i - w)) *
      ((bar (vals data) i - mean (recent (vals data) w i)) + (bar (vals data) (i - w) - mean (recent (vals data) w (i - 1)))) / w)
      (variance data w) := by
  refine (variance_reports data w hw hn hd).moves fun i h1 h2 => ?_
  have h2' : i < (vals data).length := by simpa [vals] using h2
  have hw' : (0 : ℝ) < w := by exact_mod_cast hw
  have hm := recent_mean_move (l := vals data) (show w ≤ i by omega) h2' hw
  rw [← lastOf_bar (by omega) h2', ← lastOf_bar (by omega) (show i - 1 < (vals data).length by omega)] at hm ⊢
  generalize bar (vals data) = v at hm ⊢
  have hq := lastOf_sum_move (fun j => v j ^ 2) (show w ≤ i by omega)
  have e : ∀ j, ((lastOf v w j).map fun x => x ^ 2) = lastOf (fun j => v j ^ 2) w j := fun j => by simp [lastOf]
  have l : ∀ j, (lastOf v w j).length = w := fun j => by simp [lastOf]
  have k1 := moment_two_eq (lastOf v w i)
  have k2 := moment_two_eq (lastOf v w (i - 1))
  rw [l, e, hq, lastOf_sum_move v (show w ≤ i by omega)] at k1
  rw [l, e] at k2
  rw [hm, mean_of_length (l (i - 1))]
  generalize moment 2 (lastOf v w i) = b at k1 ⊢
  generalize moment 2 (lastOf v w (i - 1)) = a at k2 ⊢
  generalize (lastOf (fun j => v j ^ 2) w (i - 1)).sum = Q at k1 k2
  generalize (lastOf v w (i - 1)).sum = S at k1 k2 ⊢
  have : (w : ℝ) ^ 2 * (b - (a + (v i - v (i - w)) * (v i - (S / w + (v i - v (i - w)) / w) + (v (i - w) - S / w)) / w)) = 0 := by
    have e1 : (w : ℝ) ^ 2 * ((v i - v (i - w)) * (v i - (S / w + (v i - v (i - w)) / w) + (v (i - w) - S / w)) / w) =
        (v i - v (i - w)) * (w * v i - (S + (v i - v (i - w))) + (w * v (i - w) - S)) := by field_simp
    rw [mul_sub, mul_add, k1, k2, e1]
    ring
  have := (mul_eq_zero.1 this).resolve_left (by positivity)
  linarith

end Traquer.Distribution

namespace Traquer.Momentum
open FP FloatLit

/-- C110: `psych` moves by at most one bar's share. -/
theorem psych_moves (data : List XF) (w : ℕ) (hw : 1 ≤ w) (hn : w ≤ data.length) (hd : Fins data) (hz : ∀ x ∈ data, x ≠ negz) :
    Moves data.length w (fun _ a b => |b - a| ≤ 100 / w) (psych data w) := by
  refine (psych_reports data w hw hn hd hz).moves fun i h1 h2 => ?_
  have hw' : (0 : ℝ) < w := by exact_mod_cast hw
  rw [lastOf_mean_move _ (show w ≤ i by omega), show ∀ m d : ℝ, 100 * (m + d) - 100 * m = 100 * d by intros; ring, abs_mul, abs_div, abs_of_pos hw',
    abs_of_pos (show (0 : ℝ) < 100 by norm_num), ← mul_div_assoc]
  gcongr
  have : ∀ (p q : Prop) [Decidable p] [Decidable q], |(if p then (0 : ℝ) else 1) - (if q then 0 else 1)| ≤ 1 := by
    intro p q _ _
    split_ifs <;> norm_num
  linarith [this (bar (vals data) i < bar (vals data) (i - 1)) (bar (vals data) (i - w) < bar (vals data) (i - w - 1))]

/-- C110: `rsi` goes with the price: up with a rise (unless it is at 100 already), down with a fall (unless at 0), and an unchanged price leaves it
where it is. -/
theorem rsi_moves (data : List XF) (w : ℕ) (hw : 1 ≤ w) (hn : w + 1 ≤ data.length) (hd : Fins data)
    (h0 : ∀ i, w ≤ i → i < data.length → wilderOf w (rises (vals data)) (i - 1) + wilderOf w (falls (vals data)) (i - 1) ≠ 0) :
    Moves data.length w (fun i a b =>
      (bar (vals data) (i - 1) < bar (vals data) i → a < b ∨ a = 100 ∧ b = 100) ∧
      (bar (vals data) i < bar (vals data) (i - 1) → b < a ∨ a = 0 ∧ b = 0) ∧
      (bar (vals data) i = bar (vals data) (i - 1) → b = a)) (rsi data w) := by
  refine (rsi_values data w hw hn hd h0).moves fun i h1 h2 => ?_
  have h2' : i < (vals data).length := by simpa [vals] using h2
  have n1 := h0 i (by omega) h2
  have n0 := h0 (i - 1) (by omega) (by omega)
  have lr := rises_length (vals data)
  have lf := falls_length (vals data)
  have u0 := wilderOf_nonneg (l := rises (vals data)) hw (show w ≤ i - 1 - 1 + 1 by omega) (by omega) fun x hx => rises_nonneg hx
  have d0 := wilderOf_nonneg (l := falls (vals data)) hw (show w ≤ i - 1 - 1 + 1 by omega) (by omega) fun x hx => falls_nonneg hx
  obtain ⟨j, rfl⟩ : ∃ j, i = j + 2 := ⟨i - 2, by omega⟩
  simp only [rsiOf, show j + 2 - 1 = j + 1 from rfl, show j + 1 - 1 = j from rfl] at *
  have br := bar_rises (l := vals data) (j := j + 1) h2'
  have bf := bar_falls (l := vals data) (j := j + 1) h2'
  rw [bar, List.getD_eq_getElem?_getD] at br bf
  rw [wilderOf, wilderOf, if_neg (by omega), if_neg (by omega), br, bf] at n1 ⊢
  generalize wilderOf w (rises (vals data)) j = u at u0 n0 n1 ⊢
  generalize wilderOf w (falls (vals data)) j = d at d0 n0 n1 ⊢
  rw [show j + 1 + 1 = j + 2 from rfl] at n1 ⊢
  generalize bar (vals data) (j + 2) = p at n1 ⊢
  generalize bar (vals data) (j + 1) = q at n1 ⊢
  have hw' : (1 : ℝ) ≤ w := by exact_mod_cast hw
  have hw0 : (w : ℝ) ≠ 0 := by positivity
  have hs : 0 < u + d := lt_of_le_of_ne (by linarith) (Ne.symm n0)
  have hm : 0 ≤ (w : ℝ) - 1 := by linarith
  have e : ∀ x y : ℝ, 100 * ((u * (w - 1) + x) / w) / ((u * (w - 1) + x) / w + (d * (w - 1) + y) / w) =
      100 * (u * (w - 1) + x) / (u * (w - 1) + x + (d * (w - 1) + y)) := fun x y => by
    rw [← add_div, mul_div_assoc', div_div_div_cancel_right₀ hw0]
  have n1' : ∀ x y : ℝ, (u * (w - 1) + x) / w + (d * (w - 1) + y) / w ≠ 0 → u * (w - 1) + x + (d * (w - 1) + y) ≠ 0 := fun x y h h' => h (by
    rw [← add_div, h', zero_div])
  rw [e]
  have n2 := n1' _ _ n1
  refine ⟨fun h => ?_, fun h => ?_, fun h => ?_⟩
  · rw [max_eq_right (by linarith), max_eq_left (by linarith)] at n2 ⊢
    have hp : 0 < u * (w - 1) + (p - q) + (d * (w - 1) + 0) := by
      have := mul_nonneg u0 hm
      have := mul_nonneg d0 hm
      linarith
    rcases d0.eq_or_lt with hd | hd
    · right
      subst hd
      have hu : u ≠ 0 := by simpa using n0
      constructor
      · rw [add_zero]; field_simp
      · rw [zero_mul, add_zero, add_zero] at n2 ⊢
        field_simp
    · left
      rw [div_lt_div_iff₀ hs hp]
      nlinarith [mul_pos hd (sub_pos.2 h)]
  · rw [max_eq_left (by linarith), max_eq_right (by linarith)] at n2 ⊢
    have hp : 0 < u * (w - 1) + 0 + (d * (w - 1) + (q - p)) := by
      have := mul_nonneg u0 hm
      have := mul_nonneg d0 hm
      linarith
    rcases u0.eq_or_lt with hu | hu
    · right
      subst hu
      constructor <;> simp
    · left
      rw [div_lt_div_iff₀ hp hs]
      nlinarith [mul_pos hu (sub_pos.2 h)]
  · subst h
    rw [sub_self, max_self, add_zero, add_zero] at n2 ⊢
    have : ((w : ℝ) - 1) ≠ 0 := by
      intro h
      rw [h] at n2
      simp at n2
    rw [div_eq_div_iff n2 n0]
    ring

end Traquer.Momentum

namespace Traquer.Volatility
open FP FloatLit

/-- C110: `atr` moves by `1 / w` of the distance to the true range of the new bar. -/
theorem atr_moves {high low close : List XF} {w : ℕ} (hl : low.length = high.length) (hc : close.length = high.length)
    (hw : 1 ≤ w) (hn : w + 1 ≤ high.length) (fh : Fins high) (fl : Fins low) (fc : Fins close) :
    Moves high.length w (fun i a b => b = a + (trAt (vals high) (vals low) (vals close) i - a) / w) (atr high low close w) := by
  refine (Traquer.atr_values hl hc hw hn fh fl fc).moves fun i h1 h2 => ?_
  obtain ⟨i, rfl⟩ : ∃ j, i = j + 1 := ⟨i - 1, by omega⟩
  have hw0 : (w : ℝ) ≠ 0 := by positivity
  rw [Nat.add_sub_cancel, wilderFrom, if_neg (by omega)]
  field_simp
  ring

/-- C110: a new high at or above the upper line of `donchian` becomes the upper line; no other bar can raise it. The lower line mirrors it. -/
theorem donchian_moves (high low : List XF) (w : ℕ) (hl : low.length = high.length) (hw : 1 ≤ w) (hn : w ≤ high.length + 1) (fh : Fins high)
    (fl : Fins low) : ∃ out, donchian high low w = some out ∧ out.length = high.length ∧ ∀ i p q, w - 1 < i → out[i - 1]? = some p → out[i]? = some q →
      ∃ u u' d d', p.1 ⇓ u ∧ q.1 ⇓ u' ∧ p.2.2 ⇓ d ∧ q.2.2 ⇓ d' ∧
        (u ≤ bar (vals high) i → u' = bar (vals high) i) ∧ (bar (vals high) i < u → bar (vals high) i ≤ u' ∧ u' ≤ u) ∧
        (bar (vals low) i ≤ d → d' = bar (vals low) i) ∧ (d < bar (vals low) i → d ≤ d' ∧ d' ≤ bar (vals low) i) := by
  obtain ⟨out, e, l, h⟩ := donchian_contains high low w hl hw hn fh fl
  refine ⟨out, e, l, fun i p q hi hp hq => ?_⟩
  have hin : i < high.length := by rw [← l]; exact (List.getElem?_eq_some_iff.1 hq).1
  obtain ⟨u, -, d, pu, -, pd, b1, -, c1, -, -⟩ := h (i - 1) p (by omega) hp
  obtain ⟨u', -, d', qu, -, qd, b2, m2, c2, k2, -⟩ := h i q (by omega) hq
  have hv : i < (vals high).length := by simpa [vals] using hin
  have hv' : i < (vals low).length := by simp [vals]; omega
  have x1 := b2 _ (bar_recent_mem (j := i) (by omega) hv (by omega) le_rfl)
  have x2 := c2 _ (bar_recent_mem (j := i) (by omega) hv' (by omega) le_rfl)
  have y1 : u' = bar (vals high) i ∨ u' ≤ u := by
    rw [← lastOf_bar (by omega) hv] at m2
    obtain ⟨j, j1, j2, rfl⟩ := (mem_lastOf (by omega)).1 m2
    rcases j2.eq_or_lt with rfl | j2
    · exact Or.inl rfl
    · exact Or.inr (b1 _ (bar_recent_mem (by omega) (by omega) (by omega) (by omega)))
  have y2 : d' = bar (vals low) i ∨ d ≤ d' := by
    rw [← lastOf_bar (by omega) hv'] at k2
    obtain ⟨j, j1, j2, rfl⟩ := (mem_lastOf (by omega)).1 k2
    rcases j2.eq_or_lt with rfl | j2
    · exact Or.inl rfl
    · exact Or.inr (c1 _ (bar_recent_mem (by omega) (by omega) (by omega) (by omega)))
  refine ⟨u, u', d, d', pu, qu, pd, qd, fun h => ?_, fun h => ⟨x1, ?_⟩, fun h => ?_, fun h => ⟨?_, x2⟩⟩
  · rcases y1 with y | y
    · exact y
    · linarith
  · rcases y1 with y | y <;> linarith
  · rcases y2 with y | y
    · exact y
    · linarith
  · rcases y2 with y | y <;> linarith

end Traquer.Volatility

namespace Traquer
open FP FloatLit
open scoped BigOperators
variable {ρ : Rounding}

theorem Accumulates.moves {n k : ℕ} {t : ℕ → ℝ} {r : Option (List (FP ρ))} (h : Accumulates n k t r) : Moves n k (fun i a b => b = a + t i) r := by
  refine Reports.moves h fun i h1 h2 => ?_
  rw [Finset.sum_Ico_succ_top (by omega), show i - 1 + 1 = i by omega]

end Traquer

namespace Traquer.Volume
open FP FloatLit

section
variable {high low close volume : List XF} (hv : volume.length = close.length) (hn : 1 ≤ close.length) (fc : Fins close) (fv : Fins volume)
include hv hn fc fv

/-- C110: `obv` moves by the volume of the bar, up unless the close fell. -/
theorem obv_moves (hz : ∀ x ∈ close, x ≠ negz) : Moves close.length 1 (fun i a b => b = a + obvTerm (vals close) (vals volume) i) (obv close volume) :=
  Accumulates.moves (obv_accumulates close volume hv hn fc fv hz)

/-- C110: `vpt` moves by the volume times the relative change. -/
theorem vpt_moves (h0 : ∀ x ∈ close, x.val ≠ 0) : Moves close.length 1 (fun i a b => b = a + vptTerm (vals close) (vals volume) i) (vpt close volume) :=
  Accumulates.moves (vpt_accumulates close volume hv hn fc fv h0)

end

/-- C110: `ad` moves by at most the volume of the bar, for closes within the bar. -/
theorem ad_moves (high low close volume : List XF) (hl : low.length = high.length) (hc : close.length = high.length)
    (hv : volume.length = high.length) (hn : 1 ≤ high.length) (fh : Fins high) (fl : Fins low) (fc : Fins close) (fv : Fins volume)
    (hr : ∀ (j : ℕ) (h l : XF), high[j]? = some h → low[j]? = some l → h.val ≠ l.val)
    (hb : ∀ j, j < high.length → bar (vals low) j ≤ bar (vals close) j ∧ bar (vals close) j ≤ bar (vals high) j)
    (hp : ∀ j, j < high.length → 0 ≤ bar (vals volume) j) :
    Moves high.length 0 (fun i a b => b = a + adTerm (vals high) (vals low) (vals close) (vals volume) i ∧ |b - a| ≤ bar (vals volume) i)
      (ad high low close volume none) := by
  refine Reports.moves (ad_accumulates high low close volume hl hc hv hn fh fl fc fv hr) fun i h1 h2 => ?_
  rw [Finset.sum_Ico_succ_top (by omega), show i - 1 + 1 = i by omega]
  refine ⟨rfl, ?_⟩
  rw [add_sub_cancel_left, adTerm, abs_mul, abs_of_nonneg (hp i h2)]
  refine mul_le_of_le_one_left (hp i h2) ?_
  obtain ⟨b1, b2⟩ := hb i h2
  rw [abs_div]
  refine div_le_one_of_le₀ ?_ (abs_nonneg _)
  rw [abs_of_nonneg (show 0 ≤ bar (vals high) i - bar (vals low) i by linarith), abs_le]
  constructor <;> linarith

end Traquer.Volume

namespace Traquer.Regression
open FP FloatLit

section
variable {data estimate : List XF} (hl : estimate.length = data.length) (hd : Fins data) (he : Fins estimate)
include hl

omit hl in
theorem errors_move {f : ℝ → ℝ → ℝ} {ds es : List ℝ} {i : ℕ} (h : es.length = ds.length) (hi : 1 ≤ i) (hn : i < ds.length) :
    mean (errors f ds es i) = mean (errors f ds es (i - 1)) + (f (bar ds i) (bar es i) - mean (errors f ds es (i - 1))) / ((i : ℝ) + 1) := by
  have e : errors f ds es i = errors f ds es (i - 1) ++ [f (bar ds i) (bar es i)] := by
    rw [errors, errors, show i - 1 + 1 = i by omega, List.take_add_one, List.getElem?_eq_getElem (by simp; omega)]
    simp [bar, List.getElem?_eq_getElem hn, List.getElem?_eq_getElem (show i < es.length by omega)]
  have l0 := errors_length (f := f) h (show i - 1 < ds.length by omega)
  have l1 := errors_length (f := f) h hn
  rw [mean_of_length l1, mean_of_length l0, e, List.sum_append, List.sum_singleton, show i - 1 + 1 = i by omega]
  have : (i : ℝ) ≠ 0 := by positivity
  push_cast
  field_simp
  ring

include hd he

/-- C110: `mse` moves towards the squared error of the new bar, by the share of one bar among those so far. -/
theorem mse_moves : Moves data.length 0 (fun i a b => b = a + ((bar (vals data) i - bar (vals estimate) i) ^ 2 - a) / ((i : ℝ) + 1))
    (some (mse data estimate)) :=
  (mse_reports data estimate hl hd he).moves fun i h1 h2 => errors_move (by simpa [vals] using hl) h1 (by simpa [vals] using h2)

/-- C110: `mae` likewise with the absolute error. -/
theorem mae_moves : Moves data.length 0 (fun i a b => b = a + (|bar (vals data) i - bar (vals estimate) i| - a) / ((i : ℝ) + 1))
    (some (mae data estimate)) :=
  (mae_reports data estimate hl hd he).moves fun i h1 h2 => errors_move (by simpa [vals] using hl) h1 (by simpa [vals] using h2)

end

end Traquer.Regression

namespace Traquer.Smooth
open FP FloatLit

/-- C110: `dema` does not have this property: on prices 0, 0, 0, 1, 1 and window 2 the last bar takes it from 8/9, below the price, to 28/27, past it. -/
theorem dema_overshoots : ∃ out x y, dema ([fin 0, fin 0, fin 0, fin 1, fin 1] : List XF) 2 = some out ∧ out[3]? = some x ∧ out[4]? = some y ∧
    x ⇓ 8 / 9 ∧ y ⇓ 28 / 27 := by
  obtain ⟨out, e, l, -, h⟩ := dema_reports ([fin 0, fin 0, fin 0, fin 1, fin 1] : List XF) 2 (by norm_num) (by simp) (by simp [Fins, FP.Finite])
  obtain ⟨x, hx, vx⟩ := h 3 (by norm_num) (by simp)
  obtain ⟨y, hy, vy⟩ := h 4 (by norm_num) (by simp)
  refine ⟨out, x, y, e, hx, hy, vx.congr ?_, vy.congr ?_⟩ <;>
    norm_num [ema1, ema2, ewmaFrom, bar, vals, FP.val, lastOf, mean, List.range_succ]

end Traquer.Smooth

/-! ## Examples -/

namespace Traquer
open FP

/-- Window 2 on 1, 4, 9: from 5/2 to 13/2, by (9 - 1) / 2. -/
example : Moves 3 1 (fun i a b => b = a + (bar (vals ([fin 1, fin 4, fin 9] : List XF)) i - bar (vals ([fin 1, fin 4, fin 9] : List XF)) (i - 2)) / (2 : ℕ))
    (Smooth.sma ([fin 1, fin 4, fin 9] : List XF) 2) :=
  Smooth.sma_moves (data := [fin 1, fin 4, fin 9]) (by norm_num) (by simp [Fins, FP.Finite]) (by simp)

example : Moves 3 1 (fun i a b => b = a + 2 / ((2 : ℕ) + 1) * (bar (vals ([fin 1, fin 4, fin 9] : List XF)) i - a) ∧
    Between a b (bar (vals ([fin 1, fin 4, fin 9] : List XF)) i)) (Smooth.ewma ([fin 1, fin 4, fin 9] : List XF) 2) :=
  Smooth.ewma_moves (data := [fin 1, fin 4, fin 9]) (by norm_num) (by simp [Fins, FP.Finite]) (by simp)

/-- Every bar of 1, 3, 2, 4 moves, so the averages of rises and falls never vanish together: `rsi` with window 2 meets its conditions. -/
example : ∀ i, 2 ≤ i → i < 4 → wilderOf 2 (rises [1, 3, 2, 4]) (i - 1) + wilderOf 2 (falls [1, 3, 2, 4]) (i - 1) ≠ 0 := by
  intro i h1 h2
  interval_cases i <;> norm_num [wilderOf, rises, falls, pairs, mean]

end Traquer
