import Verif.Spec.Jump
import Verif.Lemmas.Witness
import Verif.Props.Determines
import Verif.Props.Dispersion
/-!
# C126: how a reading answers a jump of the price (exact arithmetic)
-/

namespace Traquer
open FP FloatLit

theorem lastOf_jump {x : ℕ → ℝ} {a b : ℝ} {T M w : ℕ} (h : ∀ i, i ≤ T + M → x i = if i ≤ T then a else b) (hw : w ≤ T + 1) :
    lastOf x w (T + M) = List.replicate (w - M) a ++ List.replicate (min M w) b := by
  refine List.ext_getElem (by simp [lastOf]; omega) fun j h1 h2 => ?_
  have hj : j < w := by simpa [lastOf] using h1
  simp only [lastOf, List.getElem_map, List.getElem_range, List.getElem_append, List.length_replicate, List.getElem_replicate]
  rw [h _ (by omega)]
  split <;> split <;> first | rfl | omega

theorem recent_jump {l : List ℝ} {a b : ℝ} {T M w : ℕ} (h : Jumps a b T l) (hw : w ≤ T + 1) (hM : T + M < l.length) :
    recent l w (T + M) = List.replicate (w - M) a ++ List.replicate (min M w) b := by
  rw [← lastOf_bar (by omega) hM]
  exact lastOf_jump (fun i hi => h i (by omega)) hw

/-- The exponential average of something that has always been `a` is `a`. -/
theorem ewma_flat {k w T : ℕ} {x : ℕ → ℝ} {a : ℝ} (hw : 1 ≤ w) (h : ∀ i, k ≤ i → i ≤ T → x i = a) :
    ∀ i, k + w - 1 ≤ i → i ≤ T → ewmaFrom k w x i = a := by
  have h1 := Smooth.natCast_pos hw
  have seed : k + w - 1 ≤ T → mean (lastOf x w (k + w - 1)) = a := fun hT => by
    have e : lastOf x w (k + w - 1) = List.replicate w a := List.eq_replicate_iff.2 ⟨by simp [lastOf], fun y hy => by
      obtain ⟨j, hj, rfl⟩ := List.mem_map.1 hy
      have := List.mem_range.1 hj
      exact h _ (by omega) (by omega)⟩
    rw [e, mean]
    simp
    field_simp
  intro i hi
  induction i, hi using Nat.le_induction with
  | base =>
    intro hT
    obtain ⟨j, e⟩ : ∃ j, k + w - 1 = j := ⟨_, rfl⟩
    have s := seed (by omega)
    rcases j with _ | j
    · rw [e, ewmaFrom]; exact s
    · rw [e, ewmaFrom, if_pos (by omega)]; exact s
  | succ n hn ih =>
    intro hT
    rw [ewmaFrom, if_neg (by omega), ih (by omega), h _ (by omega) hT]
    ring

/-- If what is averaged is `a` up to bar `T` and misses `b` by `p M` at bar `T + M`, the exponential average misses it by `r M`, where `r`
solves the same recursion. -/
theorem ewma_gap {k w T N : ℕ} {x : ℕ → ℝ} {a b : ℝ} {p r : ℕ → ℝ} (hw : 1 ≤ w) (hT : k + (w - 1) ≤ T) (h : ∀ i, k ≤ i → i ≤ T → x i = a)
    (hp : ∀ M, M ≤ N → x (T + M) = b - p M) (r0 : r 0 = b - a)
    (hr : ∀ M, r (M + 1) = p (M + 1) * (2 / (w + 1)) + r M * (1 - 2 / (w + 1))) : ∀ M, M ≤ N → ewmaFrom k w x (T + M) = b - r M := by
  intro M
  induction M with
  | zero =>
    intro _
    rw [Nat.add_zero, ewma_flat hw h T (by omega) le_rfl, r0]
    ring
  | succ n ih =>
    intro hM
    rw [← Nat.add_assoc, ewmaFrom, if_neg (by omega), ih (by omega), Nat.add_assoc, hp _ hM, hr]
    ring

end Traquer

namespace Traquer.Smooth
open FP FloatLit

section
variable {data : List XF} {w T : ℕ} {a b : ℝ} (hw : 1 ≤ w) (hd : Fins data) (hj : Jumps a b T (vals data)) {M : ℕ} (hM : T + M < data.length)
include hw hd hj hM

/-- C126: `sma` climbs in equal steps and is there after the window. -/
theorem sma_jump (hT : w ≤ T + 1) : ValueAt (sma data w) (T + M) (a + (b - a) * (min M w : ℕ) / w) := by
  refine (sma_reports data w hw (by omega) hd).value _ (by omega) hM ?_
  have h1 := (natCast_pos hw).ne'
  rw [recent_jump hj hT (by simpa using hM), mean]
  have e : w - M + min M w = w := by omega
  have e' : ((w - M : ℕ) : ℝ) = w - (min M w : ℕ) := by rw [eq_sub_iff_add_eq]; exact_mod_cast e
  rw [List.length_append, List.length_replicate, List.length_replicate, e, List.sum_append, List.sum_replicate, List.sum_replicate,
    nsmul_eq_mul, nsmul_eq_mul, e']
  field_simp
  ring

/-- C126: `wma` starts with larger steps: what is missing shrinks like the sum of the weights of the old bars. -/
theorem wma_jump (hT : w ≤ T + 1) :
    ValueAt (wma data w) (T + M) (b - (b - a) * ((w - M : ℕ) * ((w - M : ℕ) + 1)) / (w * (w + 1))) := by
  refine (wma_reports data w hw (by omega) hd).value _ (by omega) hM ?_
  have h1 := (natCast_pos hw).ne'
  rw [recent_jump hj hT (by simpa using hM), weightedMean, wma_sum]
  have e : w - M + min M w = w := by omega
  have z : ∀ (l : List ℝ) (c : ℝ), ((l.zip (List.replicate l.length c)).map fun p => p.1 * p.2).sum = l.sum * c := fun l c => by
    induction l with
    | nil => simp
    | cons y t ih => rw [List.length_cons, List.replicate_succ, List.zip_cons_cons, List.map_cons, List.sum_cons, ih, List.sum_cons]; ring
  obtain ⟨u, v, lu, lv, hs, hu⟩ : ∃ u v : List ℝ, u.length = w - M ∧ v.length = min M w ∧
      ((List.range' 1 w).map fun i : ℕ => (i : ℝ)) = u ++ v ∧ u.sum = ((w - M : ℕ) : ℝ) * ((w - M : ℕ) + 1) / 2 := by
    refine ⟨(List.range' 1 (w - M)).map fun i : ℕ => (i : ℝ), (List.range' (1 + (w - M)) (min M w)).map fun i : ℕ => (i : ℝ), by simp, by simp, ?_,
      wma_sum _⟩
    rw [← List.map_append, List.range'_append_1, e]
  have tot := wma_sum w
  rw [hs, List.sum_append, hu] at tot
  rw [hs, List.zip_append (by simp [lu]), List.map_append, List.sum_append, ← lu, ← lv, z, z, lu, hu]
  have hv : v.sum = (w : ℝ) * (w + 1) / 2 - ((w - M : ℕ) : ℝ) * ((w - M : ℕ) + 1) / 2 := by linarith
  rw [hv]
  field_simp
  ring

omit hd in
theorem ema1_jump (hT : w - 1 ≤ T) {N : ℕ} (hN : N ≤ M) : ema1 w (bar (vals data)) (T + N) = b - (b - a) * (1 - 2 / (w + 1)) ^ N := by
  refine ewma_gap (k := 0) (a := a) (N := M) (p := fun m => if m = 0 then b - a else 0) (r := fun m => (b - a) * (1 - 2 / (w + 1)) ^ m) hw (by omega)
    (fun i _ hi => ?_) (fun m hm => ?_) (by simp) (fun m => by simp; ring) N hN
  · rw [hj i (by simp; omega), if_pos hi]
  · rw [hj _ (by simp; omega)]
    rcases m with _ | m
    · simp
    · rw [if_neg (by omega)]; simp

omit hd in
theorem ema2_jump (hT : 2 * (w - 1) ≤ T) {N : ℕ} (hN : N ≤ M) :
    ema2 w (bar (vals data)) (T + N) = b - (b - a) * (1 - 2 / (w + 1)) ^ N * (1 + N * (2 / (w + 1))) := by
  have := ewma_gap (k := w - 1) (x := ema1 w (bar (vals data))) (T := T) (a := a) (b := b) (N := M) (p := fun m => (b - a) * (1 - 2 / (w + 1)) ^ m)
    (r := fun m => (b - a) * (1 - 2 / (w + 1)) ^ m * (1 + m * (2 / (w + 1)))) hw (by omega)
    (fun i h1 hi => ewma_flat hw (fun t _ ht => by rw [hj t (by simp; omega), if_pos (by omega)]) i (by omega) hi)
    (fun m hm => ema1_jump hw hj hM (by omega) hm) (by simp) (fun m => by push_cast; ring) N hN
  exact this

omit hd in
theorem ema3_jump (hT : 3 * (w - 1) ≤ T) {N : ℕ} (hN : N ≤ M) : ema3 w (bar (vals data)) (T + N) =
    b - (b - a) * (1 - 2 / (w + 1)) ^ N * (1 + N * (2 / (w + 1)) + N * (N + 1) / 2 * (2 / (w + 1)) ^ 2) := by
  have f1 : ∀ i, w - 1 ≤ i → i ≤ T → ema1 w (bar (vals data)) i = a := fun i h1 hi =>
    ewma_flat hw (fun t _ ht => by rw [hj t (by simp; omega), if_pos (by omega)]) i (by omega) hi
  have := ewma_gap (k := 2 * (w - 1)) (x := ema2 w (bar (vals data))) (T := T) (a := a) (b := b) (N := M)
    (p := fun m => (b - a) * (1 - 2 / (w + 1)) ^ m * (1 + m * (2 / (w + 1))))
    (r := fun m => (b - a) * (1 - 2 / (w + 1)) ^ m * (1 + m * (2 / (w + 1)) + m * (m + 1) / 2 * (2 / (w + 1)) ^ 2)) hw (by omega)
    (fun i h1 hi => ewma_flat hw f1 i (by omega) hi)
    (fun m hm => ema2_jump hw hj hM (by omega) hm) (by simp) (fun m => by push_cast; ring) N hN
  exact this

/-- C126: with every bar `ewma` closes the fraction `2 / (w + 1)` of what is left of the gap. -/
theorem ewma_jump (hT : w - 1 ≤ T) : ValueAt (ewma data w) (T + M) (b - (b - a) * (1 - 2 / (w + 1)) ^ M) :=
  (ewma_values data w hw (by omega) hd).value _ (by omega) hM (ema1_jump hw hj hM hT le_rfl)

/-- C126: `wilder` closes one `w`-th of it. -/
theorem wilder_jump (hT : w - 1 ≤ T) : ValueAt (wilder data w) (T + M) (b - (b - a) * (1 - 1 / w) ^ M) := by
  have h1 := (natCast_pos hw).ne'
  refine (wilder_values data w hw (by omega) hd).value _ (by omega) hM ?_
  have flat : ∀ i, w - 1 ≤ i → i ≤ T → wilderFrom 0 w (bar (vals data)) i = a := by
    have seed : mean (lastOf (bar (vals data)) w (0 + w - 1)) = a := by
      have e : lastOf (bar (vals data)) w (0 + w - 1) = List.replicate w a := List.eq_replicate_iff.2 ⟨by simp [lastOf], fun y hy => by
        obtain ⟨j, h, rfl⟩ := List.mem_map.1 hy
        have := List.mem_range.1 h
        rw [hj _ (by simp; omega), if_pos (by omega)]⟩
      rw [e, mean]
      simp
      field_simp
    intro i hi
    induction i, hi using Nat.le_induction with
    | base =>
      intro _
      obtain ⟨j, e⟩ : ∃ j, w - 1 = j := ⟨_, rfl⟩
      rcases j with _ | j
      · rw [e, wilderFrom]; exact seed
      · rw [e, wilderFrom, if_pos (by omega)]; exact seed
    | succ n hn ih =>
      intro hT
      rw [wilderFrom, if_neg (by omega), ih (by omega), hj _ (by simp; omega), if_pos hT]
      field_simp
      ring
  have key : ∀ N, N ≤ M → wilderFrom 0 w (bar (vals data)) (T + N) = b - (b - a) * (1 - 1 / w) ^ N := by
    intro N
    induction N with
    | zero => intro _; rw [Nat.add_zero, flat T hT le_rfl]; ring
    | succ n ih =>
      intro hN
      rw [← Nat.add_assoc, wilderFrom, if_neg (by omega), ih (by omega), hj _ (by simp; omega), if_neg (by omega), pow_succ]
      field_simp
      ring
  exact key M le_rfl

/-- C126: `dema` after a jump. The last factor turns negative: it shoots past the new price. -/
theorem dema_jump (hT : 2 * (w - 1) ≤ T) :
    ValueAt (dema data w) (T + M) (b - (b - a) * (1 - 2 / (w + 1)) ^ M * (1 - M * (2 / (w + 1)))) := by
  refine (dema_reports data w hw (by omega) hd).value _ (by omega) hM ?_
  rw [ema1_jump hw hj hM (by omega) le_rfl, ema2_jump hw hj hM hT le_rfl]
  ring

/-- C126: `tema` after a jump. -/
theorem tema_jump (hT : 3 * (w - 1) ≤ T) : ValueAt (tema data w) (T + M)
    (b - (b - a) * (1 - 2 / (w + 1)) ^ M * (1 - 2 * M * (2 / (w + 1)) + M * (M + 1) / 2 * (2 / (w + 1)) ^ 2)) := by
  refine (tema_reports data w hw (by omega) hd).value _ (by omega) hM ?_
  rw [ema1_jump hw hj hM (by omega) le_rfl, ema2_jump hw hj hM (by omega) le_rfl, ema3_jump hw hj hM hT le_rfl]
  ring

/-- C126: `zlma` after a jump. As long as the bar it compares with is an old one it heads for `2b - a`, then it falls back to `b`. -/
theorem zlma_jump (hT : (w - 1) / 2 + (w - 1) ≤ T) : ValueAt (zlma data w) (T + M)
    (b + (b - a) * (1 - 2 * (1 - 2 / (w + 1)) ^ min M ((w - 1) / 2)) * (1 - 2 / (w + 1)) ^ (M - (w - 1) / 2)) := by
  refine (zlma_reports data w hw (by omega) hd).value _ (by omega) hM ?_
  generalize hL : (w - 1) / 2 = L at *
  have := ewma_gap (k := L) (x := fun i => 2 * bar (vals data) i - bar (vals data) (i - L)) (T := T) (a := a) (b := b) (N := M)
    (p := fun m => if m = 0 then b - a else if m ≤ L then -(b - a) else 0)
    (r := fun m => -((b - a) * (1 - 2 * (1 - 2 / (w + 1)) ^ min m L) * (1 - 2 / (w + 1)) ^ (m - L))) hw hT
    (fun i h1 hi => by
      rw [hj i (by simp; omega), hj (i - L) (by simp; omega), if_pos hi, if_pos (by omega)]
      ring)
    (fun m hm => by
      rw [hj (T + m) (by simp; omega), hj (T + m - L) (by simp; omega)]
      rcases Nat.eq_zero_or_pos m with rfl | h0
      · rw [if_pos (by omega), if_pos (by omega), if_pos rfl]; ring
      · rw [if_neg (show ¬ T + m ≤ T by omega), if_neg (show ¬ m = 0 by omega)]
        by_cases h : m ≤ L
        · rw [if_pos (by omega), if_pos h]; ring
        · rw [if_neg (by omega), if_neg h]; ring)
    (by simp; ring)
    (fun m => by
      rw [if_neg (Nat.succ_ne_zero m)]
      by_cases h : m + 1 ≤ L
      · rw [if_pos h, min_eq_left h, min_eq_left (by omega), show m + 1 - L = 0 by omega, show m - L = 0 by omega]
        ring
      · rw [if_neg h, min_eq_right (by omega), min_eq_right (by omega), show m + 1 - L = m - L + 1 by omega]
        ring) M le_rfl
  rw [this]
  ring

end

/-- C126: after a jump upwards `dema` is above the new price, and every price there has been, from bar `T + (w + 1) / 2 + 1` on. -/
theorem dema_jump_overshoots {data : List XF} {w T : ℕ} {a b : ℝ} (hw : 2 ≤ w) (hd : Fins data) (hj : Jumps a b T (vals data)) (hab : a < b) {M : ℕ}
    (hM : T + M < data.length) (hT : 2 * (w - 1) ≤ T) (h : w + 1 < 2 * M) : ∃ v, ValueAt (dema data w) (T + M) v ∧ b < v := by
  refine ⟨_, dema_jump (by omega) hd hj hM hT, ?_⟩
  have h2 : (2 : ℝ) ≤ w := by exact_mod_cast hw
  have q : 0 < 1 - 2 / ((w : ℝ) + 1) := by
    rw [sub_pos, div_lt_one (by positivity)]
    linarith
  have r : 1 - (M : ℝ) * (2 / (w + 1)) < 0 := by
    have : (w : ℝ) + 1 < 2 * M := by exact_mod_cast h
    rw [sub_neg, mul_div_assoc', lt_div_iff₀ (by positivity)]
    linarith
  have := mul_pos (mul_pos (sub_pos.2 hab) (pow_pos q M)) (neg_pos.2 r)
  linarith

end Traquer.Smooth

namespace Traquer.Momentum
open FP FloatLit

/-- C126: after a jump `macd` is the difference of the two gaps: it leaves zero on the side of the jump and comes back to it. -/
theorem macd_jump {data : List XF} {short long T : ℕ} {a b : ℝ} (hs : 1 ≤ short) (hl : 1 ≤ long) (hd : Fins data) (hj : Jumps a b T (vals data)) {M : ℕ}
    (hM : T + M < data.length) (hT : max short long - 1 ≤ T) :
    ValueAt (macd data short long) (T + M) ((b - a) * ((1 - 2 / (long + 1)) ^ M - (1 - 2 / (short + 1)) ^ M)) := by
  refine (macd_reports data short long hs hl (by omega) hd).value _ (by omega) hM ?_
  rw [Smooth.ema1_jump hs hj hM (by omega) le_rfl, Smooth.ema1_jump hl hj hM (by omega) le_rfl]
  ring

end Traquer.Momentum

namespace Traquer.Distribution
open FP FloatLit

/-- C126: a single jump keeps the standard deviation up for a whole window, highest when half of it is new. -/
theorem std_dev_jump {data : List XF} {w T : ℕ} {a b : ℝ} (hw : 1 ≤ w) (hd : Fins data) (hj : Jumps a b T (vals data)) {M : ℕ}
    (hM : T + M < data.length) (hT : w ≤ T + 1) (hMw : M ≤ w) :
    ValueAt (std_dev data w) (T + M) (|b - a| * √(M * (w - M)) / w) := by
  refine (std_dev_reports data w hw (by omega) hd).value _ (by omega) hM ?_
  have h1 := Smooth.natCast_pos hw
  have hM' : (M : ℝ) ≤ w := by exact_mod_cast hMw
  have e' : ((w - M : ℕ) : ℝ) = w - M := by push_cast [hMw]; rfl
  have lw : w - M + M = w := by omega
  have hmean : mean (List.replicate (w - M) a ++ List.replicate M b) = a + (b - a) * M / w := by
    rw [mean, List.length_append, List.length_replicate, List.length_replicate, lw, List.sum_append, List.sum_replicate, List.sum_replicate,
      nsmul_eq_mul, nsmul_eq_mul, e']
    field_simp
    ring
  have hmom : moment 2 (List.replicate (w - M) a ++ List.replicate M b) = ((b - a) / w) ^ 2 * (M * (w - M)) := by
    rw [moment, hmean, List.map_append, List.map_replicate, List.map_replicate, mean, List.length_append, List.length_replicate,
      List.length_replicate, lw, List.sum_append, List.sum_replicate, List.sum_replicate, nsmul_eq_mul, nsmul_eq_mul, e']
    field_simp
    ring
  rw [recent_jump hj hT (by simpa using hM), min_eq_left hMw, stdDev, hmom, Real.sqrt_mul (sq_nonneg _), Real.sqrt_sq_eq_abs, abs_div,
    abs_of_pos h1]
  ring

end Traquer.Distribution

namespace Traquer
open FP FloatLit

/-- Three bars at 2, then three at 10. -/
noncomputable def jumped : List XF := [2, 2, 2, 10, 10, 10].map fin

theorem jumped_jumps : Jumps 2 10 2 (vals jumped) := fun i hi => by
  rw [jumped, vals_map_fin] at *
  simp at hi
  interval_cases i <;> norm_num [bar]

/-- The 2-bar exponential average of that is 10 - 8/3 one bar after the jump and 10 - 8/9 two bars after it; `dema` is at 10 - 8/9 · (-1/3) by then. -/
example : ValueAt (Smooth.ewma jumped 2) 4 (10 - 8 / 9) ∧ ValueAt (Smooth.dema jumped 2) 4 (10 + 8 / 27) := by
  constructor
  · have := Smooth.ewma_jump (w := 2) (M := 2) (by decide) (fins_map_fin _) jumped_jumps (by simp) (by decide)
    norm_num at this ⊢
    exact this
  · have := Smooth.dema_jump (w := 2) (M := 2) (by decide) (fins_map_fin _) jumped_jumps (by simp) (by decide)
    norm_num at this ⊢
    exact this
example := Smooth.dema_jump_overshoots (w := 2) (M := 2) (by decide) (fins_map_fin _) jumped_jumps (by norm_num) (by simp) (by decide) (by decide)
example := Distribution.std_dev_jump (w := 2) (M := 1) (by decide) (fins_map_fin _) jumped_jumps (by simp) (by decide) (by decide)

end Traquer
