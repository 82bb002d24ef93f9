import Verif.Props.ZeroLine2
import Verif.Props.Identities
import Verif.Props.Dcor
/-!
# C115: readings the documentation gives that the code does not bear out
-/

namespace Traquer.Momentum
open Traquer FP FloatLit Smooth
open Traquer.Trend (is_bar)

/-- `cfo` with the end of the fitted line written as three times the weighted less twice the simple average. -/
theorem cfo_values (data : List XF) (w : ℕ) (hw : 2 ≤ w) (hn : w ≤ data.length + 1) (hd : Fins data) :
    ReportsP data.length (w - 1) (fun i => QuotIs (100 * (bar (vals data) i -
      (3 * weightedMean ((List.range' 1 w).map fun k : ℕ => (k : ℝ)) (recent (vals data) w i) - 2 * mean (recent (vals data) w i)))) (bar (vals data) i))
      (cfo data w) := by
  obtain ⟨m, e, r, l⟩ := (lrf_values data w hw hn hd).some
  simp only [cfo, e, Option.bind_eq_bind, Option.bind_some]
  refine reportsP_map (by simp; omega) ?_ ?_
  · rintro i ⟨x, y⟩ hi hk
    obtain ⟨h1, h2⟩ := List.getElem?_zip_eq_some.1 hi
    have := r.at_nan h1 hk
    nanp
  · rintro i ⟨x, y⟩ hi hk
    obtain ⟨h1, h2⟩ := List.getElem?_zip_eq_some.1 hi
    have h3 := is_bar hd h2
    have hlt : i < (vals data).length := by simpa using (List.getElem?_eq_some_iff.1 h2).1
    have h4 := r.at h1 hk
    rw [lastOf_bar (by omega) hlt] at h4
    have hl : (recent (vals data) w i).length = w := recent_length (by omega) hlt
    have key := line_end_eq (ys := recent (vals data) w i) (by omega)
    rw [hl] at key
    rw [key] at h4
    exact quotIs (is_mul (is_lit 100) (is_sub h3 h4)) h3

theorem dot_replicate (ws : List ℝ) (c : ℝ) : ((ws.zip (List.replicate ws.length c)).map fun p => p.1 * p.2).sum = c * ws.sum := by
  induction ws with
  | nil => simp
  | cons a ws ih =>
    rw [List.length_cons, List.replicate_succ, List.zip_cons_cons, List.map_cons, List.sum_cons, List.sum_cons, ih]
    ring

theorem wma_first (m : ℕ) (a c : ℝ) : weightedMean ((List.range' 1 (m + 1)).map fun k : ℕ => (k : ℝ)) (a :: List.replicate m c) =
    c + (a - c) * 2 / ((m + 1) * (m + 2)) := by
  rw [weightedMean, sum_range']
  have hs := sum_range' (m + 1)
  rw [List.range'_succ, List.map_cons, List.sum_cons] at hs
  rw [List.range'_succ, List.map_cons, List.zip_cons_cons, List.map_cons, List.sum_cons]
  have := dot_replicate ((List.range' (1 + 1) m).map fun k : ℕ => (k : ℝ)) c
  rw [List.length_map, List.length_range'] at this
  rw [this]
  have e : ((List.range' (1 + 1) m).map fun k : ℕ => (k : ℝ)).sum = ((m + 1 : ℕ) : ℝ) * ((m + 1 : ℕ) + 1) / 2 - ((1 : ℕ) : ℝ) := by linarith
  rw [e]
  push_cast
  have h1 : ((m : ℝ) + 1) ≠ 0 := by positivity
  have h2 : ((m : ℝ) + 2) ≠ 0 := by positivity
  have h3 : ((m : ℝ) + 1 + 1) ≠ 0 := by positivity
  field_simp
  ring

theorem wma_last (m : ℕ) (a c : ℝ) : weightedMean ((List.range' 1 (m + 1)).map fun k : ℕ => (k : ℝ)) (List.replicate m c ++ [a]) =
    c + (a - c) * 2 / (m + 2) := by
  rw [weightedMean, sum_range']
  have hs := sum_range' m
  rw [List.range'_concat, List.map_append, List.zip_append (by simp), List.map_append, List.sum_append]
  have := dot_replicate ((List.range' 1 m).map fun k : ℕ => (k : ℝ)) c
  rw [List.length_map, List.length_range'] at this
  rw [this, hs]
  push_cast
  have h1 : ((m : ℝ) + 1) ≠ 0 := by positivity
  have h2 : ((m : ℝ) + 2) ≠ 0 := by positivity
  have h3 : ((m : ℝ) + 1 + 1) ≠ 0 := by positivity
  simp
  field_simp
  ring

/-- One price followed by `m` equal ones. -/
noncomputable def crash (m : ℕ) (a c : ℝ) : List XF := fin a :: List.replicate m (fin c)
/-- `m` equal prices followed by another one. -/
noncomputable def finale (m : ℕ) (a c : ℝ) : List XF := List.replicate m (fin c) ++ [fin a]

theorem crash_vals (m : ℕ) (a c : ℝ) : vals (crash m a c) = a :: List.replicate m c := by simp [vals, crash, FP.val]
theorem finale_vals (m : ℕ) (a c : ℝ) : vals (finale m a c) = List.replicate m c ++ [a] := by simp [vals, finale, FP.val]
theorem crash_fins (m : ℕ) (a c : ℝ) : Fins (crash m a c) := fun x hx => by
  rcases List.mem_cons.1 hx with rfl | hx
  · trivial
  · rw [(List.mem_replicate.1 hx).2]; trivial
theorem finale_fins (m : ℕ) (a c : ℝ) : Fins (finale m a c) := fun x hx => by
  rcases List.mem_append.1 hx with hx | hx
  · rw [(List.mem_replicate.1 hx).2]; trivial
  · rw [List.mem_singleton.1 hx]; trivial

theorem recent_all {l : List ℝ} {w : ℕ} (hl : l.length = w) (hw : 1 ≤ w) : recent l w (w - 1) = l := by
  rw [recent, show w - 1 + 1 - w = 0 by omega, List.drop_zero, List.take_of_length_le (by omega)]

/-- C115: `cfo` "ranges from -100 to +100" by its documentation. With a window of three bars or more it exceeds every bound on positive prices. -/
theorem cfo_unbounded_above {w : ℕ} (hw : 3 ≤ w) (K : ℝ) : ∃ data : List XF, data.length = w ∧ Fins data ∧ Positive (vals data) ∧
    ∃ v, Shows (w - 1) (cfo data w) v ∧ K < v := by
  obtain ⟨m, rfl⟩ : ∃ m, w = m + 1 := ⟨w - 1, by omega⟩
  have hm : (2 : ℝ) ≤ m := by exact_mod_cast (by omega : 2 ≤ m)
  set t : ℝ := (m + 1) * (m + 2) * (|K| + 1) with ht
  have hK : 0 ≤ |K| := abs_nonneg K
  have t0 : 0 < t := by positivity
  have hlen : (crash m (1 + t) 1).length = m + 1 := by simp [crash]
  refine ⟨crash m (1 + t) 1, hlen, crash_fins _ _ _, ?_, ?_⟩
  · rw [crash_vals]
    intro x hx
    rcases List.mem_cons.1 hx with rfl | hx
    · linarith
    · rw [(List.mem_replicate.1 hx).2]; norm_num
  · obtain ⟨out, e, el, -, hv⟩ := cfo_values (crash m (1 + t) 1) (m + 1) (by omega) (by omega) (crash_fins _ _ _)
    obtain ⟨y, hy, hq⟩ := hv (m + 1 - 1) le_rfl (by omega)
    have hlast : bar (vals (crash m (1 + t) 1)) (m + 1 - 1) = 1 := by
      rw [crash_vals, bar, List.getD_eq_getElem?_getD]
      obtain ⟨k, rfl⟩ : ∃ k, m = k + 1 := ⟨m - 1, by omega⟩
      simp [List.getElem?_replicate]
    rw [recent_all (by simp [crash]) (by omega), hlast, crash_vals, wma_first] at hq
    have hmean : mean ((1 + t) :: List.replicate m 1) = 1 + t / (m + 1) := by
      rw [mean, List.sum_cons, List.sum_replicate, List.length_cons, List.length_replicate]
      simp only [nsmul_eq_mul, mul_one]
      push_cast
      field_simp
      ring
    rw [hmean] at hq
    refine ⟨_, ⟨out, y, e, hy, hq.1 one_ne_zero⟩, ?_⟩
    have h1 : (m : ℝ) + 1 ≠ 0 := by positivity
    have h2 : (m : ℝ) + 2 ≠ 0 := by positivity
    have : 100 * (1 - (3 * (1 + (1 + t - 1) * 2 / ((m + 1) * (m + 2))) - 2 * (1 + t / (m + 1)))) / 1 = 100 * ((2 * m - 2) * (|K| + 1)) := by
      rw [ht]
      field_simp
      ring
    rw [this]
    have := le_abs_self K
    have := mul_le_mul_of_nonneg_right (show (2 : ℝ) ≤ 2 * m - 2 by linarith) (show 0 ≤ |K| + 1 by positivity)
    linarith

theorem cfo_unbounded_below {w : ℕ} (hw : 3 ≤ w) (K : ℝ) : ∃ data : List XF, data.length = w ∧ Fins data ∧ Positive (vals data) ∧
    ∃ v, Shows (w - 1) (cfo data w) v ∧ v < -K := by
  obtain ⟨m, rfl⟩ : ∃ m, w = m + 1 := ⟨w - 1, by omega⟩
  have hm : (2 : ℝ) ≤ m := by exact_mod_cast (by omega : 2 ≤ m)
  set t : ℝ := (m + 1) * (m + 2) * (|K| + 1) with ht
  have hK : 0 ≤ |K| := abs_nonneg K
  have t0 : 0 < t := by positivity
  have hlen : (finale m 1 (1 + t)).length = m + 1 := by simp [finale]
  refine ⟨finale m 1 (1 + t), hlen, finale_fins _ _ _, ?_, ?_⟩
  · rw [finale_vals]
    intro x hx
    rcases List.mem_append.1 hx with hx | hx
    · rw [(List.mem_replicate.1 hx).2]; linarith
    · rw [List.mem_singleton.1 hx]; norm_num
  · obtain ⟨out, e, el, -, hv⟩ := cfo_values (finale m 1 (1 + t)) (m + 1) (by omega) (by omega) (finale_fins _ _ _)
    obtain ⟨y, hy, hq⟩ := hv (m + 1 - 1) le_rfl (by omega)
    have hlast : bar (vals (finale m 1 (1 + t))) (m + 1 - 1) = 1 := by
      rw [finale_vals, bar, List.getD_eq_getElem?_getD, List.getElem?_append_right (by simp)]
      simp
    rw [recent_all (by simp [finale]) (by omega), hlast, finale_vals, wma_last] at hq
    have hmean : mean (List.replicate m (1 + t) ++ [1]) = 1 + t - t / (m + 1) := by
      rw [mean, List.sum_append, List.sum_replicate, List.length_append, List.length_replicate]
      simp only [nsmul_eq_mul, List.sum_singleton, List.length_singleton]
      push_cast
      field_simp
      ring
    rw [hmean] at hq
    refine ⟨_, ⟨out, y, e, hy, hq.1 one_ne_zero⟩, ?_⟩
    have h1 : (m : ℝ) + 1 ≠ 0 := by positivity
    have h2 : (m : ℝ) + 2 ≠ 0 := by positivity
    have : 100 * (1 - (3 * (1 + t + (1 - (1 + t)) * 2 / (m + 2)) - 2 * (1 + t - t / (m + 1)))) / 1 = -(100 * ((m * (m - 1)) * (|K| + 1))) := by
      rw [ht]
      field_simp
      ring
    rw [this]
    have := le_abs_self K
    have h3 : (2 : ℝ) ≤ m * (m - 1) := by nlinarith
    have := mul_le_mul_of_nonneg_right h3 (show 0 ≤ |K| + 1 by positivity)
    linarith

/-- C115: with a window of three bars `cfo` is the bend of the last three prices in percent of six times the last: its sign says whether the
price speeds up, not whether it rises. -/
theorem cfo_bend (data : List XF) (hd : Fins data) (hn : 2 ≤ data.length) :
    ReportsP data.length 2 (fun i => QuotIs (100 * ((bar (vals data) (i - 2) - 2 * bar (vals data) (i - 1) + bar (vals data) i) / 6)) (bar (vals data) i))
      (cfo data 3) := by
  refine (cfo_values data 3 (by omega) (by omega) hd).mono fun i y h1 h2 h => ?_
  rw [← lastOf_bar (by omega) (by simpa using h2)] at h
  have e : lastOf (bar (vals data)) 3 i = [bar (vals data) (i - 2), bar (vals data) (i - 1), bar (vals data) i] := by
    simp only [lastOf, List.range_succ, List.range_zero, List.nil_append, List.map_append, List.map_cons, List.map_nil, List.cons_append]
    rw [show i + 1 - 3 + 0 = i - 2 by omega, show i + 1 - 3 + 1 = i - 1 by omega, show i + 1 - 3 + 2 = i by omega]
  rw [e] at h
  have e2 : (List.range' 1 3).map (fun k : ℕ => (k : ℝ)) = [1, 2, 3] := by simp [List.range']
  rw [e2] at h
  have key : 100 * (bar (vals data) i - (3 * weightedMean [1, 2, 3] [bar (vals data) (i - 2), bar (vals data) (i - 1), bar (vals data) i] -
      2 * mean [bar (vals data) (i - 2), bar (vals data) (i - 1), bar (vals data) i])) =
      100 * ((bar (vals data) (i - 2) - 2 * bar (vals data) (i - 1) + bar (vals data) i) / 6) := by
    simp [weightedMean, mean]
    ring
  rwa [key] at h

end Traquer.Momentum

namespace Traquer.Momentum
open Traquer FP FloatLit Smooth

/-- C115: `qstick` above zero "means that the majority of datapoints in period have been up" by its documentation. For every window of three or more
there are `w` bars of which all but one close below their open, and `qstick` is above zero. -/
theorem qstick_minority {w : ℕ} (hw : 3 ≤ w) : ∃ openp close : List XF, openp.length = w ∧ close.length = w ∧ Fins openp ∧ Fins close ∧
    Positive (vals openp) ∧ Positive (vals close) ∧ (∀ i, 1 ≤ i → i < w → bar (vals close) i < bar (vals openp) i) ∧
    ∃ v, Shows (w - 1) (qstick openp close w) v ∧ 0 < v := by
  obtain ⟨m, rfl⟩ : ∃ m, w = m + 1 := ⟨w - 1, by omega⟩
  have fo : Fins (List.replicate (m + 1) (fin 2) : List XF) := fun x hx => by rw [(List.mem_replicate.1 hx).2]; trivial
  have vo : vals (List.replicate (m + 1) (fin 2) : List XF) = List.replicate (m + 1) 2 := by simp [vals, FP.val]
  have hm0 : (0 : ℝ) ≤ m := Nat.cast_nonneg m
  have b0 : ∀ i, i < m + 1 → bar (vals (List.replicate (m + 1) (fin 2) : List XF)) i = 2 := fun i hi => by
    rw [vo, bar, List.getD_eq_getElem?_getD, List.getElem?_replicate, if_pos hi, Option.getD_some]
  have b1 : ∀ i, 1 ≤ i → i < m + 1 → bar (vals (crash m (m + 3) 1)) i = 1 := fun i h1 hi => by
    rw [crash_vals, bar, List.getD_eq_getElem?_getD]
    obtain ⟨k, rfl⟩ : ∃ k, i = k + 1 := ⟨i - 1, by omega⟩
    rw [List.getElem?_cons_succ, List.getElem?_replicate, if_pos (by omega), Option.getD_some]
  have b2 : bar (vals (crash m (m + 3) 1)) 0 = m + 3 := by rw [crash_vals]; simp [bar]
  refine ⟨List.replicate (m + 1) (fin 2), crash m (m + 3) 1, by simp, by simp [crash], fo, crash_fins _ _ _, ?_, ?_, ?_, ?_⟩
  · rw [vo]
    intro x hx
    rw [(List.mem_replicate.1 hx).2]; norm_num
  · rw [crash_vals]
    intro x hx
    rcases List.mem_cons.1 hx with rfl | hx
    · linarith
    · rw [(List.mem_replicate.1 hx).2]; norm_num
  · intro i h1 h2
    rw [b0 i h2, b1 i h1 h2]; norm_num
  · obtain ⟨out, e, el, -, hv⟩ := qstick_reports (List.replicate (m + 1) (fin 2)) (crash m (m + 3) 1) (m + 1) (by simp [crash]) (by omega) (by simp)
      fo (crash_fins _ _ _)
    obtain ⟨y, hy, hq⟩ := hv (m + 1 - 1) le_rfl (by simp)
    refine ⟨_, ⟨out, y, e, hy, hq⟩, ?_⟩
    have hs := ewmaFrom_seed 0 (m + 1) (fun i => bar (vals (crash m (m + 3) 1)) i - bar (vals (List.replicate (m + 1) (fin 2) : List XF)) i) (by omega)
    rw [Nat.zero_add, Nat.zero_add] at hs
    rw [hs, mean]
    refine div_pos ?_ (by simp [lastOf]; positivity)
    rw [lastOf, List.range_succ_eq_map, List.map_cons, List.sum_cons, List.map_map]
    have e1 : (List.range m).map ((fun j => bar (vals (crash m (m + 3) 1)) (m + 1 - 1 + 1 - (m + 1) + j) -
        bar (vals (List.replicate (m + 1) (fin 2) : List XF)) (m + 1 - 1 + 1 - (m + 1) + j)) ∘ Nat.succ) = (List.range m).map fun _ => (-1 : ℝ) :=
      List.map_congr_left fun j hj => by
        have := List.mem_range.1 hj
        show bar _ (m + 1 - 1 + 1 - (m + 1) + (j + 1)) - bar _ (m + 1 - 1 + 1 - (m + 1) + (j + 1)) = -1
        rw [b1 _ (by omega) (by omega), b0 _ (by omega)]; norm_num
    rw [e1, show m + 1 - 1 + 1 - (m + 1) + 0 = 0 by omega, b2, b0 0 (by omega)]
    simp only [List.map_const', List.length_range, List.sum_replicate, nsmul_eq_mul]
    linarith

end Traquer.Momentum

namespace Traquer.Correlation
open Traquer FP

/-- C115: by its documentation `dcor` is 1 if the series "are surely equal". Two series that differ at every bar can have it at 1 throughout. -/
theorem dcor_one_not_equal (s : List XF) (w : ℕ) (hw : 1 ≤ w) (hn : w ≤ s.length + 1) (hd : Fins s) (hp : Positive (vals s)) :
    ReportsP s.length (w - 1) (fun i y => ¬ Flat (recent (vals s) w i) → y ⇓ 1) (dcor s (s.map fun x => fin (2 * x.val)) w) ∧
      ∀ i, i < s.length → bar (vals s) i < bar (vals (s.map fun x => (fin (2 * x.val) : XF))) i := by
  have hv : vals (s.map fun x => (fin (2 * x.val) : XF)) = (vals s).map fun x => 2 * x + 0 := by
    simp [vals, FP.val]
  refine ⟨dcor_affine s _ w hw hn hd (fun x hx => ?_) two_ne_zero hv, fun i hi => ?_⟩
  · obtain ⟨y, -, rfl⟩ := List.mem_map.1 hx
    trivial
  · have hb : bar ((vals s).map fun x => 2 * x + 0) i = 2 * bar (vals s) i := by
      have h1 := getElem?_of_lt (show i < (vals s).length by simpa using hi)
      rw [bar, bar, List.getD_eq_getElem?_getD, List.getD_eq_getElem?_getD, List.getElem?_map, h1]
      simp
    rw [hv, hb]
    have := hp.bar (i := i) (by simpa using hi)
    linarith

end Traquer.Correlation

namespace Traquer.Trend
open Traquer FP

/-- C115: `dpo` "suggests uptrend when above zero". On every rising straight line it is below zero, on every falling one above. -/
theorem dpo_line_sign {w : ℕ} (hw : 3 ≤ w) (c m : ℝ) (n : ℕ) (hn : w ≤ n) :
    (0 < m → BelowZero n (w - 1) (dpo (line c m n) w none)) ∧ (m < 0 → AboveZero n (w - 1) (dpo (line c m n) w none)) := by
  have hlag : ((w : ℝ) - 1) / 2 - ((w / 2 + 1 : ℕ) : ℝ) < 0 := by
    have : (w : ℝ) ≤ 2 * ((w / 2 : ℕ) : ℝ) + 1 := by exact_mod_cast (by omega : w ≤ 2 * (w / 2) + 1)
    push_cast
    linarith
  exact ⟨fun hm => (dpo_line hw c m n hn).toP fun i y _ _ h => ⟨_, h, mul_neg_of_pos_of_neg hm hlag⟩,
    fun hm => (dpo_line hw c m n hn).toP fun i y _ _ h => ⟨_, h, mul_pos_of_neg_of_neg hm hlag⟩⟩

/-- C115: with a window of three or four bars `dpo` is below zero while prices rise, whatever the steps. -/
theorem dpo_rising_below (data : List XF) (w : ℕ) (hw : w = 3 ∨ w = 4) (hn : w ≤ data.length) (hd : Fins data) (h : Rising (vals data)) :
    BelowZero data.length (w - 1) (dpo data w none) := by
  refine (dpo_reports data w none (by omega) hn hd (Smooth.sma_reports data w (by omega) (by omega) hd)).toP fun i y h1 h2 hy => ⟨_, hy, ?_⟩
  rw [← lastOf_bar (by omega) (by simpa using h2)]
  have cc := h.climbs
  rw [vals_length] at cc
  have hlt : -mean (lastOf (bar (vals data)) w i) < -bar (vals data) (i + 1 - w) := by
    have e : -mean (lastOf (bar (vals data)) w i) = mean (lastOf (fun j => -bar (vals data) j) w i) := by
      rw [mean, mean, lastOf, lastOf, sum_map_opposite, neg_div, List.length_map, List.length_map]
    rw [e]
    refine mean_lastOf_lt (k := i + 1 - w) (by omega) (by omega) (fun j j1 j2 => neg_le_neg (cc.le (by omega) j1 (by omega))) ⟨i, by omega, le_rfl, ?_⟩
    exact neg_lt_neg (cc.lt (by omega) (by omega) h2)
  have e : i - (w / 2 + 1) = i + 1 - w := by omega
  rw [e]
  linarith

end Traquer.Trend

namespace Traquer.Volatility
open Traquer FP Trend

/-- C115: by its documentation a high `chop` "suggests a strong trend while a low value suggests sideways movement". While all bars span the same
range it is 100. -/
theorem chop_sideways (high low close : List XF) (w : ℕ) (hl : low.length = high.length) (hc : close.length = high.length)
    (hw : 2 ≤ w) (hn : w ≤ high.length) (fh : Fins high) (fl : Fins low) (fc : Fins close) {H L : ℝ} (hHL : L < H)
    (sh : ∀ i, i < high.length → bar (vals high) i = H) (sl : ∀ i, i < high.length → bar (vals low) i = L)
    (sc : ∀ i, i < high.length → L ≤ bar (vals close) i ∧ bar (vals close) i ≤ H) :
    Reports high.length w (fun _ => 100) (chop high low close w) := by
  refine (chop_reports high low close w hl hc hw hn fh fl fc).mono fun i y h1 h2 hy => ?_
  have e1 : maxOf (recent (vals high) w i) = H := by
    refine maxOf_eq (by rw [← sh i h2]; exact bar_mem_recent (by omega) (by simpa using h2) (by omega) le_rfl) fun x hx => ?_
    obtain ⟨j, -, hj, rfl⟩ := mem_recent_bar (by omega) (by simpa using h2) hx
    exact (sh j (by omega)).le
  have e2 : minOf (recent (vals low) w i) = L := by
    refine minOf_eq (by rw [← sl i h2]; exact bar_mem_recent (by omega) (by simp; omega) (by omega) le_rfl) fun x hx => ?_
    obtain ⟨j, -, hj, rfl⟩ := mem_recent_bar (by omega) (by simp; omega) hx
    exact (sl j (by omega)).ge
  have e3 : (lastOf (trAt (vals high) (vals low) (vals close)) w i).sum = w * (H - L) := by
    have : lastOf (trAt (vals high) (vals low) (vals close)) w i = (List.range w).map fun _ => H - L :=
      List.map_congr_left fun j hj => by
        have := List.mem_range.1 hj
        obtain ⟨c1, c2⟩ := sc (i + 1 - w + j - 1) (by omega)
        rw [trAt, trueRangeOf, sh _ (by omega), sl _ (by omega)]
        refine max_eq_left (max_le ?_ ?_)
        · rw [abs_of_nonneg (by linarith)]; linarith
        · rw [abs_of_nonpos (by linarith)]; linarith
    rw [this]; simp
  have w1 : (1 : ℝ) < w := by exact_mod_cast (by omega : 1 < w)
  rw [e1, e2, e3] at hy
  refine (hy (mul_pos (by linarith) (by linarith)) (by linarith)).congr ?_
  rw [mul_div_cancel_right₀ _ (sub_pos.2 hHL).ne', mul_div_cancel_right₀ _ (Real.log_pos w1).ne']

/-- C115: ... and in a straight trend it is low, `100 ln (w / (w - 1)) / ln w`, which is below 100 from a window of three on. -/
theorem chop_trend {w : ℕ} (hw : 2 ≤ w) (c : ℝ) {m : ℝ} (hm : m ≠ 0) (n : ℕ) (hn : w ≤ n) :
    Reports n w (fun _ => 100 * Real.log (w / (w - 1)) / Real.log w) (chop (line c m n) (line c m n) (line c m n) w) ∧
      (3 ≤ w → 100 * Real.log (w / (w - 1)) / Real.log w < (100 : ℝ)) := by
  have w1 : (1 : ℝ) < w := by exact_mod_cast (by omega : 1 < w)
  constructor
  · have h := chop_reports (line c m n) (line c m n) (line c m n) w rfl rfl hw (by rw [line_length]; exact hn) (line_fins _ _ _) (line_fins _ _ _) (line_fins _ _ _)
    rw [line_length] at h
    refine h.mono fun i y h1 h2 hy => ?_
    have e3 : (lastOf (trAt (vals (line c m n)) (vals (line c m n)) (vals (line c m n))) w i).sum = w * |m| := by
      have : lastOf (trAt (vals (line c m n)) (vals (line c m n)) (vals (line c m n))) w i = (List.range w).map fun _ => |m| :=
        List.map_congr_left fun j hj => by
          have := List.mem_range.1 hj
          rw [trAt, trueRangeOf, line_bar (by omega), line_bar (by omega), sub_self]
          rw [show c + m * ((i + 1 - w + j : ℕ) : ℝ) - (c + m * ((i + 1 - w + j - 1 : ℕ) : ℝ)) = m by
            rw [Nat.cast_sub (by omega : 1 ≤ i + 1 - w + j)]; push_cast; ring]
          rw [max_self, max_eq_right (abs_nonneg m)]
      rw [this]; simp
    have hlen : (vals (line c m n)).length = n := by simp [line_length]
    have mem : ∀ x ∈ recent (vals (line c m n)) w i, ∃ j : ℕ, i + 1 - w ≤ j ∧ j ≤ i ∧ x = c + m * j := fun x hx => by
      obtain ⟨j, j1, j2, rfl⟩ := mem_recent_bar (by omega) (by omega) hx
      exact ⟨j, j1, j2, line_bar (by omega)⟩
    have m1 : c + m * i ∈ recent (vals (line c m n)) w i := by
      rw [← line_bar h2]; exact bar_mem_recent (by omega) (by omega) (by omega) le_rfl
    have m2 : c + m * ((i + 1 - w : ℕ) : ℝ) ∈ recent (vals (line c m n)) w i := by
      rw [← line_bar (n := n) (by omega)]; exact bar_mem_recent (by omega) (by omega) le_rfl (by omega)
    have hd : ((i : ℝ)) - ((i + 1 - w : ℕ) : ℝ) = w - 1 := by
      rw [Nat.cast_sub (by omega)]; push_cast; ring
    have e12 : maxOf (recent (vals (line c m n)) w i) - minOf (recent (vals (line c m n)) w i) = |m| * (w - 1) := by
      rcases lt_or_gt_of_ne hm with hm | hm
      · rw [maxOf_eq m2 fun x hx => by
          obtain ⟨j, j1, j2, rfl⟩ := mem x hx
          have : ((i + 1 - w : ℕ) : ℝ) ≤ j := by exact_mod_cast j1
          nlinarith, minOf_eq m1 fun x hx => by
          obtain ⟨j, j1, j2, rfl⟩ := mem x hx
          have : (j : ℝ) ≤ i := by exact_mod_cast j2
          nlinarith, abs_of_neg hm, ← hd]
        ring
      · rw [maxOf_eq m1 fun x hx => by
          obtain ⟨j, j1, j2, rfl⟩ := mem x hx
          have : (j : ℝ) ≤ i := by exact_mod_cast j2
          nlinarith, minOf_eq m2 fun x hx => by
          obtain ⟨j, j1, j2, rfl⟩ := mem x hx
          have : ((i + 1 - w : ℕ) : ℝ) ≤ j := by exact_mod_cast j1
          nlinarith, abs_of_pos hm, ← hd]
        ring
    have hm' := abs_pos.2 hm
    rw [e12, e3] at hy
    refine (hy (mul_pos (by linarith) hm') (mul_pos hm' (by linarith))).congr ?_
    rw [mul_comm |m|, mul_div_mul_right _ _ hm'.ne']
  · intro h3
    have w2 : (2 : ℝ) < w := by exact_mod_cast (by omega : 2 < w)
    rw [div_lt_iff₀ (Real.log_pos w1)]
    refine mul_lt_mul_of_pos_left (Real.log_lt_log (div_pos (by linarith) (by linarith)) ?_) (by norm_num)
    rw [div_lt_iff₀ (by linarith)]
    nlinarith

end Traquer.Volatility

namespace Traquer
open FP

/-- The statements of this file apply: with a window of 14 bars some positive prices have a `cfo` above 1000 and some below -1000. -/
example : (∃ data : List XF, Positive (vals data) ∧ ∃ v, Shows 13 (Momentum.cfo data 14) v ∧ 1000 < v) ∧
    ∃ data : List XF, Positive (vals data) ∧ ∃ v, Shows 13 (Momentum.cfo data 14) v ∧ v < -1000 := by
  obtain ⟨d, -, -, h1, h2⟩ := Momentum.cfo_unbounded_above (w := 14) (by decide) 1000
  obtain ⟨e, -, -, h3, h4⟩ := Momentum.cfo_unbounded_below (w := 14) (by decide) 1000
  exact ⟨⟨d, h1, h2⟩, e, h3, h4⟩

private noncomputable def slowing : List XF := [fin 1, fin 4, fin 6]

private theorem slowing_fins : Fins slowing := fun x hx => by fin_cases hx <;> trivial

/-- Rising prices with a `cfo` of `-25 / 9`, below zero: the rise slows down. -/
example : Rising (vals slowing) ∧ ∃ v, Shows 2 (Momentum.cfo slowing 3) v ∧ v < 0 := by
  have hv : vals slowing = [1, 4, 6] := by simp [vals, slowing, FP.val]
  constructor
  · rw [hv]
    intro i hi
    simp only [List.length_cons, List.length_nil] at hi
    have hi : i < 2 := by omega
    interval_cases i <;> norm_num [bar]
  · obtain ⟨out, e, el, -, h⟩ := Momentum.cfo_bend slowing slowing_fins (by simp [slowing])
    obtain ⟨y, hy, hq⟩ := h 2 le_rfl (by simp [slowing])
    rw [hv] at hq
    exact ⟨_, ⟨out, y, e, hy, hq.1 (by norm_num [bar])⟩, by norm_num [bar]⟩

/-- Rising by one per bar from 5: `dpo` is below zero at every bar from the fourteenth on, of 100. -/
example : BelowZero 100 13 (Trend.dpo (line 5 1 100) 14 none) := (Trend.dpo_line_sign (by decide) 5 1 100 (by decide)).1 one_pos

/-- Straight rise: `chop` with a window of 14 is below 100, its value in a sideways market. -/
example : ∃ v : ℝ, Reports 100 14 (fun _ => v) (Volatility.chop (line 5 1 100) (line 5 1 100) (line 5 1 100) 14) ∧ v < 100 := by
  have h := Volatility.chop_trend (w := 14) (by decide) 5 (m := 1) one_ne_zero 100 (by decide)
  exact ⟨_, h.1, h.2 (by decide)⟩

private noncomputable def same (x : ℝ) : List XF := List.replicate 30 (fin x)

private theorem same_fins (x : ℝ) : Fins (same x) := fun y hy => by rw [(List.mem_replicate.1 hy).2]; trivial
private theorem same_bar (x : ℝ) (i : ℕ) (hi : i < 30) : bar (vals (same x)) i = x := by
  have hv : vals (same x) = List.replicate 30 x := by simp only [vals, same, List.map_replicate, FP.val]
  rw [hv, bar, List.getD_eq_getElem?_getD, List.getElem?_replicate, if_pos hi, Option.getD_some]

/-- A sideways market: thirty bars between 9 and 11 that close at 10. -/
example : Reports 30 14 (fun _ => 100) (Volatility.chop (same 11) (same 9) (same 10) 14) := by
  have h := Volatility.chop_sideways (same 11) (same 9) (same 10) 14 (by simp [same]) (by simp [same]) (by decide) (by simp [same]) (same_fins _)
    (same_fins _) (same_fins _) (H := 11) (L := 9) (by norm_num) (fun i hi => same_bar _ i (by simpa [same] using hi))
    (fun i hi => same_bar _ i (by simpa [same] using hi)) (fun i hi => by
      rw [same_bar _ i (by simpa [same] using hi)]; norm_num)
  simpa [same] using h

/-- Rising prices with three different steps: `dpo` with a window of three is below zero. -/
example : BelowZero 3 2 (Trend.dpo slowing 3 none) := by
  have h := Trend.dpo_rising_below slowing 3 (.inl rfl) (by simp [slowing]) slowing_fins (by
    have hv : vals slowing = [1, 4, 6] := by simp [vals, slowing, FP.val]
    rw [hv]
    intro i hi
    simp only [List.length_cons, List.length_nil] at hi
    have hi : i < 2 := by omega
    interval_cases i <;> norm_num [bar])
  simpa [slowing] using h

/-- `dcor` of a series with its double is 1. -/
example : ReportsP 3 1 (fun i y => ¬ Flat (recent (vals slowing) 2 i) → y ⇓ 1) (Correlation.dcor slowing (slowing.map fun x => fin (2 * x.val)) 2) := by
  have h := (Correlation.dcor_one_not_equal slowing 2 (by decide) (by simp [slowing]) slowing_fins (by
    have hv : vals slowing = [1, 4, 6] := by simp [vals, slowing, FP.val]
    rw [hv]
    intro x hx
    fin_cases hx <;> norm_num)).1
  simpa [slowing] using h

end Traquer
