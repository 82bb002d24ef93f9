import Verif.Props.Saturate
import Verif.Props.AdxLine
import Verif.Props.Pearson
import Verif.Props.VolatilityFormulas
import Verif.Props.Quantile
import Mathlib.Tactic.IntervalCases
/-!
# C88: indicators of several series in a steady trend
-/

namespace Traquer
open FP

theorem bar_mem_recent {l : List ℝ} {w i j : ℕ} (hw : w ≤ i + 1) (hi : i < l.length) (h1 : i + 1 - w ≤ j) (h2 : j ≤ i) : bar l j ∈ recent l w i := by
  rw [← lastOf_bar hw hi]
  exact List.mem_map.2 ⟨j - (i + 1 - w), List.mem_range.2 (by omega), by rw [show i + 1 - w + (j - (i + 1 - w)) = j by omega]⟩

/-- The highest value of a window of a rising series is the latest one. -/
theorem Rising.max {l : List ℝ} (h : Rising l) {w i : ℕ} (hw : 1 ≤ w) (h1 : w ≤ i + 1) (h2 : i < l.length) : maxOf (Traquer.recent l w i) = bar l i :=
  maxOf_eq (bar_mem_recent h1 h2 (by omega) le_rfl) fun x hx => by
    obtain ⟨j, -, hj, rfl⟩ := Volatility.mem_recent_bar h1 h2 hx
    rcases hj.eq_or_lt with rfl | hj
    · exact le_rfl
    · exact (h.lt hj h2).le

/-- The lowest value of a window of a falling series is the latest one. -/
theorem Falling.min {l : List ℝ} (h : Falling l) {w i : ℕ} (hw : 1 ≤ w) (h1 : w ≤ i + 1) (h2 : i < l.length) : minOf (Traquer.recent l w i) = bar l i :=
  minOf_eq (bar_mem_recent h1 h2 (by omega) le_rfl) fun x hx => by
    obtain ⟨j, -, hj, rfl⟩ := Volatility.mem_recent_bar h1 h2 hx
    rcases hj.eq_or_lt with rfl | hj
    · exact le_rfl
    · exact (h.lt hj h2).le

theorem bar_some {l : List ℝ} {i : ℕ} (h : i < l.length) : l[i]? = some (bar l i) := by
  rw [bar, List.getD_eq_getElem?_getD, List.getElem?_eq_getElem h, Option.getD_some]

end Traquer

namespace Traquer.Trend
open Traquer FP FloatLit

section
variable {ρ : Rounding} (high low : List (FP ρ)) (w : ℕ) (hw : 1 ≤ w) (hb : w ≤ 2 ^ 53) (hn : w ≤ high.length) (hl : low.length = high.length)
  (fh : Fins high) (fl : Fins low)
include hw hb

theorem aroon_pair : ((flt (w - 0) / flt w * 100 : FP ρ) ⇓ 100) ∧ ((flt (w - w) / flt w * 100 : FP ρ) ⇓ 0) := by
  have hp : (w : ℝ) ≠ 0 := by exact_mod_cast (by omega : w ≠ 0)
  have hf := isFlt (ρ := ρ) hb
  have h100 := isLit (ρ := ρ) 100 (by norm_num)
  constructor
  · have := Distribution.rounds_nat (n := 1) (rounds_div hf hf hp) (by rw [div_self hp]; simp) (by norm_num)
    have := Distribution.rounds_nat (n := 100) (rounds_mul this h100) (by norm_num) (by norm_num)
    simpa using this
  · rw [Nat.sub_self]
    have := Distribution.rounds_nat (n := 0) (rounds_div (isFlt (ρ := ρ) (n := 0) (by norm_num)) hf hp) (by simp) (by norm_num)
    have := Distribution.rounds_nat (n := 0) (rounds_mul this h100) (by simp) (by norm_num)
    simpa using this

include hn hl fh fl

/-- C88: in every rounding, `aroon` is (100, 0) while highs and lows rise. -/
theorem aroon_rising (h : Rising (vals high)) (h' : Rising (vals low)) :
    Items high.length w (fun _ p => p.1 ⇓ 100 ∧ p.2 ⇓ 0) (aroon high low w) := by
  obtain ⟨out, eo, lo, hi⟩ := aroon_items high low w hn hl fh fl
  refine ⟨out, eo, lo, fun i y hwi hy => ?_⟩
  have hlt : i < high.length := lo ▸ (List.getElem?_eq_some_iff.1 hy).1
  obtain ⟨a, b, ⟨ha, m, e1, m1, -⟩, ⟨hb', n, e2, n1, -⟩, rfl⟩ := hi i y hwi hy
  have a0 : a = 0 := by
    by_contra hne
    have := m1 i _ (by omega) le_rfl (bar_some (by simp; omega))
    rw [← bar_eq e1] at this
    exact absurd (h.lt (show i - a < i by omega) (by simp; omega)) (not_lt.2 this)
  have bw : b = w := by
    by_contra hne
    have := n1 (i - w) _ le_rfl (by omega) (bar_some (by simp; omega))
    rw [← bar_eq e2] at this
    exact absurd (h'.lt (show i - w < i - b by omega) (by simp; omega)) (not_lt.2 this)
  subst a0 bw
  exact aroon_pair b hw hb

/-- C88: in every rounding, `aroon` is (0, 100) while highs and lows fall. -/
theorem aroon_falling (h : Falling (vals high)) (h' : Falling (vals low)) :
    Items high.length w (fun _ p => p.1 ⇓ 0 ∧ p.2 ⇓ 100) (aroon high low w) := by
  obtain ⟨out, eo, lo, hi⟩ := aroon_items high low w hn hl fh fl
  refine ⟨out, eo, lo, fun i y hwi hy => ?_⟩
  have hlt : i < high.length := lo ▸ (List.getElem?_eq_some_iff.1 hy).1
  obtain ⟨a, b, ⟨ha, m, e1, m1, -⟩, ⟨hb', n, e2, n1, -⟩, rfl⟩ := hi i y hwi hy
  have aw : a = w := by
    by_contra hne
    have := m1 (i - w) _ le_rfl (by omega) (bar_some (by simp; omega))
    rw [← bar_eq e1] at this
    exact absurd (h.lt (show i - w < i - a by omega) (by simp; omega)) (not_lt.2 this)
  have b0 : b = 0 := by
    by_contra hne
    have := n1 i _ (by omega) le_rfl (bar_some (by simp; omega))
    rw [← bar_eq e2] at this
    exact absurd (h'.lt (show i - b < i by omega) (by simp; omega)) (not_lt.2 this)
  subst aw b0
  exact (aroon_pair a hw hb).symm

end

theorem plusMoves_mem {high low : List ℝ} {x : ℝ} (hx : x ∈ plusMoves high low) :
    ∃ j, j + 1 < high.length ∧ j + 1 < low.length ∧ x = plusMove (bar high j) (bar high (j + 1)) (bar low j) (bar low (j + 1)) := by
  obtain ⟨⟨a, b, c, d⟩, hp, rfl⟩ := List.mem_map.1 hx
  obtain ⟨j, hj⟩ := List.mem_iff_getElem?.1 hp
  obtain ⟨e1, e2, e3, e4⟩ := zip4_getElem?.1 hj
  rw [List.getElem?_tail] at e2 e4
  exact ⟨j, (List.getElem?_eq_some_iff.1 e2).1, (List.getElem?_eq_some_iff.1 e4).1, by rw [bar_eq e1, bar_eq e2, bar_eq e3, bar_eq e4]⟩

theorem minusMoves_mem {high low : List ℝ} {x : ℝ} (hx : x ∈ minusMoves high low) :
    ∃ j, j + 1 < high.length ∧ j + 1 < low.length ∧ x = minusMove (bar high j) (bar high (j + 1)) (bar low j) (bar low (j + 1)) := by
  obtain ⟨⟨a, b, c, d⟩, hp, rfl⟩ := List.mem_map.1 hx
  obtain ⟨j, hj⟩ := List.mem_iff_getElem?.1 hp
  obtain ⟨e1, e2, e3, e4⟩ := zip4_getElem?.1 hj
  rw [List.getElem?_tail] at e2 e4
  exact ⟨j, (List.getElem?_eq_some_iff.1 e2).1, (List.getElem?_eq_some_iff.1 e4).1, by rw [bar_eq e1, bar_eq e2, bar_eq e3, bar_eq e4]⟩

theorem trueRanges_mem {high low close : List ℝ} {x : ℝ} (hx : x ∈ trueRanges high low close) :
    ∃ j, j + 1 < high.length ∧ j + 1 < low.length ∧ j < close.length ∧ x = trueRangeOf (bar high (j + 1)) (bar low (j + 1)) (bar close j) := by
  obtain ⟨⟨a, b, c⟩, hp, rfl⟩ := List.mem_map.1 hx
  obtain ⟨j, hj⟩ := List.mem_iff_getElem?.1 hp
  obtain ⟨e1, e2, e3⟩ := zip3_getElem?.1 hj
  rw [List.getElem?_tail] at e1 e2
  exact ⟨j, (List.getElem?_eq_some_iff.1 e1).1, (List.getElem?_eq_some_iff.1 e2).1, (List.getElem?_eq_some_iff.1 e3).1,
    by rw [bar_eq e1, bar_eq e2, bar_eq e3]⟩

section
variable (high low close : List XF) (w s : ℕ) (hw : 1 ≤ w) (hs' : 1 ≤ s) (hn : w + s ≤ high.length)
  (fh : Fins high) (fl : Fins low) (fc : Fins close) (hs : SaneBars (vals high) (vals low) (vals close))
include hw hs' hn fh fl fc hs

omit hs' hn fh fl fc in
theorem ranges_rising (h : Rising (vals high)) (i : ℕ) (hi : w ≤ i) (hlt : i < high.length) :
    0 < wilderOf w (trueRanges (vals high) (vals low) (vals close)) (i - 1) := by
  have ll : low.length = high.length := by simpa [vals] using hs.low_length
  have lc : close.length = high.length := by simpa [vals] using hs.close_length
  refine Momentum.wilderOf_pos hw (by omega) (by simp [trueRanges]; omega) fun x hx => ?_
  obtain ⟨j, j1, j2, j3, rfl⟩ := trueRanges_mem (List.mem_of_mem_take hx)
  have := hs.le_high j _ _ (bar_some (by omega)) (bar_some (by omega))
  exact lt_of_lt_of_le (by rw [abs_pos]; linarith [h j j1]) (abs_le_tr1 _ _ _)

omit hs' hn fh fl fc in
theorem ranges_falling (h : Falling (vals low)) (i : ℕ) (hi : w ≤ i) (hlt : i < high.length) :
    0 < wilderOf w (trueRanges (vals high) (vals low) (vals close)) (i - 1) := by
  have ll : low.length = high.length := by simpa [vals] using hs.low_length
  have lc : close.length = high.length := by simpa [vals] using hs.close_length
  refine Momentum.wilderOf_pos hw (by omega) (by simp [trueRanges]; omega) fun x hx => ?_
  obtain ⟨j, j1, j2, j3, rfl⟩ := trueRanges_mem (List.mem_of_mem_take hx)
  have := hs.low_le j _ _ (bar_some (by omega)) (bar_some (by omega))
  exact lt_of_lt_of_le (by rw [abs_pos]; linarith [h j j2]) (abs_le_tr2 _ _ _)

/-- C88: while highs and lows rise, the positive directional index is positive, the negative one 0, and `adx` 100. -/
theorem adx_rising (h : Rising (vals high)) (h' : Rising (vals low)) :
    Items high.length w (fun i p => (∃ r, 0 < r ∧ p.1 ⇓ r) ∧ p.2.1 ⇓ 0 ∧ (w + s ≤ i + 1 → p.2.2 ⇓ 100)) (adx high low close w s) := by
  have ll : low.length = high.length := by simpa [vals] using hs.low_length
  have lc : close.length = high.length := by simpa [vals] using hs.close_length
  have hT := ranges_rising high low close w hw hs h
  have hP : ∀ i, w ≤ i → i < high.length → 0 < wilderOf w (plusMoves (vals high) (vals low)) (i - 1) := fun i hi hlt => by
    refine Momentum.wilderOf_pos hw (by omega) (by simp [plusMoves]; omega) fun x hx => ?_
    obtain ⟨j, j1, j2, rfl⟩ := plusMoves_mem (List.mem_of_mem_take hx)
    have := h j j1
    have := h' j j2
    rw [plusMove, if_pos (by linarith)]
    exact lt_max_of_lt_right (by linarith)
  have hN : ∀ i, w ≤ i → i < high.length → wilderOf w (minusMoves (vals high) (vals low)) (i - 1) = 0 := fun i hi hlt => by
    refine Momentum.wilderOf_zero hw (by omega) (by simp [minusMoves]; omega) fun x hx => ?_
    obtain ⟨j, j1, j2, rfl⟩ := minusMoves_mem (List.mem_of_mem_take hx)
    have := h j j1
    have := h' j j2
    rw [minusMove, if_neg (by linarith)]
  obtain ⟨out, eo, lo, hi⟩ := adx_items high low close w s hw hs' (by omega) (by omega) fh fl fc hs
  obtain ⟨out', eo', -, hi'⟩ := adx_line high low close w s hw hs' hn ll lc fh fl fc (fun i h1 h2 => (hT i h1 h2).ne')
    fun i h1 h2 => by rw [hN i h1 h2, add_zero]; exact (hP i h1 h2).ne'
  cases eo.symm.trans eo'
  refine ⟨out, eo, lo, fun i y hwi hy => ?_⟩
  have hlt : i < high.length := lo ▸ (List.getElem?_eq_some_iff.1 hy).1
  obtain ⟨q1, q2, -⟩ := hi i y hwi hy
  have t := hT i hwi hlt
  refine ⟨⟨_, by have := hP i hwi hlt; positivity, q1.1 t.ne'⟩, (q2.1 t.ne').congr (by rw [hN i hwi hlt]; simp), fun hws => ?_⟩
  refine (hi' i y (by omega) hy).congr ?_
  have := wilderOf_within (w := s) (l := dxSeries (vals high) (vals low) w) (i := i - w) (lo := 100) (hi := 100) hs' (by omega)
    (by simp [dxSeries]; omega) fun x hx => by
      obtain ⟨j, hj, rfl⟩ := List.mem_map.1 (List.mem_of_mem_take hx)
      rw [List.mem_range] at hj
      simp at hj
      have p := hP (w + j) (by omega) (by omega)
      rw [dxAt, hN (w + j) (by omega) (by omega), sub_zero, add_zero, abs_of_pos p, mul_div_assoc, div_self p.ne', mul_one]
      exact ⟨le_rfl, le_rfl⟩
  linarith [this.1, this.2]

/-- C88: while highs and lows fall, the positive directional index is 0, the negative one positive, and `adx` 100. -/
theorem adx_falling (h : Falling (vals high)) (h' : Falling (vals low)) :
    Items high.length w (fun i p => p.1 ⇓ 0 ∧ (∃ r, 0 < r ∧ p.2.1 ⇓ r) ∧ (w + s ≤ i + 1 → p.2.2 ⇓ 100)) (adx high low close w s) := by
  have ll : low.length = high.length := by simpa [vals] using hs.low_length
  have lc : close.length = high.length := by simpa [vals] using hs.close_length
  have hT := ranges_falling high low close w hw hs h'
  have hP : ∀ i, w ≤ i → i < high.length → 0 < wilderOf w (minusMoves (vals high) (vals low)) (i - 1) := fun i hi hlt => by
    refine Momentum.wilderOf_pos hw (by omega) (by simp [minusMoves]; omega) fun x hx => ?_
    obtain ⟨j, j1, j2, rfl⟩ := minusMoves_mem (List.mem_of_mem_take hx)
    have := h j j1
    have := h' j j2
    rw [minusMove, if_pos (by linarith)]
    exact lt_max_of_lt_right (by linarith)
  have hN : ∀ i, w ≤ i → i < high.length → wilderOf w (plusMoves (vals high) (vals low)) (i - 1) = 0 := fun i hi hlt => by
    refine Momentum.wilderOf_zero hw (by omega) (by simp [plusMoves]; omega) fun x hx => ?_
    obtain ⟨j, j1, j2, rfl⟩ := plusMoves_mem (List.mem_of_mem_take hx)
    have := h j j1
    have := h' j j2
    rw [plusMove, if_neg (by linarith)]
  obtain ⟨out, eo, lo, hi⟩ := adx_items high low close w s hw hs' (by omega) (by omega) fh fl fc hs
  obtain ⟨out', eo', -, hi'⟩ := adx_line high low close w s hw hs' hn ll lc fh fl fc (fun i h1 h2 => (hT i h1 h2).ne')
    fun i h1 h2 => by rw [hN i h1 h2, zero_add]; exact (hP i h1 h2).ne'
  cases eo.symm.trans eo'
  refine ⟨out, eo, lo, fun i y hwi hy => ?_⟩
  have hlt : i < high.length := lo ▸ (List.getElem?_eq_some_iff.1 hy).1
  obtain ⟨q1, q2, -⟩ := hi i y hwi hy
  have t := hT i hwi hlt
  refine ⟨(q1.1 t.ne').congr (by rw [hN i hwi hlt]; simp), ⟨_, by have := hP i hwi hlt; positivity, q2.1 t.ne'⟩, fun hws => ?_⟩
  refine (hi' i y (by omega) hy).congr ?_
  have := wilderOf_within (w := s) (l := dxSeries (vals high) (vals low) w) (i := i - w) (lo := 100) (hi := 100) hs' (by omega)
    (by simp [dxSeries]; omega) fun x hx => by
      obtain ⟨j, hj, rfl⟩ := List.mem_map.1 (List.mem_of_mem_take hx)
      rw [List.mem_range] at hj
      simp at hj
      have p := hP (w + j) (by omega) (by omega)
      rw [dxAt, hN (w + j) (by omega) (by omega), zero_sub, zero_add, abs_neg, abs_of_pos p, mul_div_assoc, div_self p.ne', mul_one]
      exact ⟨le_rfl, le_rfl⟩
  linarith [this.1, this.2]

end

/-- C88: `ulcer` is 0 while positive prices rise. -/
theorem ulcer_rising (data : List XF) (w : ℕ) (hw : 1 ≤ w) (hn : 2 * (w - 1) ≤ data.length) (hd : Fins data) (hp : ∀ x ∈ vals data, 0 < x)
    (h : Rising (vals data)) : Reports data.length (2 * (w - 1)) (fun _ => 0) (ulcer data w) := by
  have key : ∀ i, w ≤ i + 1 → i < data.length → maxOf (recent (vals data) w i) = bar (vals data) i := fun i h1 h2 => h.max hw h1 (by simp; omega)
  refine (ulcer_reports data w hw hn hd fun i h1 h2 => ?_).congr fun i hi hlt => ?_
  · rw [key i h1 h2]
    exact (hp _ (List.mem_of_getElem? (bar_some (by simp; omega)))).ne'
  · have : (lastOf (fun j => drawdown (vals data) w j ^ 2) w i).sum = 0 := sum_zero fun x hx => by
      obtain ⟨j, hj, rfl⟩ := List.mem_map.1 hx
      rw [List.mem_range] at hj
      dsimp only
      rw [drawdown, key _ (by omega) (by omega)]
      simp
    rw [mean, this, zero_div, Real.sqrt_zero]

end Traquer.Trend

namespace Traquer.Momentum
open Traquer FP FloatLit

theorem mean_const {v : ℕ → ℝ} {s i : ℕ} {c : ℝ} (hs : 1 ≤ s) (hi : s ≤ i + 1) (h : ∀ j, i + 1 - s ≤ j → j ≤ i → v j = c) : mean (lastOf v s i) = c := by
  have e : lastOf v s i = List.replicate s c := List.eq_replicate_iff.2 ⟨by simp [lastOf], fun x hx => by
    obtain ⟨j, hj, rfl⟩ := List.mem_map.1 hx
    rw [List.mem_range] at hj
    exact h _ (by omega) (by omega)⟩
  have hp := Smooth.natCast_pos hs
  rw [e, mean, List.sum_replicate, List.length_replicate, nsmul_eq_mul, mul_div_assoc, mul_comm, div_mul_cancel₀ _ hp.ne']

section
variable (high low close : List XF) (w : ℕ) (hw : 1 ≤ w) (hh : Fins high) (hl : Fins low) (hc : Fins close)
  (ll : low.length = high.length) (lc : close.length = high.length) (hlt : ∀ i, i < high.length → bar (vals low) i < bar (vals high) i)
include hw hh hl hc ll lc hlt

omit hh hl hc lc in
theorem range_rising (h : Rising (vals high)) {i : ℕ} (h1 : w ≤ i + 1) (h2 : i < high.length) :
    maxOf (recent (vals high) w i) = bar (vals high) i ∧ minOf (recent (vals low) w i) < maxOf (recent (vals high) w i) := by
  have e := h.max hw h1 (by simp; omega)
  refine ⟨e, ?_⟩
  rw [e]
  exact lt_of_le_of_lt (minOf_le (bar_mem_recent h1 (by simp; omega) (by omega) le_rfl)) (hlt i h2)

omit hh hl hc lc in
theorem range_falling (h : Falling (vals low)) {i : ℕ} (h1 : w ≤ i + 1) (h2 : i < high.length) :
    minOf (recent (vals low) w i) = bar (vals low) i ∧ minOf (recent (vals low) w i) < maxOf (recent (vals high) w i) := by
  have e := h.min hw h1 (by simp; omega)
  refine ⟨e, ?_⟩
  rw [e]
  exact lt_of_lt_of_le (hlt i h2) (le_maxOf (bar_mem_recent h1 (by simp; omega) (by omega) le_rfl))

/-- C88: `wpr` is 0 while highs rise and every bar closes at its high. -/
theorem wpr_rising (hn : w ≤ high.length + 1) (h : Rising (vals high)) (hcl : ∀ i, i < high.length → bar (vals close) i = bar (vals high) i) :
    Reports high.length (w - 1) (fun _ => 0) (wpr high low close w) := by
  refine (wpr_reports high low close w hw hn hh hl hc ll lc).mono fun i y hi hlt' hy => ?_
  obtain ⟨e, hne⟩ := range_rising high low w hw ll hlt h (i := i) (by omega) hlt'
  refine (hy _ (bar_some (by simp; omega)) hne.ne').congr ?_
  rw [hcl i hlt', e]
  simp

/-- C88: `wpr` is -100 while lows fall and every bar closes at its low. -/
theorem wpr_falling (hn : w ≤ high.length + 1) (h : Falling (vals low)) (hcl : ∀ i, i < high.length → bar (vals close) i = bar (vals low) i) :
    Reports high.length (w - 1) (fun _ => -100) (wpr high low close w) := by
  refine (wpr_reports high low close w hw hn hh hl hc ll lc).mono fun i y hi hlt' hy => ?_
  obtain ⟨e, hne⟩ := range_falling high low w hw ll hlt h (i := i) (by omega) hlt'
  refine (hy _ (bar_some (by simp; omega)) hne.ne').congr ?_
  rw [hcl i hlt', ← e, div_self (by linarith), mul_one]

/-- C88: both lines of `stoch` are 100 while highs rise and every bar closes at its high. -/
theorem stoch_rising (s : ℕ) (hs : 1 ≤ s) (hn : w - 1 + 2 * (s - 1) ≤ high.length) (h : Rising (vals high))
    (hcl : ∀ i, i < high.length → bar (vals close) i = bar (vals high) i) :
    ∃ out, stoch high low close w s = some out ∧
      Reports high.length (w - 1 + (s - 1)) (fun _ => 100) (some (out.map fun p => p.1)) ∧
      Reports high.length (w - 1 + 2 * (s - 1)) (fun _ => 100) (some (out.map fun p => p.2)) := by
  have hr := fun (i : ℕ) (h1 : w ≤ i + 1) (h2 : i < high.length) => range_rising high low w hw ll hlt h (i := i) h1 h2
  obtain ⟨out, eo, r1, r2⟩ := stoch_reports high low close w s hw hs hn hh hl hc ll lc fun i h1 h2 => (hr i h1 h2).2.ne'
  have hk : ∀ i, w ≤ i + 1 → i < high.length → rawK (vals high) (vals low) (vals close) w i = 100 := fun i h1 h2 => by
    obtain ⟨e, hne⟩ := hr i h1 h2
    rw [rawK, bar_some (by simp; omega), Option.getD_some, hcl i h2, ← e, mul_div_assoc, div_self (by linarith), mul_one]
  refine ⟨out, eo, r1.congr fun i hi hlt' => ?_, r2.congr fun i hi hlt' => ?_⟩
  · exact mean_const hs (by omega) fun j j1 j2 => hk j (by omega) (by omega)
  · exact mean_const hs (by omega) fun j j1 j2 => mean_const hs (by omega) fun k k1 k2 => hk k (by omega) (by omega)

/-- C88: both lines of `stoch` are 0 while lows fall and every bar closes at its low. -/
theorem stoch_falling (s : ℕ) (hs : 1 ≤ s) (hn : w - 1 + 2 * (s - 1) ≤ high.length) (h : Falling (vals low))
    (hcl : ∀ i, i < high.length → bar (vals close) i = bar (vals low) i) :
    ∃ out, stoch high low close w s = some out ∧
      Reports high.length (w - 1 + (s - 1)) (fun _ => 0) (some (out.map fun p => p.1)) ∧
      Reports high.length (w - 1 + 2 * (s - 1)) (fun _ => 0) (some (out.map fun p => p.2)) := by
  have hr := fun (i : ℕ) (h1 : w ≤ i + 1) (h2 : i < high.length) => range_falling high low w hw ll hlt h (i := i) h1 h2
  obtain ⟨out, eo, r1, r2⟩ := stoch_reports high low close w s hw hs hn hh hl hc ll lc fun i h1 h2 => (hr i h1 h2).2.ne'
  have hk : ∀ i, w ≤ i + 1 → i < high.length → rawK (vals high) (vals low) (vals close) w i = 0 := fun i h1 h2 => by
    obtain ⟨e, hne⟩ := hr i h1 h2
    rw [rawK, bar_some (by simp; omega), Option.getD_some, hcl i h2, ← e, sub_self, mul_zero, zero_div]
  refine ⟨out, eo, r1.congr fun i hi hlt' => ?_, r2.congr fun i hi hlt' => ?_⟩
  · exact mean_const hs (by omega) fun j j1 j2 => hk j (by omega) (by omega)
  · exact mean_const hs (by omega) fun j j1 j2 => mean_const hs (by omega) fun k k1 k2 => hk k (by omega) (by omega)

end

end Traquer.Momentum

namespace Traquer.Volume
open Traquer FP FloatLit

section
variable (high low close volume : List XF) (w : ℕ) (hl : low.length = high.length) (hc : close.length = high.length)
  (hv : volume.length = high.length) (hw : 1 ≤ w) (hn : w + 1 ≤ high.length) (fh : Fins high) (fl : Fins low) (fc : Fins close)
  (fv : Fins volume) (hp : ∀ b ∈ zip4 (vals high) (vals low) (vals close) (vals volume), 0 < typical b) (hv' : ∀ v ∈ vals volume, 0 < v)
include hl hc hv hw hn fh fl fc fv hp hv'

theorem flow_pairs {f g : (ℝ × ℝ × ℝ × ℝ) × (ℝ × ℝ × ℝ × ℝ) → ℝ} {i : ℕ} (h1 : w ≤ i) (h2 : i < high.length)
    (hf : ∀ p ∈ pairs (zip4 (vals high) (vals low) (vals close) (vals volume)), 0 < f p)
    (hg : ∀ p ∈ pairs (zip4 (vals high) (vals low) (vals close) (vals volume)), g p = 0) :
    0 < (recent ((pairs (zip4 (vals high) (vals low) (vals close) (vals volume))).map f) w (i - 1)).sum ∧
    (recent ((pairs (zip4 (vals high) (vals low) (vals close) (vals volume))).map g) w (i - 1)).sum = 0 := by
  constructor
  · refine sum_positive ?_ fun x hx => ?_
    · rw [← List.length_pos_iff, recent_length (by omega) (by simp; omega)]
      omega
    · obtain ⟨p, hp, rfl⟩ := List.mem_map.1 (List.mem_of_mem_drop (List.mem_of_mem_take hx))
      exact hf p hp
  · refine sum_zero fun x hx => ?_
    obtain ⟨p, hp, rfl⟩ := List.mem_map.1 (List.mem_of_mem_drop (List.mem_of_mem_take hx))
    exact hg p hp

omit hl hc hv hw hn fh fl fc fv in
theorem flow_pos {p : (ℝ × ℝ × ℝ × ℝ) × (ℝ × ℝ × ℝ × ℝ)} (h : p ∈ pairs (zip4 (vals high) (vals low) (vals close) (vals volume))) :
    0 < typical p.2 * p.2.2.2.2 := by
  have hm := (Smooth.mem_pairs h).2
  obtain ⟨j, hj⟩ := List.mem_iff_getElem?.1 hm
  exact mul_pos (hp _ hm) (hv' _ (List.mem_of_getElem? (zip4_getElem?.1 hj).2.2.2))

/-- C88: `mfi` is 100 while the typical price rises (prices and volumes positive). -/
theorem mfi_rising (h : Rising ((zip4 (vals high) (vals low) (vals close) (vals volume)).map typical)) :
    Reports high.length w (fun _ => 100) (mfi high low close volume w) := by
  refine (mfi_reports high low close volume w hl hc hv hw hn fh fl fc fv (fun b hb => (hp b hb).le) fun v h => (hv' v h).le).mono
    fun i y hi hlt hy => ?_
  have step : ∀ p ∈ pairs (zip4 (vals high) (vals low) (vals close) (vals volume)), typical p.1 < typical p.2 := fun p hp => by
    obtain ⟨j, hj⟩ := List.mem_iff_getElem?.1 hp
    obtain ⟨h1, h2⟩ := pairs_getElem?_some hj
    exact h.step (j := j) (by rw [List.getElem?_map, h1]; rfl) (by rw [List.getElem?_map, h2]; rfl)
  obtain ⟨P, N⟩ := flow_pairs high low close volume w hl hc hv hw hn fh fl fc fv hp hv' (i := i)
    (f := fun p => if typical p.1 < typical p.2 then typical p.2 * p.2.2.2.2 else 0)
    (g := fun p => if typical p.2 < typical p.1 then typical p.2 * p.2.2.2.2 else 0) hi hlt
    (fun p h => by rw [if_pos (step p h)]; exact flow_pos high low close volume hp hv' h)
    (fun p h => if_neg (not_lt.2 (step p h).le))
  change 0 < (recent (flowIn (vals high) (vals low) (vals close) (vals volume)) w (i - 1)).sum at P
  change (recent (flowOut (vals high) (vals low) (vals close) (vals volume)) w (i - 1)).sum = 0 at N
  simp only [N, add_zero] at hy
  refine (hy.1 P.ne').congr ?_
  rw [mul_div_assoc, div_self P.ne', mul_one]

/-- C88: `mfi` is 0 while the typical price falls (prices and volumes positive). -/
theorem mfi_falling (h : Falling ((zip4 (vals high) (vals low) (vals close) (vals volume)).map typical)) :
    Reports high.length w (fun _ => 0) (mfi high low close volume w) := by
  refine (mfi_reports high low close volume w hl hc hv hw hn fh fl fc fv (fun b hb => (hp b hb).le) fun v h => (hv' v h).le).mono
    fun i y hi hlt hy => ?_
  have step : ∀ p ∈ pairs (zip4 (vals high) (vals low) (vals close) (vals volume)), typical p.2 < typical p.1 := fun p hp => by
    obtain ⟨j, hj⟩ := List.mem_iff_getElem?.1 hp
    obtain ⟨h1, h2⟩ := pairs_getElem?_some hj
    exact h.step (j := j) (by rw [List.getElem?_map, h1]; rfl) (by rw [List.getElem?_map, h2]; rfl)
  obtain ⟨P, N⟩ := flow_pairs high low close volume w hl hc hv hw hn fh fl fc fv hp hv' (i := i)
    (g := fun p => if typical p.1 < typical p.2 then typical p.2 * p.2.2.2.2 else 0)
    (f := fun p => if typical p.2 < typical p.1 then typical p.2 * p.2.2.2.2 else 0) hi hlt
    (fun p h => by rw [if_pos (step p h)]; exact flow_pos high low close volume hp hv' h)
    (fun p h => if_neg (not_lt.2 (step p h).le))
  change (recent (flowIn (vals high) (vals low) (vals close) (vals volume)) w (i - 1)).sum = 0 at N
  change 0 < (recent (flowOut (vals high) (vals low) (vals close) (vals volume)) w (i - 1)).sum at P
  simp only [N, zero_add, mul_zero] at hy
  refine (hy.1 P.ne').congr ?_
  rw [zero_div]

end

end Traquer.Volume

namespace Traquer.Correlation
open Traquer FP FloatLit

theorem Rising.pairwise {l : List ℝ} (h : Rising l) : l.Pairwise (· < ·) :=
  List.pairwise_iff_getElem.2 fun i j hi hj hij => by
    have := h.lt hij hj
    rwa [bar_eq (List.getElem?_eq_getElem hi), bar_eq (List.getElem?_eq_getElem hj)] at this

theorem Falling.pairwise {l : List ℝ} (h : Falling l) : l.Pairwise (fun a b => b < a) :=
  List.pairwise_iff_getElem.2 fun i j hi hj hij => by
    have := h.lt hij hj
    rwa [bar_eq (List.getElem?_eq_getElem hi), bar_eq (List.getElem?_eq_getElem hj)] at this

theorem zip_pairwise {R S : ℝ → ℝ → Prop} {xs ys : List ℝ} (hx : xs.Pairwise R) (hy : ys.Pairwise S) :
    (xs.zip ys).Pairwise fun p q => R p.1 q.1 ∧ S p.2 q.2 :=
  List.pairwise_iff_getElem.2 fun i j hi hj hij => by
    simp only [List.length_zip, lt_min_iff] at hi hj
    simp only [List.getElem_zip]
    exact ⟨List.pairwise_iff_getElem.1 hx i j hi.1 hj.1 hij, List.pairwise_iff_getElem.1 hy i j hi.2 hj.2 hij⟩

theorem numPairs_all {P : ℝ → ℝ → ℝ → ℝ → Prop} {xs ys : List ℝ} (h : ∀ q ∈ pairsOf (xs.zip ys), P q.1.1 q.2.1 q.1.2 q.2.2) :
    numPairs P xs ys = (pairsOf (xs.zip ys)).length := by
  classical
  rw [numPairs, List.countP_eq_length]
  intro q hq
  simpa using h q hq

theorem numPairs_none {P : ℝ → ℝ → ℝ → ℝ → Prop} {xs ys : List ℝ} (h : ∀ q ∈ pairsOf (xs.zip ys), ¬ P q.1.1 q.2.1 q.1.2 q.2.2) :
    numPairs P xs ys = 0 := by
  classical
  rw [numPairs, List.countP_eq_zero]
  intro q hq
  simpa using h q hq

theorem pairs_pos {n : ℕ} (h : 2 ≤ n) : (0 : ℝ) < (n * (n - 1) : ℝ) / 2 := by
  have : (2 : ℝ) ≤ n := by exact_mod_cast h
  have : (0 : ℝ) < n - 1 := by linarith
  positivity

/-- More values lie below the larger of two numbers one of which occurs. -/
theorem countP_below {l : List ℝ} {a b : ℝ} (ha : a ∈ l) (hab : a < b) : (l.countP fun y => decide (y < a)) < l.countP fun y => decide (y < b) := by
  have mono : ∀ l : List ℝ, (l.countP fun y => decide (y < a)) ≤ l.countP fun y => decide (y < b) := fun l =>
    List.countP_mono_left fun x _ hx => by
      simp only [decide_eq_true_eq] at hx ⊢
      exact hx.trans hab
  induction l with
  | nil => simp at ha
  | cons c l ih =>
    rw [List.countP_cons, List.countP_cons]
    rcases List.mem_cons.1 ha with rfl | ha
    · have := mono l
      simp [hab]
      omega
    · have := ih ha
      by_cases h1 : c < a
      · simp [h1, h1.trans hab, this]
      · have e : (if decide (c < a) = true then 1 else 0) = 0 := by simp [h1]
        rw [e]
        omega

section
variable (s1 s2 : List XF) (w : ℕ) (h : s2.length = s1.length) (hw : 2 ≤ w) (hn : w ≤ s1.length + 1) (h1 : Fins s1) (h2 : Fins s2)
include h hw hn h1 h2

/-- C88: `krcc` of two rising series is 1. -/
theorem krcc_rising (r1 : Rising (vals s1)) (r2 : Rising (vals s2)) : Reports s1.length (w - 1) (fun _ => 1) (krcc s1 s2 w) := by
  refine (krcc_reports s1 s2 w h (by omega) hn h1 h2 fun i hi hl => (Rising.pairwise (r2.recent w i)).imp fun h => ne_of_lt h).mono
    fun i y hi hlt hy => ?_
  have lx : (recent (vals s1) w i).length = w := recent_length (by omega) (by simp; omega)
  have ly : (recent (vals s2) w i).length = w := recent_length (by omega) (by simp; omega)
  have pw := zip_pairwise (Rising.pairwise (r1.recent w i)) (Rising.pairwise (r2.recent w i))
  have hq := fun q (hq : q ∈ pairsOf _) => pairsOf_pairwise pw hq
  have len := pairsOf_length ((recent (vals s1) w i).zip (recent (vals s2) w i))
  rw [List.length_zip, lx, ly, min_self] at len
  have pos := pairs_pos hw
  have e1 : concordant (recent (vals s1) w i) (recent (vals s2) w i) = _ := numPairs_all fun q h => by
    have := hq q h
    nlinarith [this.1, this.2]
  have e2 : discordant (recent (vals s1) w i) (recent (vals s2) w i) = _ := numPairs_none fun q h => by
    have := hq q h
    nlinarith [this.1, this.2]
  have e3 : tiesX (recent (vals s1) w i) (recent (vals s2) w i) = _ := numPairs_none fun q h => (hq q h).1.ne
  have e4 : tiesY (recent (vals s1) w i) (recent (vals s2) w i) = _ := numPairs_none fun q h => (hq q h).2.ne
  have ed : kendallDen (recent (vals s1) w i) (recent (vals s2) w i) = (w * (w - 1) : ℝ) / 2 := by
    rw [kendallDen, e3, e4, lx, Nat.cast_zero, sub_zero, Real.sqrt_mul_self pos.le]
  rw [KendallIs, e1, e2, ed, len, Nat.cast_zero, sub_zero] at hy
  exact (hy.1 pos.ne').congr (div_self pos.ne')

/-- C88: `krcc` of a rising and a falling series is -1. -/
theorem krcc_opposite (r1 : Rising (vals s1)) (r2 : Falling (vals s2)) : Reports s1.length (w - 1) (fun _ => -1) (krcc s1 s2 w) := by
  refine (krcc_reports s1 s2 w h (by omega) hn h1 h2 fun i hi hl => (Falling.pairwise (r2.recent w i)).imp fun h => ne_of_gt h).mono
    fun i y hi hlt hy => ?_
  have lx : (recent (vals s1) w i).length = w := recent_length (by omega) (by simp; omega)
  have ly : (recent (vals s2) w i).length = w := recent_length (by omega) (by simp; omega)
  have pw := zip_pairwise (Rising.pairwise (r1.recent w i)) (Falling.pairwise (r2.recent w i))
  have hq := fun q (hq : q ∈ pairsOf _) => pairsOf_pairwise pw hq
  have len := pairsOf_length ((recent (vals s1) w i).zip (recent (vals s2) w i))
  rw [List.length_zip, lx, ly, min_self] at len
  have pos := pairs_pos hw
  have e1 : discordant (recent (vals s1) w i) (recent (vals s2) w i) = _ := numPairs_all fun q h => by
    have := hq q h
    nlinarith [this.1, this.2]
  have e2 : concordant (recent (vals s1) w i) (recent (vals s2) w i) = _ := numPairs_none fun q h => by
    have := hq q h
    nlinarith [this.1, this.2]
  have e3 : tiesX (recent (vals s1) w i) (recent (vals s2) w i) = _ := numPairs_none fun q h => (hq q h).1.ne
  have e4 : tiesY (recent (vals s1) w i) (recent (vals s2) w i) = _ := numPairs_none fun q h => (hq q h).2.ne'
  have ed : kendallDen (recent (vals s1) w i) (recent (vals s2) w i) = (w * (w - 1) : ℝ) / 2 := by
    rw [kendallDen, e3, e4, lx, Nat.cast_zero, sub_zero, Real.sqrt_mul_self pos.le]
  rw [KendallIs, e1, e2, ed, len, Nat.cast_zero, zero_sub] at hy
  exact (hy.1 pos.ne').congr (by rw [neg_div, div_self pos.ne'])

/-- C88: `srcc` of two rising series is 1. -/
theorem srcc_rising (srt : Distribution.Sorter XF) (hs : srt.Valid) (r1 : Rising (vals s1)) (r2 : Rising (vals s2)) :
    Reports s1.length (w - 1) (fun _ => 1) (srcc srt s1 s2 w) := by
  have mono : ∀ {l : List ℝ}, Rising l → ∀ {i j : ℕ} {a b : ℝ}, l[i]? = some a → l[j]? = some b → (a < b ↔ i < j) := fun {l} r {i j a b} ha hb => by
    rw [← bar_eq ha, ← bar_eq hb]
    refine ⟨fun hlt => ?_, fun hij => r.lt hij (List.getElem?_eq_some_iff.1 hb).1⟩
    by_contra hc
    rcases (not_lt.1 hc).eq_or_lt with rfl | hc
    · exact lt_irrefl _ hlt
    · exact absurd hlt (not_lt.2 (r.lt hc (List.getElem?_eq_some_iff.1 ha).1).le)
  refine (srcc_monotone srt hs s1 s2 w h (by omega) hn h1 h2 fun i j a b c d ha hb hc hd => ?_).mono fun i y hi hlt hy => hy.1 ?_
  · rw [mono r1 ha hb, mono r2 hc hd]
  · intro hf
    have l1 : (recent (vals s1) w i).length = w := recent_length (by omega) (by simp; omega)
    have m0 := bar_some (l := recent (vals s1) w i) (i := 0) (by omega)
    have m1 := bar_some (l := recent (vals s1) w i) (i := 1) (by omega)
    have hlt : bar (recent (vals s1) w i) 0 < bar (recent (vals s1) w i) 1 := r1.recent w i 0 (by omega)
    have := hf _ (List.mem_map.2 ⟨_, List.mem_of_getElem? m0, rfl⟩) _ (List.mem_map.2 ⟨_, List.mem_of_getElem? m1, rfl⟩)
    have hc := countP_below (List.mem_of_getElem? m0) hlt
    have : ((recent (vals s1) w i).countP fun y => decide (y < bar (recent (vals s1) w i) 0)) =
        (recent (vals s1) w i).countP fun y => decide (y < bar (recent (vals s1) w i) 1) := by
      exact_mod_cast add_right_cancel this
    omega

end

end Traquer.Correlation

namespace Traquer
open FP FloatLit

/-! Concrete rising and falling series meet the hypotheses above. -/

local notation "up" => (List.map (fin (ρ := Rounding.exact)) [2, 3, 5, 6, 9])
local notation "up'" => (List.map (fin (ρ := Rounding.exact)) [1, 2, 4, 5, 7])
local notation "down" => (List.map (fin (ρ := Rounding.exact)) [9, 6, 5, 3, 2])

private theorem up_rising : Rising (vals up) ∧ Rising (vals up') ∧ Falling (vals down) := by
  refine ⟨fun i hi => ?_, fun i hi => ?_, fun i hi => ?_⟩ <;> replace hi : i < 4 := (by simp [vals] at hi; omega) <;> interval_cases i <;> norm_num [vals, bar, val]

private theorem up_fins : Fins up ∧ Fins up' ∧ Fins down := by
  refine ⟨?_, ?_, ?_⟩ <;> intro x hx <;> obtain ⟨r, -, rfl⟩ := List.mem_map.1 hx <;> trivial

private theorem up_sane : SaneBars (vals up) (vals up') (vals up') where
  low_length := rfl
  close_length := rfl
  low_le := fun i l c h1 h2 => by cases h1.symm.trans h2; exact le_rfl
  le_high := fun i c h h1 h2 => by
    have hi := (List.getElem?_eq_some_iff.1 h2).1
    simp [vals] at hi
    interval_cases i <;> simp [vals, val] at h1 h2 <;> subst h1 h2 <;> norm_num

example : Reports 5 3 (fun _ => 100) (Momentum.tsi up 2 2) := Momentum.tsi_rising up up_fins.1 2 2 (by norm_num) (by norm_num) (by simp) up_rising.1
example : Reports 5 3 (fun _ => -100) (Momentum.tsi down 2 2) :=
  Momentum.tsi_falling down up_fins.2.2 2 2 (by norm_num) (by norm_num) (by simp) up_rising.2.2
example : ReportsP 5 1 (fun i y => 3 ≤ i + 1 → y ⇓ 100) (Momentum.tii up 3) :=
  Momentum.tii_rising up up_fins.1 3 (by norm_num) (by simp) up_rising.1
example : Items 5 2 (fun i p => (∃ r, 0 < r ∧ p.1 ⇓ r) ∧ p.2.1 ⇓ 0 ∧ (2 + 2 ≤ i + 1 → p.2.2 ⇓ 100)) (Trend.adx up up' up' 2 2) :=
  Trend.adx_rising up up' up' 2 2 (by norm_num) (by norm_num) (by simp) up_fins.1 up_fins.2.1 up_fins.2.1 up_sane up_rising.1 up_rising.2.1
example : Items 5 2 (fun _ p => p.1 ⇓ 100 ∧ p.2 ⇓ 0) (Trend.aroon up up' 2) :=
  Trend.aroon_rising up up' 2 (by norm_num) (by norm_num) (by simp) (by simp) up_fins.1 up_fins.2.1 up_rising.1 up_rising.2.1
example : Reports 5 2 (fun _ => 0) (Trend.ulcer up 2) :=
  Trend.ulcer_rising up 2 (by norm_num) (by simp) up_fins.1 (by simp [vals, val]) up_rising.1
example : Reports 5 1 (fun _ => 0) (Momentum.wpr up up' up 2) :=
  Momentum.wpr_rising up up' up 2 (by norm_num) up_fins.1 up_fins.2.1 up_fins.1 (by simp) (by simp)
    (fun i hi => by simp at hi; interval_cases i <;> norm_num [vals, bar, val]) (by simp) up_rising.1 fun i _ => rfl
example : Reports 5 2 (fun _ => 100) (Volume.mfi up up up up 2) :=
  Volume.mfi_rising up up up up 2 rfl rfl rfl (by norm_num) (by simp) up_fins.1 up_fins.1 up_fins.1 up_fins.1
    (by simp [vals, val, zip4, zip3, typical]; norm_num) (by simp [vals, val])
    (fun i hi => by replace hi : i < 4 := (by simp [vals] at hi; omega); interval_cases i <;> norm_num [vals, val, zip4, zip3, typical, bar])
example : Reports 5 2 (fun _ => -1) (Correlation.krcc up down 3) :=
  Correlation.krcc_opposite up down 3 (by simp) (by norm_num) (by simp) up_fins.1 up_fins.2.2 up_rising.1 up_rising.2.2

end Traquer
