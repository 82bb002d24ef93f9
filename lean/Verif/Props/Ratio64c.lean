import Verif.Props.Ratio64b
import Verif.Props.Oscillators2
import Verif.Props.Order64
import Verif.Props.Flat64
import Verif.Props.Rsi
import Mathlib.Tactic.IntervalCases

/-! C89, continued: `cog`, and where the claim fails: `cmo`, which keeps running totals. -/

namespace Traquer
open FP FloatLit

theorem Rel.mul_nat {x : F64} {a : ℝ} {k : ℕ} (hx : Rel x a k) {c : F64} {n : ℕ} (hc : c ⇓ n) (hk : 2 * k * unit64 ≤ 1) (hB : 2 * (n * |a|) ≤ max64) :
    Rel (x * c) (a * n) (k + 1) := by
  obtain ⟨t, hx, t1, t2, sx⟩ := hx
  obtain ⟨m, hm⟩ := sx.multiple hx
  have o2 := off_le_two hk
  have tp : 0 ≤ t := le_trans (inv_nonneg.2 (off_pos k).le) t1
  have e : a * n * t = n * (a * t) := by ring
  refine Rel.round (t := t) (by rw [e, mul_comm (n : ℝ)]; exact rounds_mul hx hc) t1 t2 ?_ ?_
  · rw [e, hm]
    exact rnd64_relative (.inl ⟨n * m, by push_cast; ring⟩)
  · rw [e, abs_mul, abs_mul, Nat.abs_cast, abs_of_nonneg tp]
    have : 0 ≤ (n : ℝ) * |a| := by positivity
    nlinarith

theorem Rel.neg {x : F64} {a : ℝ} {k : ℕ} (hx : Rel x a k) : Rel (-x) (-a) k := by
  obtain ⟨t, hx, t1, t2, sx⟩ := hx
  have i := is_neg hx
  refine ⟨t, i.congr (by ring), t1, t2, fun r hr => ?_⟩
  obtain ⟨h1, h2⟩ := sx _ hx
  rw [hr.unique i]
  have h1' : rnd64 (a * t) = a * t := h1
  have h2' : |a * t| ≤ max64 := h2
  exact ⟨by show rnd64 _ = _; rw [rnd64_neg, h1'], by show |_| ≤ max64; rw [abs_neg]; exact h2'⟩

end Traquer

namespace Traquer.Momentum
open FP FloatLit

/-- C89: `cog` of prices that are not negative, with a relative error of `4 w + 6` units of `2^-53`. -/
theorem cog_accurate (data : List F64) (w : ℕ) (hw : 1 ≤ w) (h32 : w < 2 ^ 32) (hn : w ≤ data.length + 1) (qd : Quotes data)
    (h0 : ∀ x ∈ vals data, 0 ≤ x) :
    ReportsP data.length (w - 1) (fun i y =>
      let weighted := ((List.range w).map fun j : ℕ => bar (vals data) (i - j) * ((j : ℝ) + 1)).sum
      let total := (recent (vals data) w i).sum
      total ≠ 0 → |-weighted / total| ≤ 2 ^ 900 →
      Approx y (-weighted / total) ((4 * w + 6) * unit64 * |-weighted / total| + 2⁻¹ ^ 1075)) (cog data w) := by
  run_model [cog]
  refine reportsP_windows hw hn fun i h1 h2 => ?_
  have hl : (recent data w i).length = w := recent_length h1 h2
  have nn : ∀ {j : ℕ}, 0 ≤ bar (vals data) j := by
    intro j
    rw [bar, List.getD_eq_getElem?_getD]
    cases hj : (vals data)[j]? with
    | none => simp
    | some x => exact h0 _ (List.mem_of_getElem? hj)
  have key : List.Forall₂ (fun x a => Rel x a 1 ∧ 0 ≤ a ∧ a ≤ 2 ^ 968)
      (((recent data w i).reverse.zip ((List.range' 1 w).map fun x => (flt x : F64))).map fun (e, i) => e * i)
      ((List.range w).map fun j : ℕ => bar (vals data) (i - j) * ((j : ℝ) + 1)) := by
    rw [List.forall₂_iff_get]
    refine ⟨by simp [hl], fun j g1 g2 => ?_⟩
    have hjw : j < w := by simpa using g2
    simp only [List.get_eq_getElem, List.getElem_map, List.getElem_range, List.getElem_zip, List.getElem_range', List.getElem_reverse]
    have g3 : data[i - j]? = some ((recent data w i)[(recent data w i).length - 1 - j]'(by omega)) := by
      rw [← List.getElem?_eq_getElem]
      show _ = ((data.drop (i + 1 - w)).take w)[_]?
      rw [hl, List.getElem?_take_of_lt (by omega), List.getElem?_drop]; congr 1; omega
    have b := qd.bar g3
    have c : (flt (1 + 1 * j) : F64) ⇓ ((1 + 1 * j : ℕ) : ℝ) := isFlt (by omega)
    have e : bar (vals data) (i - j) * ((j : ℝ) + 1) = bar (vals data) (i - j) * ((1 + 1 * j : ℕ) : ℝ) := by push_cast; ring
    have sz : ((1 + 1 * j : ℕ) : ℝ) ≤ 2 ^ 32 := by exact_mod_cast (by omega : 1 + 1 * j ≤ 2 ^ 32)
    have up : ((1 + 1 * j : ℕ) : ℝ) * |bar (vals data) (i - j)| ≤ 2 ^ 932 := by
      have := mul_le_mul sz b.2.2 (abs_nonneg _) (by positivity)
      rwa [← pow_add] at this
    rw [e]
    refine ⟨(Rel.of_is b.1 b.2.1).mul_nat c (by simp) ?_, mul_nonneg nn (by positivity), ?_⟩
    · refine le_trans (mul_le_mul_of_nonneg_left up (by norm_num)) (le_trans ?_ max64_big)
      rw [← pow_succ']
      calc (2 : ℝ) ^ 933 ≤ 2 ^ 970 := pow_le_pow_right₀ (by norm_num) (by norm_num)
        _ ≤ _ := le_mul_of_one_le_left (by positivity) (by norm_num)
    · rw [mul_comm]
      rw [abs_of_nonneg nn] at up
      exact up.trans (pow_le_pow_right₀ (by norm_num) (by norm_num))
  have base : List.Forall₂ (fun x a => Rel x a 0 ∧ 0 ≤ a ∧ a ≤ 2 ^ 968) (recent data w i) (recent (vals data) w i) := by
    rw [← recent_vals, vals, List.forall₂_map_right_iff, List.forall₂_same]
    intro x hx
    obtain ⟨f, s, b⟩ := qd.recent w i x hx
    exact ⟨Rel.of_is f.is s, h0 _ (List.mem_map.2 ⟨x, List.mem_of_mem_drop (List.mem_of_mem_take hx), rfl⟩),
      (le_abs_self _).trans (b.trans (pow_le_pow_right₀ (by norm_num) (by norm_num)))⟩
  have r1 := (rel_sum key (w := w) (by simp [hl]) (by omega)).1
  have r2 := (rel_sum base hl (by omega)).1
  intro hne hq
  refine (r1.neg.ratio r2 hne hq (by omega)).mono ?_
  clear hq hne r1 r2 key base
  refine add_le_add (mul_le_mul_of_nonneg_right (mul_le_mul_of_nonneg_right ?_ unit64_pos.le) (abs_nonneg _)) le_rfl
  push_cast
  linarith

/-- C89, where it fails: `cmo` keeps totals of all gains and losses since the first bar, so one large move in the past makes later moves vanish.
The last bar rises by 1; the exact oscillator is 100, the binary64 one is NaN. -/
theorem cmo_accuracy_lost : (∃ y, cmo ([0, 2 ^ 54, 0, 1].map (fin (ρ := Rounding.binary64))) 1 = some y ∧ y[3]? = some FP.nan) ∧
    ∃ y r, cmo ([0, 2 ^ 54, 0, 1].map (fin (ρ := Rounding.exact))) 1 = some y ∧ y[3]? = some r ∧ r ⇓ 100 := by
  constructor
  · have big : (2 : ℝ) ^ 54 ≤ max64 := by
      refine le_trans ?_ max64_big
      calc (2 : ℝ) ^ 54 ≤ 2 ^ 970 := pow_le_pow_right₀ (by norm_num) (by norm_num)
        _ ≤ _ := le_mul_of_one_le_left (by positivity) (by norm_num)
    have e54 : rnd64 (2 ^ 54) = 2 ^ 54 := by
      have := rnd64_exact (m := 1) (e := 54) (by norm_num) (by norm_num)
      norm_num at this ⊢
      exact this
    have f54 : ∀ {c : ℝ}, c = 0 ∨ c = 2 ^ 54 ∨ c = -2 ^ 54 ∨ c = 1 → Rounding.binary64.fits c := by
      rintro c (rfl | rfl | rfl | rfl)
      · show |_| ≤ max64; rw [abs_zero]; exact le_trans (by norm_num) big
      · show |_| ≤ max64; rw [abs_of_pos (by norm_num)]; exact big
      · show |_| ≤ max64; rw [abs_neg, abs_of_pos (by norm_num)]; exact big
      · show |_| ≤ max64; rw [abs_one]; exact le_trans (by norm_num) big
    have step : ∀ {x : F64} {a c : ℝ}, Rounds x a → rnd64 a = c → c = 0 ∨ c = 2 ^ 54 ∨ c = -2 ^ 54 ∨ c = 1 → x ⇓ c := by
      intro x a c hx e hc
      rcases hx.cases with ⟨-, h⟩ | ⟨h, -⟩
      · exact h.congr e
      · exact absurd (by show Rounding.binary64.fits (rnd64 a); rw [e]; exact f54 hc) h
    have e1 : rnd64 1 = 1 := by
      have := Rounding.binary64.nat 1 (by norm_num)
      rw [Nat.cast_one] at this
      exact this
    have e54' : rnd64 (-2 ^ 54) = -2 ^ 54 := by rw [rnd64_neg, e54]
    have e1' : rnd64 (-1) = -1 := by rw [rnd64_neg, e1]
    have z : (fin 0 : F64) ⇓ 0 := is_iff.2 (.inl rfl)
    have o : (fin 1 : F64) ⇓ 1 := is_iff.2 (.inl rfl)
    have b : (fin (2 ^ 54) : F64) ⇓ 2 ^ 54 := is_iff.2 (.inl rfl)
    have z' : (0 : F64) ⇓ 0 := isZero
    -- the gains and losses
    have u1 := (is_fmax z' (step (rounds_sub b z) (by rw [sub_zero, e54]) (.inr (.inl rfl)))).congr (b := 2 ^ 54) (by norm_num)
    have d1 := (is_fmax z' (step (rounds_sub z b) (by rw [zero_sub, e54']) (.inr (.inr (.inl rfl))))).congr (b := 0) (by norm_num)
    have m1 : (fin 0 - fin 1 : F64) ⇓ -1 := by
      rcases (rounds_sub z o).cases with ⟨-, h⟩ | ⟨h, -⟩
      · exact h.congr (by show rnd64 _ = _; rw [zero_sub, e1'])
      · refine absurd ?_ h
        show |rnd64 _| ≤ max64
        rw [zero_sub, e1', abs_neg, abs_one]
        exact le_trans (by norm_num) big
    have u3 := (is_fmax z' (step (rounds_sub o z) (by rw [sub_zero, e1]) (.inr (.inr (.inr rfl))))).congr (b := 1) (by norm_num)
    have d3 := (is_fmax z' m1).congr (b := 0) (by norm_num)
    have g1 := step (rounds_add z' u1) (by rw [zero_add, e54]) (.inr (.inl rfl))
    have l1 := step (rounds_add z' d1) (by rw [zero_add, rnd64_zero]) (.inl rfl)
    have g2 := step (rounds_add g1 d1) (by rw [add_zero, e54]) (.inr (.inl rfl))
    have l2 := step (rounds_add l1 u1) (by rw [zero_add, e54]) (.inr (.inl rfl))
    have g3 := step (rounds_add g2 u3) rnd64_far0 (.inr (.inl rfl))
    have l3 := step (rounds_add l2 d3) (by rw [add_zero, e54]) (.inr (.inl rfl))
    have dg := step (rounds_sub g3 g2) (by rw [sub_self, rnd64_zero]) (.inl rfl)
    have dl := step (rounds_sub l3 l2) (by rw [sub_self, rnd64_zero]) (.inl rfl)
    have nu := step (rounds_sub dg dl) (by rw [sub_self, rnd64_zero]) (.inl rfl)
    have de := step (rounds_add dg dl) (by rw [add_zero, rnd64_zero]) (.inl rfl)
    have n := nan_of_zero_div nu de
    refine ⟨_, rfl, congrArg some ?_⟩
    show _ / _ * (100 : F64) = _
    erw [n]
    rfl
  · have := cmo_reports ([0, 2 ^ 54, 0, 1].map (fin (ρ := Rounding.exact))) 1 (by simp) (by simp) (fins_map_fin _)
    obtain ⟨out, e, -, -, h⟩ := this
    obtain ⟨y, hy, h1, -⟩ := h 3 (by norm_num) (by simp)
    refine ⟨out, y, e, hy, ?_⟩
    have e1 : (rises (recent (vals ([0, 2 ^ 54, 0, 1].map (fin (ρ := Rounding.exact)))) (1 + 1) 3)).sum = 1 := by
      rw [vals_map_fin]; norm_num [rises, recent, pairs]
    have e2 : (falls (recent (vals ([0, 2 ^ 54, 0, 1].map (fin (ρ := Rounding.exact)))) (1 + 1) 3)).sum = 0 := by
      rw [vals_map_fin]; norm_num [falls, recent, pairs]
    simp only [e1, e2] at h1
    exact (h1 (by norm_num)).congr (by norm_num)

end Traquer.Momentum

/-! The hypotheses are met by prices near `10^15` that move by a few units, where the rounding error of a price would swamp a bound that is not relative. -/

namespace Traquer
open FP FloatLit Momentum

/-- Natural numbers as binary64 prices. -/
private noncomputable abbrev quotesOf (l : List ℕ) : List F64 := l.map fun n : ℕ => fin (n : ℝ)

private theorem quotes_nat (l : List ℕ) (h : ∀ n ∈ l, n ≤ 2 ^ 53) : Quotes (quotesOf l) := by
  intro x hx
  obtain ⟨n, hn, rfl⟩ := List.mem_map.1 hx
  have e := Rounding.binary64.nat n (h n hn)
  have b : |(n : ℝ)| ≤ 2 ^ 53 := by rw [Nat.abs_cast]; exact_mod_cast h n hn
  refine ⟨trivial, fun r hr => ?_, le_trans b (pow_le_pow_right₀ (by norm_num) (by norm_num))⟩
  rw [hr.unique (is_iff.2 (.inl rfl) : (fin (n : ℝ) : F64) ⇓ n)]
  refine ⟨e, ?_⟩
  show |_| ≤ max64
  refine b.trans (le_trans ?_ max64_big)
  calc (2 : ℝ) ^ 53 ≤ 2 ^ 970 := pow_le_pow_right₀ (by norm_num) (by norm_num)
    _ ≤ _ := le_mul_of_one_le_left (by positivity) (by norm_num)

private theorem vals_quotes (l : List ℕ) : vals (quotesOf l) = l.map fun n : ℕ => (n : ℝ) := by
  simp [vals, quotesOf, FP.val, Function.comp_def]

private abbrev hi : List ℕ := [10 ^ 15 + 3, 10 ^ 15 + 5, 10 ^ 15 + 6, 10 ^ 15 + 6, 10 ^ 15 + 9]
private abbrev lo : List ℕ := [10 ^ 15 + 1, 10 ^ 15 + 2, 10 ^ 15 + 4, 10 ^ 15 + 3, 10 ^ 15 + 5]
private abbrev cl : List ℕ := [10 ^ 15 + 2, 10 ^ 15 + 4, 10 ^ 15 + 5, 10 ^ 15 + 3, 10 ^ 15 + 9]

private theorem qh : Quotes (quotesOf hi) := quotes_nat _ (by decide)
private theorem ql : Quotes (quotesOf lo) := quotes_nat _ (by decide)
private theorem qc : Quotes (quotesOf cl) := quotes_nat _ (by decide)
private theorem sane : SaneBars (vals (quotesOf hi)) (vals (quotesOf lo)) (vals (quotesOf cl)) := by
  rw [vals_quotes, vals_quotes, vals_quotes]
  refine ⟨rfl, rfl, fun i l c h1 h2 => ?_, fun i c h h1 h2 => ?_⟩ <;>
  · have hi5 := (List.getElem?_eq_some_iff.1 h1).1
    simp at hi5
    interval_cases i <;> simp at h1 h2 <;> subst h1 h2 <;> norm_num

example := wpr_accurate _ _ _ 3 (by norm_num) (by simp) qh ql qc sane
example : maxOf (recent (vals (quotesOf hi)) 3 4) ≠ minOf (recent (vals (quotesOf lo)) 3 4) := by
  rw [vals_quotes, vals_quotes]
  norm_num [recent, maxOf, minOf]

example := Volatility.vhf_accurate _ _ _ 3 (by simp) (by simp) (by norm_num) (by norm_num) (by simp) qh ql qc
example : (lastOf (fun j => |bar (vals (quotesOf cl)) j - bar (vals (quotesOf cl)) (j - 1)|) 3 4).sum ≠ 0 := by
  rw [vals_quotes]
  norm_num [lastOf, bar, List.range_succ]

example := Trend.vortex_accurate _ _ _ 3 (by norm_num) (by norm_num) (by simp) qh ql qc sane
example : (lastOf (trAt (vals (quotesOf hi)) (vals (quotesOf lo)) (vals (quotesOf cl))) 3 4).sum ≠ 0 := by
  rw [vals_quotes, vals_quotes, vals_quotes]
  norm_num [lastOf, bar, List.range_succ, trAt, trueRangeOf, abs_of_pos, abs_of_neg]

example := roc_accurate _ 3 (by norm_num) (by simp) qc
example := cog_accurate _ 3 (by norm_num) (by norm_num) (by simp) qc (by rw [vals_quotes]; simp)
example : (recent (vals (quotesOf cl)) 3 4).sum ≠ 0 := by
  rw [vals_quotes]
  norm_num [recent]

example := ultimate_accurate _ _ _ 1 2 3 (by norm_num) (by norm_num) (by norm_num) (by norm_num) (by simp) qh ql qc sane (by
  intro w hw i h1 h2
  simp only [List.length_map] at h2
  rw [vals_quotes, vals_quotes, vals_quotes]
  have hi5 : i < 5 := h2
  simp only [List.mem_cons, List.not_mem_nil, or_false] at hw
  rcases hw with rfl | rfl | rfl <;> interval_cases i <;> norm_num [lastOf, bar, List.range_succ, trueSpan])

example := stoch_accurate _ _ _ 3 2 (by norm_num) (by norm_num) (by norm_num) (by simp) qh ql qc sane (by
  intro i h1 h2
  have hi5 : i < 5 := by simpa using h2
  rw [vals_quotes, vals_quotes]
  have : 2 ≤ i := by omega
  interval_cases i <;> norm_num [recent, maxOf, minOf])

example := bal_power_accurate (quotesOf lo) _ _ _ 3 (by simp) (by simp) (by simp) (by norm_num) (by norm_num) (by simp) ql qh ql qc (by
  intro i h2
  have hi5 : i < 5 := by simpa using h2
  rw [vals_quotes, vals_quotes, vals_quotes]
  interval_cases i <;> norm_num [bar])

end Traquer
