import Verif.Props.Averages64
import Verif.Props.Ratio64b
import Verif.Props.TrueRange
import Verif.Props.VolatilityFormulas
import Verif.Lemmas.AverageOrder
/-!
# C122: ranges are accurate relative to their own size

The range of a bar can be far smaller than its prices. A difference of two prices is rounded once, relative to the difference, so the true range,
its average and the mass index keep their relative accuracy even so.
-/

namespace Traquer
open FP FloatLit Volume

/-- The distance between two prices, with or without its sign. -/
theorem gap_rel {x y : F64} (hx : Price x) (hy : Price y) :
    Rel (x - y) (x.val - y.val) 1 ∧ |x.val - y.val| ≤ 2 ^ 402 ∧ (x.val - y.val ≤ 0 ∨ (2 : ℝ) ^ (-452 : ℤ) ≤ x.val - y.val) := by
  have x0 := hx.plain.nonneg
  have y0 := hy.plain.nonneg
  have x1 := hx.plain.le
  have y1 := hy.plain.le
  have ap := hx.apart hy
  have p1 : x.val - y.val ≤ 2 ^ 402 := (sub_le_self _ y0).trans (x1.trans (pow_le_pow_right₀ (by norm_num) (by norm_num)))
  have p2 : y.val - x.val ≤ 2 ^ 402 := (sub_le_self _ x0).trans (y1.trans (pow_le_pow_right₀ (by norm_num) (by norm_num)))
  have ab : |x.val - y.val| ≤ 2 ^ 402 := abs_le.2 ⟨by linarith only [p2], p1⟩
  refine ⟨?_, ab, ap⟩
  have fit : |x.val - y.val| ≤ max64 := by
    have := fits_of_le (a := x.val - y.val) (e := 402) (by norm_num) ab
    linarith only [this, abs_nonneg (x.val - y.val)]
  obtain ⟨sx, a, ha, -⟩ := hx
  obtain ⟨sy, b, hb, -⟩ := hy
  rw [ha.2, hb.2] at *
  exact rel_sub_is ha hb sx sy fit

/-- The largest of the three distances that make a true range. -/
theorem trTerm_rel {h l c : F64} (ph : Price h) (pl : Price l) (pc : Price c) (hlt : l.val ≤ h.val) :
    Rel (fmax (fmax (h - l) (fabs (h - c))) (fabs (l - c))) (trueRangeOf h.val l.val c.val) 1 ∧ trueRangeOf h.val l.val c.val ≤ 2 ^ 402 ∧
      (trueRangeOf h.val l.val c.val = 0 ∨ (2 : ℝ) ^ (-452 : ℤ) ≤ trueRangeOf h.val l.val c.val) := by
  obtain ⟨r1, b1, a1⟩ := gap_rel ph pl
  obtain ⟨r2, b2, a2⟩ := gap_rel ph pc
  obtain ⟨r3, b3, a3⟩ := gap_rel pl pc
  have a2' := pc.apart ph
  have a3' := pc.apart pl
  have n1 : 0 ≤ h.val - l.val := by linarith
  refine ⟨?_, max_le ((le_abs_self _).trans b1) (max_le b2 b3), ?_⟩
  · have := (r1.fmax r2.abs n1 (abs_nonneg _)).fmax r3.abs (le_max_of_le_left n1) (abs_nonneg _)
    rwa [max_assoc] at this
  · have key : ∀ {a b : ℝ}, (a - b ≤ 0 ∨ (2 : ℝ) ^ (-452 : ℤ) ≤ a - b) → (b - a ≤ 0 ∨ (2 : ℝ) ^ (-452 : ℤ) ≤ b - a) → a - b = 0 ∨ (2 : ℝ) ^ (-452 : ℤ) ≤ |a - b| := by
      intro a b h1 h2
      rcases h1 with h1 | h1
      · rcases h2 with h2 | h2
        · left; linarith
        · right; rw [abs_sub_comm]; exact h2.trans (le_abs_self _)
      · exact .inr (h1.trans (le_abs_self _))
    unfold trueRangeOf
    rcases a1 with a1 | a1
    · rcases key a2 a2' with e2 | e2
      · rcases key a3 a3' with e3 | e3
        · left
          rw [e2, e3, le_antisymm a1 n1]; simp
        · exact .inr (e3.trans ((le_max_right _ _).trans (le_max_right _ _)))
      · exact .inr (e2.trans ((le_max_left _ _).trans (le_max_right _ _)))
    · exact .inr (a1.trans (le_max_left _ _))

end Traquer

namespace Traquer.Smooth
open FP FloatLit

/-- The exponential average of data that are off by a number of roundings that does not fall from bar to bar. -/
theorem ewma_rel {data : List F64} {r : List ℝ} {w : ℕ} {K : ℕ → ℕ} (hr : r.length = data.length) (hw : 2 ≤ w) (h32 : w < 2 ^ 32) (hn : w ≤ data.length)
    (hn32 : data.length ≤ 2 ^ 32) (hK : Monotone K) (hK' : ∀ i, i < data.length → K i ≤ 2 ^ 38)
    (hd : ∀ (i : ℕ) (x : F64) (a : ℝ), data[i]? = some x → r[i]? = some a → Rel x a (K i)) (hb : ∀ a ∈ r, (2 : ℝ) ^ (-452 : ℤ) ≤ a ∧ a ≤ 2 ^ 402) :
    ReportsP data.length (w - 1) (fun i y => Rel y (ewmaOf w r i) (K i + 6 * i + 2)) (ewma data w) := by
  have W : ∀ i, w ≤ i + 1 → i < data.length → (2 : ℝ) ^ (-452 : ℤ) ≤ ewmaOf w r i ∧ ewmaOf w r i ≤ 2 ^ 402 := fun i h1 h2 =>
    ewmaOf_within (by omega) h1 (by omega) fun a ha => hb a (List.mem_of_mem_take ha)
  have w2 : (2 : ℝ) ≤ w := by exact_mod_cast hw
  have w32 : (w : ℝ) + 1 ≤ 2 ^ (32 : ℤ) := by
    have : w + 1 ≤ 2 ^ 32 := by omega
    exact_mod_cast this
  have hp : (0 : ℝ) < w + 1 := by linarith
  have a1 : (2 : ℝ) / (w + 1) ≤ 2 / 3 := by
    rw [div_le_div_iff₀ hp (by norm_num)]; linarith
  have a2 : (2 : ℝ) ^ (-32 : ℤ) ≤ 2 / (w + 1) := by
    rw [le_div_iff₀ hp]
    refine (mul_le_mul_of_nonneg_left w32 (by positivity)).trans ?_
    rw [← zpow_add₀ (by norm_num)]; norm_num
  have alp := alpha_rel (show 1 ≤ w by omega) h32
  have rst := rest_rel hw h32
  have seed : Rel (fsum (data.take w) / flt w) (mean (r.take w)) (K (w - 1) + w + 1) := by
    have lr : (r.take w).length = w := by simp; omega
    have wp : (0 : ℝ) < w := by linarith
    have s := (rel_sum (v := data.take w) (r := r.take w) (k := K (w - 1)) (w := w) (by
      rw [List.forall₂_iff_get]
      refine ⟨by simp [hr], fun i g1 g2 => ?_⟩
      have g3 : i < w := by simp at g1; omega
      have e1 := getElem?_of_lt (show i < data.length by omega)
      have e2 := getElem?_of_lt (show i < r.length by omega)
      simp only [List.get_eq_getElem, List.getElem_take]
      have := hb _ (List.mem_of_getElem? e2)
      exact ⟨(hd i _ _ e1 e2).mono (hK (by omega)), le_trans (by positivity) this.1, this.2.trans (pow_le_pow_right₀ (by norm_num) (by norm_num))⟩)
      (by simp; omega) (by have := hK' (w - 1) (by omega); omega)).1
    have hm := within_mean (l := r.take w) (lo := 2 ^ (-452 : ℤ)) (hi := 2 ^ 402) (fun a ha => hb a (List.mem_of_mem_take ha))
      (by rw [← List.length_pos_iff]; omega)
    have e : mean (r.take w) = (r.take w).sum / w := by rw [mean, lr]
    rw [e] at hm ⊢
    exact (Rel.quot s (relNat (by omega)) wp.ne' (units_ok (by have := hK' (w - 1) (by omega); omega)) (clear_of_le (e := -452) (by norm_num) hm.1)
      (fits_of_le (e := 402) (by norm_num) ((abs_of_nonneg (le_trans (by positivity) hm.1)).le.trans hm.2))).mono (by omega)
  generalize hα : (2 : ℝ) / (w + 1) = α at *
  have step : ∀ {s x : F64} {u a : ℝ} {k j : ℕ}, Rel s u k → Rel x a j → (2 : ℝ) ^ (-452 : ℤ) ≤ u → u ≤ 2 ^ 402 → (2 : ℝ) ^ (-452 : ℤ) ≤ a → a ≤ 2 ^ 402 →
      j ≤ k → k ≤ 2 ^ 39 → Rel (x * (2 / flt (w + 1)) + s * (1 - 2 / flt (w + 1))) (a * α + u * (1 - α)) (k + 6) := by
    intro s x u a k j hs hx u0 u1 b0 b1 hj hk
    have z : (0 : ℝ) < 2 ^ (-452 : ℤ) := by positivity
    have ap : 0 < α := lt_of_lt_of_le (by positivity) a2
    have l1 : (2 : ℝ) ^ (-484 : ℤ) ≤ a * α := by
      have := mul_le_mul b0 a2 (by positivity) (by linarith)
      rwa [← zpow_add₀ (by norm_num), show (-452 : ℤ) + -32 = -484 by norm_num] at this
    have l2 : (2 : ℝ) ^ (-454 : ℤ) ≤ u * (1 - α) := by
      have h4 : (2 : ℝ) ^ (-2 : ℤ) ≤ 1 - α := by
        have : (2 : ℝ) ^ (-2 : ℤ) = 1 / 4 := by norm_num
        rw [this]; linarith
      have := mul_le_mul u0 h4 (by positivity) (by linarith)
      rwa [← zpow_add₀ (by norm_num), show (-452 : ℤ) + -2 = -454 by norm_num] at this
    have n1 : 0 ≤ a * α := le_trans (by positivity) l1
    have n2 : 0 ≤ u * (1 - α) := le_trans (by positivity) l2
    have g1 : a * α ≤ 2 ^ 402 := (mul_le_of_le_one_right (by linarith) (by linarith)).trans b1
    have g2 : u * (1 - α) ≤ 2 ^ 402 := (mul_le_of_le_one_right (by linarith) (by linarith)).trans u1
    have p1 := Rel.mul hx alp (units_ok (by omega)) (clear_of_le (e := -484) (by norm_num) l1) (fits_of_le (e := 402) (by norm_num) ((abs_of_nonneg n1).le.trans g1))
    have p2 := Rel.mul hs rst (units_ok (by omega)) (clear_of_le (e := -454) (by norm_num) l2) (fits_of_le (e := 402) (by norm_num) ((abs_of_nonneg n2).le.trans g2))
    refine (Rel.add (p1.mono (show _ ≤ k + 4 + 1 by omega)) p2 n1 n2 (units_ok (by omega)) ?_).mono (by omega)
    have := fits_of_le (a := a * α + u * (1 - α)) (e := 403) (by norm_num) (by
      rw [abs_of_nonneg (add_nonneg n1 n2), show (2 : ℝ) ^ 403 = 2 ^ 402 + 2 ^ 402 by rw [pow_succ]; ring]
      exact add_le_add g1 g2)
    rwa [abs_of_nonneg (add_nonneg n1 n2)] at this
  run_model [ewma, usub_of_le]
  have key : ∀ i y, (fsum (data.take w) / flt w :: scanS (fun state x => x * (2 / flt (w + 1)) + state * (1 - 2 / flt (w + 1)))
      (fsum (data.take w) / flt w) (data.drop w))[i]? = some y → Rel y (ewmaOf w r (w - 1 + i)) (K (w - 1 + i) + w + 1 + 6 * i) := by
    intro i y hy
    cases i with
    | zero =>
        simp only [List.getElem?_cons_zero, Option.some.injEq] at hy
        rw [← hy, Nat.add_zero, ewmaOf_first (by omega)]
        exact seed
    | succ i =>
        rw [List.getElem?_cons_succ] at hy
        refine scan_idx (I := fun i s => Rel s (ewmaOf w r (w - 1 + i)) (K (w - 1 + i) + w + 1 + 6 * i))
          (P := fun i y => Rel y (ewmaOf w r (w - 1 + (i + 1))) (K (w - 1 + (i + 1)) + w + 1 + 6 * (i + 1))) ?_
          (by rw [Nat.add_zero, ewmaOf_first (by omega)]; exact seed) i y hy
        intro i s x hx hs
        rw [List.getElem?_drop] at hx
        have hi := (List.getElem?_eq_some_iff.1 hx).1
        have ei : w - 1 + (i + 1) = w + i := by omega
        have e2 := getElem?_of_lt (show w + i < r.length by omega)
        have bx := hb _ (List.mem_of_getElem? e2)
        have dx := hd _ _ _ hx e2
        generalize r[w + i]'(by omega) = a at *
        obtain ⟨z0, z1⟩ := W (w - 1 + i) (by omega) (by omega)
        have f : ewmaOf w r (w - 1 + (i + 1)) = a * α + ewmaOf w r (w - 1 + i) * (1 - α) := by
          rw [← Nat.add_assoc, ewmaOf, if_neg (by omega), show w - 1 + i + 1 = w + i by omega, e2, hα]; rfl
        have k1 : K (w - 1 + i) ≤ K (w - 1 + (i + 1)) := hK (by omega)
        have k2 := hK' (w + i) (by omega)
        rw [ei] at k1
        have := (step (hs.mono (show _ ≤ K (w + i) + w + 1 + 6 * i by omega)) dx z0 z1 bx.1 bx.2 (by omega) (by omega)).mono
          (show _ ≤ K (w - 1 + (i + 1)) + w + 1 + 6 * (i + 1) by rw [ei]; omega)
        rw [← f] at this
        exact ⟨this, this⟩
  exact reportsP_front (by simp; omega) fun i y hy => (key i y hy).mono (by omega)

end Traquer.Smooth

namespace Traquer.Volatility
open FP FloatLit Volume

section
variable (high low close : List F64) (hl : low.length = high.length) (hc : close.length = high.length)
  (ph : ∀ x ∈ high, Price x) (pl : ∀ x ∈ low, Price x) (pc : ∀ x ∈ close, Price x)
  (hlt : ∀ i, i < high.length → bar (vals low) i ≤ bar (vals high) i)
include hl hc ph pl pc hlt

theorem trueRange_rel (hn : 1 ≤ high.length) : ∃ t, trueRange high low close = some t ∧ t.length = high.length - 1 ∧
    (trueRanges (vals high) (vals low) (vals close)).length = high.length - 1 ∧
    ∀ j x, t[j]? = some x → ∃ a, (trueRanges (vals high) (vals low) (vals close))[j]? = some a ∧ Rel x a 1 ∧ 0 ≤ a ∧ a ≤ 2 ^ 402 ∧
      (a = 0 ∨ (2 : ℝ) ^ (-452 : ℤ) ≤ a) ∧ bar (vals high) (j + 1) - bar (vals low) (j + 1) ≤ a := by
  obtain ⟨t, e, lt⟩ := trueRange_yields high low close hl hc hn
  refine ⟨t, e, lt, by simp [trueRanges, vals]; omega, fun j y hy => ?_⟩
  obtain ⟨h, l, c, eh, el, ec, rfl⟩ := trueRange_items e hy
  have hj := (List.getElem?_eq_some_iff.1 eh).1
  have b := hlt (j + 1) hj
  rw [bar_vals eh, bar_vals el] at b ⊢
  obtain ⟨r1, r2, r3⟩ := trTerm_rel (ph _ (List.mem_of_getElem? eh)) (pl _ (List.mem_of_getElem? el)) (pc _ (List.mem_of_getElem? ec)) b
  refine ⟨trueRangeOf h.val l.val c.val, ?_, r1, le_max_of_le_left (by linarith), r2, r3, le_max_left _ _⟩
  rw [trueRanges, List.getElem?_map, (zip3_getElem? (x := h.val) (y := l.val) (z := c.val)).2 ⟨?_, ?_, ?_⟩]
  · rfl
  · rw [List.getElem?_tail, vals_getElem?, eh]; rfl
  · rw [List.getElem?_tail, vals_getElem?, el]; rfl
  · rw [vals_getElem?, ec]; rfl

/-- C122: `tr` is within 2 units of rounding of the true range, relative to that range, however small it is beside the prices. -/
theorem tr_accurate (hn : 1 ≤ high.length) :
    ReportsP high.length 1 (fun i y => WithinUnits 2 ((trueRanges (vals high) (vals low) (vals close))[i - 1]?.getD 0) y) (tr high low close) := by
  obtain ⟨t, e, lt, -, ht⟩ := trueRange_rel high low close hl hc ph pl pc hlt hn
  run_model [tr, e]
  refine reportsP_front (k := 1) (r := t) (by omega) fun i y hy => ?_
  obtain ⟨a, ha, hr, -⟩ := ht i y hy
  rw [Nat.add_sub_cancel_left, ha, Option.getD_some]
  have := Rel.withinUnits hr (by norm_num)
  simpa using this

/-- C122: `atr` at bar `i` is within `6 i` units of rounding of Wilder's average of the true ranges, relative to that average, which must not
decay below `2^-900`. -/
theorem atr_accurate (w : ℕ) (hw : 1 ≤ w) (h32 : w < 2 ^ 32) (hn : w + 1 ≤ high.length) (hn32 : high.length ≤ 2 ^ 32)
    (hv : ∀ i, w ≤ i → i < high.length → Visible (wilderOf w (trueRanges (vals high) (vals low) (vals close)) (i - 1))) :
    ReportsP high.length w (fun i y => WithinUnits (6 * i) (wilderOf w (trueRanges (vals high) (vals low) (vals close)) (i - 1)) y)
      (atr high low close w) := by
  obtain ⟨t, e, lt, lr, ht⟩ := trueRange_rel high low close hl hc ph pl pc hlt (by omega)
  obtain ⟨u, eu, lu, nu, ru⟩ := Smooth.wilder_rel (data := t) (r := trueRanges (vals high) (vals low) (vals close)) (by omega) hw h32 (by omega) (by omega)
    (fun i x a hx ha => by
      obtain ⟨b, hb, r, -⟩ := ht i x hx
      rw [ha, Option.some.injEq] at hb
      exact hb ▸ r)
    (fun a ha => by
      obtain ⟨i, hi⟩ := List.mem_iff_getElem?.1 ha
      have hil := (List.getElem?_eq_some_iff.1 hi).1
      obtain ⟨b, hb, -, b0, b1, b2, -⟩ := ht i _ (getElem?_of_lt (show i < t.length by omega))
      rw [hi, Option.some.injEq] at hb
      exact hb ▸ ⟨b0, b1, b2⟩)
    (fun i h1 h2 => by simpa using hv (i + 1) (by omega) (by omega))
  run_model [atr, e, eu]
  have := (ReportsP.pad (m := u) (n := t.length) (k := w - 1) ⟨u, rfl, lu, nu, ru⟩ 1).cast (n' := high.length) (k' := w) (by omega) (by omega)
  refine this.mono fun i y h1 h2 h => ?_
  have := Rel.withinUnits h (by omega)
  have e : (2 : ℝ) * ((3 * (i - 1) + 3 : ℕ) : ℝ) = 6 * i := by
    rw [show 3 * (i - 1) + 3 = 3 * i by omega]; push_cast; ring
  rwa [e] at this

end

/-- C122: when every bar has a range of its own, the average cannot decay and `atr` needs no further condition. -/
theorem atr_accurate_of_moving (high low close : List F64) (hl : low.length = high.length) (hc : close.length = high.length)
    (ph : ∀ x ∈ high, Price x) (pl : ∀ x ∈ low, Price x) (pc : ∀ x ∈ close, Price x)
    (hlt : ∀ i, i < high.length → bar (vals low) i < bar (vals high) i)
    (w : ℕ) (hw : 1 ≤ w) (h32 : w < 2 ^ 32) (hn : w + 1 ≤ high.length) (hn32 : high.length ≤ 2 ^ 32) :
    ReportsP high.length w (fun i y => WithinUnits (6 * i) (wilderOf w (trueRanges (vals high) (vals low) (vals close)) (i - 1)) y)
      (atr high low close w) := by
  have hle : ∀ i, i < high.length → bar (vals low) i ≤ bar (vals high) i := fun i hi => (hlt i hi).le
  refine atr_accurate high low close hl hc ph pl pc hle w hw h32 hn hn32 fun i h1 h2 => .inr ?_
  obtain ⟨t, -, lt, lr, ht⟩ := trueRange_rel high low close hl hc ph pl pc hle (by omega)
  refine le_trans (zpow_le_zpow_right₀ (by norm_num) (by norm_num)) (wilderOf_within (lo := 2 ^ (-452 : ℤ)) (hi := 2 ^ 402) hw (by omega) (by omega) ?_).1
  intro a ha
  obtain ⟨j, hj⟩ := List.mem_iff_getElem?.1 (List.mem_of_mem_take ha)
  have hjl := (List.getElem?_eq_some_iff.1 hj).1
  obtain ⟨b, hb, -, b0, b1, b2, b3⟩ := ht j _ (getElem?_of_lt (show j < t.length by omega))
  rw [hj, Option.some.injEq] at hb
  subst hb
  have := hlt (j + 1) (by omega)
  exact ⟨b2.resolve_left fun h => by linarith, b1⟩

/-- C122: `mass` at bar `i` is within `38 i + 20` units of rounding of its exact value, relative to that value. -/
theorem mass_accurate (high low : List F64) (short long : ℕ) (hl : low.length = high.length) (hs : 2 ≤ short) (hs32 : short < 2 ^ 32) (hlo : 1 ≤ long)
    (hn : 2 * short + long ≤ high.length + 2) (hn32 : high.length ≤ 2 ^ 32)
    (ph : ∀ x ∈ high, Price x) (pl : ∀ x ∈ low, Price x) (hlt : ∀ i, i < high.length → bar (vals low) i < bar (vals high) i) :
    ReportsP high.length (2 * (short - 1) + (long - 1)) (fun i y => WithinUnits (38 * i + 20) ((lastOf (fun j =>
      ewmaFrom 0 short (fun i => bar (vals high) i - bar (vals low) i) j /
        ewmaFrom (short - 1) short (ewmaFrom 0 short fun i => bar (vals high) i - bar (vals low) i) j) long i).sum) y)
      (mass high low short long) := by
  set n := high.length with hnn
  set v : ℕ → ℝ := fun i => bar (vals high) i - bar (vals low) i with hv
  have hr : ∀ i, i < n → (2 : ℝ) ^ (-452 : ℤ) ≤ v i ∧ v i ≤ 2 ^ 402 ∧ ∃ x y, high[i]? = some x ∧ low[i]? = some y ∧ Rel (x - y) (v i) 1 := by
    intro i hi
    have e1 := getElem?_of_lt (show i < high.length by omega)
    have e2 := getElem?_of_lt (show i < low.length by omega)
    have b := hlt i hi
    obtain ⟨g1, g2, g3⟩ := gap_rel (ph _ (List.mem_of_getElem? e1)) (pl _ (List.mem_of_getElem? e2))
    rw [← bar_vals e1, ← bar_vals e2] at g1 g2 g3
    exact ⟨g3.resolve_left fun h => by linarith, (le_abs_self _).trans g2, _, _, e1, e2, g1⟩
  have E : ∀ {k m : ℕ} {u : ℕ → ℝ}, (∀ i, k ≤ i → i < m → (2 : ℝ) ^ (-452 : ℤ) ≤ u i ∧ u i ≤ 2 ^ 402) → ∀ i, k + (short - 1) ≤ i → i < m →
      (2 : ℝ) ^ (-452 : ℤ) ≤ ewmaFrom k short u i ∧ ewmaFrom k short u i ≤ 2 ^ 402 := by
    intro k m u hu i h1 h2
    have e := ewmaOf_eq (k := k) (w := short) (n := m - k) (v := u) (l := (List.range (m - k)).map fun i => u (k + i)) (by omega)
      (fun i hi => by simp [hi]) (by omega) (i - k) (by omega) (by omega)
    rw [show k + (i - k) = i by omega] at e
    rw [← e]
    refine ewmaOf_within (by omega) (by omega) (by simp; omega) fun a ha => ?_
    obtain ⟨j, hj, rfl⟩ := List.mem_map.1 (List.mem_of_mem_take ha)
    have := List.mem_range.1 hj
    exact hu _ (by omega) (by omega)
  set E1 := ewmaFrom 0 short v
  set E2 := ewmaFrom (short - 1) short E1
  have B1 := fun i h1 h2 => E (k := 0) (m := n) (fun i _ hi => ⟨(hr i hi).1, (hr i hi).2.1⟩) i h1 h2
  have B2 := fun i h1 h2 => E (k := short - 1) (m := n) (fun i h hi => B1 i (by omega) hi) i h1 h2
  obtain ⟨m, em, lm, -, rm⟩ := Smooth.ewma_rel (data := (high.zip low).map fun (h, l) => h - l) (r := (List.range n).map v) (K := fun _ => 1)
    (by simp; omega) hs hs32 (by simp; omega) (by simp; omega) monotone_const (fun _ _ => by norm_num)
    (fun i x a hx ha => by
      rw [List.getElem?_map, Option.map_eq_some_iff] at hx
      obtain ⟨⟨p, q⟩, hpq, rfl⟩ := hx
      obtain ⟨hp, hq⟩ := List.getElem?_zip_eq_some.1 hpq
      have hi := (List.getElem?_eq_some_iff.1 hp).1
      obtain ⟨-, -, x, y, ex, ey, h⟩ := hr i hi
      rw [hp, Option.some.injEq] at ex
      rw [hq, Option.some.injEq] at ey
      simp [show i < n by omega] at ha
      subst ex ey ha
      exact h)
    (fun a ha => by
      obtain ⟨j, hj, rfl⟩ := List.mem_map.1 ha
      have := hr j (List.mem_range.1 hj)
      exact ⟨this.1, this.2.1⟩)
  have lz : ((high.zip low).map fun (h, l) => h - l).length = n := by simp; omega
  rw [lz] at lm rm
  have rm' : ∀ i y, m[i]? = some y → short - 1 ≤ i → Rel y (E1 i) (6 * i + 3) := by
    intro i y hy h1
    have hi := (List.getElem?_eq_some_iff.1 hy).1
    obtain ⟨z, hz, h⟩ := rm i h1 (by omega)
    rw [hy, Option.some.injEq] at hz
    subst hz
    have e := ewmaOf_eq (k := 0) (w := short) (n := n) (v := v) (l := (List.range n).map v) (by omega) (fun i hi => by simp [hi]) (by omega) i h1 (by omega)
    rw [Nat.zero_add] at e
    rw [e] at h
    exact h.mono (by omega)
  obtain ⟨m2, em2, lm2, -, rm2⟩ := Smooth.ewma_rel (data := m.drop (short - 1)) (r := (List.range (n - (short - 1))).map fun i => E1 (short - 1 + i))
    (K := fun j => 6 * (short - 1 + j) + 3)
    (by simp; omega) hs hs32 (by simp; omega) (by simp; omega) (fun a b h => by simp only; omega) (fun i hi => by simp at hi; omega)
    (fun i x a hx ha => by
      rw [List.getElem?_drop] at hx
      have hi := (List.getElem?_eq_some_iff.1 hx).1
      simp [show i < n - (short - 1) by omega] at ha
      subst ha
      exact rm' _ _ hx (by omega))
    (fun a ha => by
      obtain ⟨j, hj, rfl⟩ := List.mem_map.1 ha
      have := List.mem_range.1 hj
      exact B1 _ (by omega) (by omega))
  have ld : (m.drop (short - 1)).length = n - (short - 1) := by simp; omega
  rw [ld] at lm2 rm2
  have rm2' : ∀ j y, m2[j]? = some y → short - 1 ≤ j → Rel y (E2 (short - 1 + j)) (12 * (short - 1 + j) + 5) := by
    intro j y hy h1
    have hi := (List.getElem?_eq_some_iff.1 hy).1
    obtain ⟨z, hz, h⟩ := rm2 j h1 (by omega)
    rw [hy, Option.some.injEq] at hz
    subst hz
    have e := ewmaOf_eq (k := short - 1) (w := short) (n := n - (short - 1)) (v := E1) (l := (List.range (n - (short - 1))).map fun i => E1 (short - 1 + i))
      (by omega) (fun i hi => by simp [hi]) (by omega) j h1 (by omega)
    rw [e] at h
    exact h.mono (by omega)
  have C : ∀ i, 2 * (short - 1) ≤ i → i < n → 0 < E1 i ∧ 0 < E2 i ∧ (2 : ℝ) ^ (-854 : ℤ) ≤ E1 i / E2 i ∧ E1 i / E2 i ≤ 2 ^ 854 := by
    intro i h1 h2
    obtain ⟨p1, p2⟩ := B1 i (by omega) h2
    obtain ⟨q1, q2⟩ := B2 i (by omega) h2
    have z : (0 : ℝ) < 2 ^ (-452 : ℤ) := by positivity
    have e1 : 0 < E1 i := z.trans_le p1
    have e2 : 0 < E2 i := z.trans_le q1
    refine ⟨e1, e2, ?_, ?_⟩
    · rw [le_div_iff₀ e2]
      refine le_trans ?_ p1
      refine (mul_le_mul_of_nonneg_left q2 (by positivity)).trans (le_of_eq ?_)
      rw [← zpow_natCast, ← zpow_add₀ (by norm_num)]; norm_num
    · rw [div_le_iff₀ e2]
      refine p2.trans ?_
      refine le_trans (le_of_eq ?_) (mul_le_mul_of_nonneg_left q1 (by positivity))
      rw [← zpow_natCast, ← zpow_natCast, ← zpow_add₀ (by norm_num)]; norm_num
  obtain ⟨out, eo, lo, -, wo⟩ := mass_aligned high low short long hl (by omega) hlo (by omega)
  refine ⟨out, eo, lo, fun i h1 h2 => ?_, fun i h1 h2 => ?_⟩
  · have e := getElem?_of_lt (show i < out.length by omega)
    rw [e]
    refine congrArg some (isNaN_iff.1 (wo inferInstance _ ?_))
    rw [List.mem_take_iff_getElem]
    exact ⟨i, by omega, rfl⟩
  · obtain ⟨y, e⟩ : ∃ y, out[i]? = some y := ⟨_, getElem?_of_lt (show i < out.length by omega)⟩
    refine ⟨y, e, ?_⟩
    have em' : mass high low short long = some (nans (long - 1 + (short - 1)) ++
        (windowsOf long (((m.drop (short - 1)).zip m2).map fun x => x.1 / x.2)).map fsum) := by run_model [mass, em, em2]
    rw [em', Option.some.injEq] at eo
    rw [← eo, List.getElem?_append_right (by simp; omega), nans_length, List.getElem?_map] at e
    set z := List.map (fun x : F64 × F64 => x.1 / x.2) ((m.drop (short - 1)).zip m2) with hz
    have lzz : z.length = n - (short - 1) := by simp [hz]; omega
    rw [show i - (long - 1 + (short - 1)) = (i - (short - 1)) - (long - 1) by omega, windowsOf_recent hlo (by omega) (by omega), Option.map_some,
      Option.some.injEq] at e
    rw [← e]
    have zr : ∀ j y, z[j]? = some y → short - 1 ≤ j → Rel y (E1 (short - 1 + j) / E2 (short - 1 + j)) (18 * (short - 1 + j) + 9) := by
      intro j y hy h1
      rw [hz, List.getElem?_map, Option.map_eq_some_iff] at hy
      obtain ⟨⟨p, q⟩, hpq, rfl⟩ := hy
      obtain ⟨hp, hq⟩ := List.getElem?_zip_eq_some.1 hpq
      rw [List.getElem?_drop] at hp
      have hj := (List.getElem?_eq_some_iff.1 hp).1
      obtain ⟨c1, c2, c3, c4⟩ := C (short - 1 + j) (by omega) (by omega)
      exact (Rel.quot (rm' _ _ hp (by omega)) (rm2' _ _ hq h1) c2.ne' (units_ok (by omega)) (clear_of_le (e := -854) (by norm_num) c3)
        (fits_of_le (e := 854) (by norm_num) ((abs_of_nonneg (div_nonneg c1.le c2.le)).le.trans c4))).mono (by omega)
    have s := (rel_sum (v := recent z long (i - (short - 1))) (r := lastOf (fun j => E1 j / E2 j) long i) (k := 18 * i + 9) (w := long) (by
      rw [List.forall₂_iff_get]
      have lrr := recent_length (l := z) (w := long) (i := i - (short - 1)) (by omega) (by omega)
      refine ⟨by rw [lrr]; simp [lastOf], fun j g1 g2 => ?_⟩
      rw [lrr] at g1
      simp only [List.get_eq_getElem, lastOf, List.getElem_map, List.getElem_range]
      obtain ⟨c1, c2, c3, c4⟩ := C (i + 1 - long + j) (by omega) (by omega)
      refine ⟨?_, div_nonneg c1.le c2.le, c4.trans (pow_le_pow_right₀ (by norm_num) (by norm_num))⟩
      have e3 : z[i - (short - 1) + 1 - long + j]? = some ((recent z long (i - (short - 1)))[j]'(by omega)) := by
        rw [← List.getElem?_eq_getElem, recent, List.getElem?_take, if_pos g1, List.getElem?_drop]
      have := zr _ _ e3 (by omega)
      rw [show short - 1 + (i - (short - 1) + 1 - long + j) = i + 1 - long + j by omega] at this
      exact this.mono (by omega)) (recent_length (by omega) (by omega)) (by omega)).1
    have h := Rel.withinUnits (s.mono (show _ ≤ 19 * i + 10 by omega)) (by omega)
    have e : (2 : ℝ) * ((19 * i + 10 : ℕ) : ℝ) = 38 * (i : ℝ) + 20 := by push_cast; ring
    rwa [e] at h

/-- Highs of an example. -/
noncomputable def narrowHigh : List F64 := [flt 5001, flt 5003, flt 5002, flt 5004, flt 5003]
/-- Lows of an example, also used as closes. -/
noncomputable def narrowLow : List F64 := [flt 5000, flt 5000, flt 5001, flt 5001, flt 5002]

/-- Bars whose range is a thousandth of their price meet the conditions. -/
theorem narrow_prices {l : List F64} (h : l = narrowHigh ∨ l = narrowLow) :
    ∀ x ∈ l, Price x := by
  intro x hx
  rcases h with rfl | rfl <;> simp only [narrowHigh, narrowLow, List.mem_cons, List.not_mem_nil, or_false] at hx <;>
    rcases hx with rfl | rfl | rfl | rfl | rfl <;> exact price_flt (by norm_num) (by norm_num)

theorem narrow_ranges : ∀ i, i < narrowHigh.length →
    bar (vals narrowLow) i <
      bar (vals narrowHigh) i := by
  have v : ∀ n : ℕ, n ≤ 2 ^ 53 → FP.val (flt n : F64) = n := fun n hn => (isFlt (ρ := Rounding.binary64) hn).2
  have v0 := v 5000 (by norm_num)
  have v1 := v 5001 (by norm_num)
  have v2 := v 5002 (by norm_num)
  have v3 := v 5003 (by norm_num)
  have v4 := v 5004 (by norm_num)
  intro i hi
  simp only [narrowHigh, List.length_cons, List.length_nil] at hi
  interval_cases i <;> simp only [bar, vals, narrowHigh, narrowLow, List.map_cons, List.map_nil, List.getD_cons_zero, List.getD_cons_succ, v0, v1, v2, v3, v4] <;> norm_num

example : ReportsP 5 3 (fun i y => WithinUnits (38 * i + 20) ((lastOf (fun j =>
      ewmaFrom 0 2 (fun i => bar (vals narrowHigh) i -
          bar (vals narrowLow) i) j /
        ewmaFrom 1 2 (ewmaFrom 0 2 fun i => bar (vals narrowHigh) i -
          bar (vals narrowLow) i) j) 2 i).sum) y)
      (mass narrowHigh narrowLow 2 2) :=
  mass_accurate narrowHigh narrowLow 2 2 rfl le_rfl (by norm_num) (by norm_num) (by simp [narrowHigh]) (by simp [narrowHigh]) (narrow_prices (.inl rfl)) (narrow_prices (.inr rfl)) narrow_ranges

example : ReportsP 5 2 (fun i y => WithinUnits (6 * i) (wilderOf 2 (trueRanges (vals narrowHigh)
      (vals narrowLow) (vals narrowLow)) (i - 1)) y)
      (atr narrowHigh narrowLow
        narrowLow 2) :=
  atr_accurate_of_moving narrowHigh narrowLow narrowLow rfl rfl (narrow_prices (.inl rfl)) (narrow_prices (.inr rfl)) (narrow_prices (.inr rfl)) narrow_ranges
    2 (by norm_num) (by norm_num) (by simp [narrowHigh]) (by simp [narrowHigh])

end Traquer.Volatility
