import Verif.Props.Forecast64
import Verif.Props.Hoeffd64
import Verif.Props.Oscillators2
import Verif.Props.TrendFormulas
import Verif.Props.VolumeFormulas
/-!
# C120: ulcer, perf, bw_mfi and rsc in binary64
-/

namespace Traquer
open FP FloatLit Smooth Volume

/-- The mean of a window of numbers that are not negative. -/
theorem mag_mean {k lo hi w : ℕ} {l : List F64} {v : List ℝ} (h : List.Forall₂ (fun x a => Mag k lo hi x a ∧ 0 ≤ a) l v) (hl : l.length = w) (hw : 1 ≤ w)
    (h32 : w ≤ 2 ^ 32) (hk : k ≤ 2 ^ 32) (hlo : lo ≤ 989) (hh : hi ≤ 960) :
    Mag (k + w + 1) (lo + 32) (hi + 32) (fsum l / flt w) (mean v) ∧ 0 ≤ mean v := by
  have hv : v.length = w := by rw [← h.length_eq, hl]
  have lz : (l.zip v).length = w := by simp; omega
  have s := Mag.sum (l := l.zip v) (f := Prod.fst) (t := Prod.snd) (k := k) (lo := lo) (hi := hi) (fun p hp => by
    obtain ⟨i, hi⟩ := List.mem_iff_getElem?.1 hp
    obtain ⟨h1, h2⟩ := List.getElem?_zip_eq_some.1 hi
    obtain ⟨g1, e1⟩ := List.getElem?_eq_some_iff.1 h1
    obtain ⟨g2, e2⟩ := List.getElem?_eq_some_iff.1 h2
    have := (List.forall₂_iff_get.1 h).2 i g1 g2
    simp only [List.get_eq_getElem, e1, e2] at this
    exact this) (by omega) hk hh
  have e1 : (l.zip v).foldl (fun s p => s + p.1) (0 : F64) = fsum l := by
    rw [fsum, ← List.foldl_map (f := Prod.fst) (g := fun s x => s + x), List.map_fst_zip (by omega)]
  rw [e1, List.map_snd_zip (by omega), lz] at s
  have wp := natCast_pos hw
  rw [mean, hv]
  refine ⟨?_, div_nonneg s.2 wp.le⟩
  exact (s.1.quot (mag_nat hw h32) wp.ne' (by omega) (by omega) (by omega)).mono (by omega) le_rfl le_rfl

theorem price_of {x y : F64} {a : ℝ} (h : Price x) (hx : x ⇓ a) (hy : y ⇓ a) : Price y := by
  obtain ⟨s, r, hr, b⟩ := h
  rw [hr.unique hx] at b
  exact ⟨fun c hc => by rw [hc.unique hy]; exact s a hx, a, hy, b⟩

theorem price_is {x : F64} (h : Price x) : x ⇓ x.val := by
  obtain ⟨-, r, hr, -⟩ := h
  rwa [hr.val_eq]

theorem fins_prices {l : List F64} (h : ∀ x ∈ l, Price x) : Fins l := fun x hx => (price_is (h x hx)).finite

theorem price_foldMax {l : List F64} (h : ∀ x ∈ l, Price x) (hl : l ≠ []) : Price (Volatility.foldMax l) ∧ (Volatility.foldMax l).val = maxOf (vals l) := by
  have hm := foldMax_is (fins_prices h) hl
  refine ⟨?_, hm.val_eq⟩
  have ne : vals l ≠ [] := by simpa [vals] using hl
  obtain ⟨x, hx, e⟩ := List.mem_map.1 (maxOf_mem ne)
  exact price_of (h x hx) (price_is (h x hx)) (by rw [e]; exact hm)

end Traquer

namespace Traquer.Trend
open FP FloatLit Smooth Volume

/-- The drawdown from a price at least as high. -/
theorem mag_drawdown {h c : F64} (hh : Price h) (hc : Price c) (hle : c.val ≤ h.val) :
    Mag 3 54 7 (100 * (c - h) / h) (100 * (c.val - h.val) / h.val) := by
  have ph : 0 < h.val := lt_of_lt_of_le (two_zpow_pos _) hh.ge
  have pc : 0 < c.val := lt_of_lt_of_le (two_zpow_pos _) hc.ge
  have r := ((mag_hundred.mul (mag_diff hc hh) (by norm_num) (by norm_num) (by norm_num)).quot (mag_price hh) ph.ne' (by norm_num) (by norm_num) (by norm_num)).1
  have e : |100 * (c.val - h.val) / h.val| = 100 * (h.val - c.val) / h.val := by
    rw [abs_div, abs_mul, abs_of_pos ph, abs_sub_comm, abs_of_nonneg (by linarith : 0 ≤ h.val - c.val), abs_of_pos (by norm_num : (0 : ℝ) < 100)]
  refine ⟨r, ?_, ?_⟩
  · rcases hle.eq_or_lt with h0 | h0
    · left
      rw [h0]; simp
    · right
      have := stored_gap hh.1 hc.1 (price_is hh) (price_is hc) pc h0
      rw [e, le_div_iff₀ ph, mul_comm]
      linarith
  · rw [e, div_le_iff₀ ph]
    norm_num
    linarith

/-- C120: `ulcer` is the root mean square of the drawdowns to `2 w + 22` units of rounding of its value. -/
theorem ulcer_accurate (data : List F64) (w : ℕ) (hw : 1 ≤ w) (h32 : w ≤ 2 ^ 32) (hn : 2 * (w - 1) ≤ data.length) (hd : ∀ x ∈ data, Price x) :
    ReportsP data.length (2 * (w - 1)) (fun i y => WithinUnits (2 * w + 22) (√(mean (lastOf (fun j => drawdown (vals data) w j ^ 2) w i))) y) (ulcer data w) := by
  set sq : List F64 := (((windowsOf w data).map Volatility.foldMax).zip (data.drop (w - 1))).map fun (high, c) => powi (100 * (c - high) / high) 2 with hsq
  have lsq : sq.length = data.length - (w - 1) := by simp [hsq]; omega
  have r1 : ∀ i y, sq[i]? = some y → Mag 8 108 14 y (drawdown (vals data) w (w - 1 + i) ^ 2) := by
    intro i y hy
    rw [hsq, List.getElem?_map, Option.map_eq_some_iff] at hy
    obtain ⟨⟨h, c⟩, hi, rfl⟩ := hy
    obtain ⟨h1, h2⟩ := List.getElem?_zip_eq_some.1 hi
    rw [List.getElem?_map] at h1
    obtain ⟨x, hx, rfl⟩ := Option.map_eq_some_iff.1 h1
    obtain ⟨rfl, li⟩ := windowsOf_at hw hx
    rw [List.getElem?_drop] at h2
    have hne : recent data w (i + w - 1) ≠ [] := List.ne_nil_of_length_pos (by rw [recent_length (by omega) (by omega)]; omega)
    obtain ⟨p1, p2⟩ := price_foldMax (l := recent data w (i + w - 1)) (fun x hx => hd x (List.mem_of_mem_drop (List.mem_of_mem_take hx))) hne
    have hc := hd c (List.mem_of_getElem? h2)
    rw [recent_vals] at p2
    have e := bar_vals h2
    have last : c.val ≤ (Volatility.foldMax (recent data w (i + w - 1))).val := by
      rw [p2, ← recent_vals]
      refine le_maxOf (List.mem_map.2 ⟨c, ?_, rfl⟩)
      refine List.mem_iff_getElem?.2 ⟨w - 1, ?_⟩
      rw [recent, List.getElem?_take, if_pos (by omega), List.getElem?_drop, ← h2]
      congr 1
      omega
    have m := (mag_drawdown p1 hc last).sq (by norm_num) (by norm_num) (by norm_num)
    rw [p2, ← e, show i + w - 1 = w - 1 + i by omega] at m
    rw [show i + w - 1 = w - 1 + i by omega]
    exact m
  have r2 : ReportsP (data.length - (w - 1)) (w - 1) (fun i y => WithinUnits (2 * w + 22) (√(mean (lastOf (fun i => drawdown (vals data) w (w - 1 + i) ^ 2) w i))) y)
      (some ((nans (w - 1) ++ (windowsOf w sq).map fun l => fsum l / flt w).map sqrt)) := by
    obtain ⟨m, em, lm, n0, hv⟩ := reportsP_windows (data := sq) (w := w) (f := fun l => fsum l / flt w)
      (P := fun i y => Mag (w + 9) 140 46 y (mean (lastOf (fun i => drawdown (vals data) w (w - 1 + i) ^ 2) w i)) ∧
        0 ≤ mean (lastOf (fun i => drawdown (vals data) w (w - 1 + i) ^ 2) w i)) hw (by omega) (fun i h1 h2 => by
        have := mag_mean (k := 8) (lo := 108) (hi := 14) (l := recent sq w i) (v := lastOf (fun i => drawdown (vals data) w (w - 1 + i) ^ 2) w i) (w := w) (by
          rw [List.forall₂_iff_get]
          refine ⟨by rw [recent_length h1 h2]; simp [lastOf], fun j g1 g2 => ?_⟩
          rw [recent_length h1 h2] at g1
          simp only [List.get_eq_getElem, lastOf, List.getElem_map, List.getElem_range]
          refine ⟨r1 _ _ ?_, sq_nonneg _⟩
          simp only [recent, List.getElem_take, List.getElem_drop]
          exact List.getElem?_eq_getElem _) (recent_length h1 h2) hw h32 (by norm_num) (by norm_num) (by norm_num)
        exact ⟨this.1.mono (by omega) (by norm_num) (by norm_num), this.2⟩)
    cases em
    refine reportsP_map (by rw [lm, lsq]) (fun i b hb hi => ?_) fun i b hb hi => ?_
    · have : i < sq.length := lm ▸ (List.getElem?_eq_some_iff.1 hb).1
      rw [n0 i hi this] at hb
      cases hb
      rfl
    · have : i < sq.length := lm ▸ (List.getElem?_eq_some_iff.1 hb).1
      obtain ⟨y, hy, g1, g2⟩ := hv i hi this
      cases hy.symm.trans hb
      exact ((Mag.root (lo := 70) (hi := 23) g1 g2 (by omega) (by norm_num) (by norm_num)).mono (k' := w + 11) (by omega) le_rfl le_rfl).within (by omega) (by push_cast; ring)
  run_model [ulcer, Smooth.sma]
  refine ((r2.pad (w - 1)).cast (by omega) (by omega)).mono fun i y h1 h2 h => ?_
  have e : lastOf (fun j => drawdown (vals data) w j ^ 2) w i = lastOf (fun i => drawdown (vals data) w (w - 1 + i) ^ 2) w (i - (w - 1)) := ?_
  · rw [e]; exact h
  refine lastOf_congr fun j hj => ?_
  rw [show w - 1 + (i - (w - 1) + 1 - w + j) = i + 1 - w + j by omega]

end Traquer.Trend

namespace Traquer.Correlation
open FP FloatLit Smooth Volume

/-- C120: `rsc` is the quotient of the two prices, rounded once. -/
theorem rsc_rounded (a b : List F64) (hb : b.length = a.length) (fa : Fins a) (fb : Fins b) (h0 : ∀ x ∈ b, x.val ≠ 0) :
    ReportsP a.length 0 (fun i y => Rounds y (bar (vals a) i / bar (vals b) i)) (some (rsc a b)) := by
  refine reportsP_map (by simp [hb]) (fun i b _ h => by omega) ?_
  rintro i ⟨x, y⟩ hi -
  obtain ⟨h1, h2⟩ := List.getElem?_zip_eq_some.1 hi
  rw [bar_vals h1, bar_vals h2]
  exact rounds_div (fa _ (List.mem_of_getElem? h1)).is (fb _ (List.mem_of_getElem? h2)).is (h0 _ (List.mem_of_getElem? h2))

/-- A price between `2^-200` and `2^200`. -/
def Quote (x : F64) : Prop := Price x ∧ (2 : ℝ) ^ (-200 : ℤ) ≤ x.val ∧ x.val ≤ 2 ^ 200

theorem mag_range {k n : ℕ} {x : F64} {a : ℝ} (h : Rel x a k) (h1 : (2 : ℝ) ^ (-(n : ℤ)) ≤ a) (h2 : a ≤ 2 ^ n) : Mag k n n x a := by
  have hp := lt_of_lt_of_le (two_zpow_pos _) h1
  refine ⟨h, .inr ?_, ?_⟩ <;> rw [abs_of_pos hp]
  · rwa [two_inv_pow]
  · exact h2

/-- C120: `perf` is the quotient of the two prices, each relative to its own mean, to `4 w + 10` units of rounding. -/
theorem perf_accurate (a b : List F64) (w : ℕ) (hb : b.length = a.length) (hw : 1 ≤ w) (h32 : w < 2 ^ 32) (hn : w ≤ a.length + 1) (fa : ∀ x ∈ a, Quote x)
    (fb : ∀ x ∈ b, Quote x) : ReportsP a.length (w - 1) (fun i y => WithinUnits (4 * w + 10)
      ((bar (vals a) i / mean (recent (vals a) w i)) / (bar (vals b) i / mean (recent (vals b) w i))) y) (perf a b w) := by
  have ms : ∀ l : List F64, w ≤ l.length + 1 → (∀ x ∈ l, Quote x) →
      ReportsP l.length (w - 1) (fun i y => Mag (w + 1) 200 200 y (mean (recent (vals l) w i)) ∧ mean (recent (vals l) w i) ≠ 0) (Smooth.sma l w) := by
    intro l hl hq
    run_model [Smooth.sma]
    refine reportsP_windows hw hl fun i h1 h2 => ?_
    rw [← recent_vals]
    have hq' : ∀ x ∈ recent l w i, Quote x := fun x hx => hq x (List.mem_of_mem_drop (List.mem_of_mem_take hx))
    have m := mean_rel (priceRel_vals (l := recent l w i) fun x hx => (hq' x hx).1) (recent_length h1 h2) hw h32 (by norm_num)
    have wi : Within (2 ^ (-200 : ℤ)) (2 ^ 200) (vals (recent l w i)) := fun r hr => by
      obtain ⟨x, hx, rfl⟩ := List.mem_map.1 hr
      exact (hq' x hx).2
    have mm := within_mean wi (by rw [← List.length_pos_iff]; simp [vals, recent_length h1 h2]; omega)
    rw [zero_add] at m
    exact ⟨mag_range m.1 mm.1 mm.2, (lt_of_lt_of_le (two_zpow_pos _) mm.1).ne'⟩
  obtain ⟨m1, e1, l1, n1, v1⟩ := ms a hn fa
  obtain ⟨m2, e2, l2, n2, v2⟩ := ms b (by omega) fb
  simp only [perf, e1, e2, Option.bind_eq_bind, Option.bind_some]
  refine reportsP_map (by simp; omega) ?_ ?_
  · rintro i ⟨x, y, z, u⟩ hi hk
    rw [zip4_getElem?] at hi
    have hlt := (List.getElem?_eq_some_iff.1 hi.1).1
    have := hi.2.2.1
    rw [n1 i hk hlt] at this
    cases this
    nanp
  · rintro i ⟨x, y, z, u⟩ hi hk
    rw [zip4_getElem?] at hi
    have hin := (List.getElem?_eq_some_iff.1 hi.1).1
    obtain ⟨z', hz, g1, c1⟩ := v1 i hk hin
    obtain ⟨u', hu, g2, c2⟩ := v2 i hk (by omega)
    cases hz.symm.trans hi.2.2.1
    cases hu.symm.trans hi.2.2.2
    have qx := fa x (List.mem_of_getElem? hi.1)
    have qy := fb y (List.mem_of_getElem? hi.2.1)
    have ny : y.val ≠ 0 := Regression.val_ne qy.1
    rw [bar_vals hi.1, bar_vals hi.2.1]
    have q := ((mag_range qx.1.plain.rel qx.2.1 qx.2.2).quot (mag_range qy.1.plain.rel qy.2.1 qy.2.2) ny (by norm_num) (by norm_num) (by norm_num)).mul
      (g2.quot g1 c1 (by omega) (by norm_num) (by norm_num)) (by omega) (by norm_num) (by norm_num)
    refine ((q.mono (k' := 2 * w + 5) (by omega) le_rfl le_rfl).congr ?_).within (by omega) (by push_cast; ring)
    field_simp

end Traquer.Correlation

namespace Traquer.Volume
open FP FloatLit Smooth

theorem mag_million : Mag 0 0 20 (powi 10 6 : F64) 1000000 := by
  have ten : Whole (10 : F64) 10 10 := Correlation.whole_lit 10 (by norm_num)
  have hundred := ten.mul ten (by norm_num)
  have e : (powi 10 6 : F64) = 1 * (10 * 10) * ((10 * 10) * (10 * 10)) := by simp [powi, powiLoop]
  have h := ((Whole.one (ρ := Rounding.binary64)).mul hundred (by norm_num)).mul (hundred.mul hundred (by norm_num)) (by norm_num)
  rw [e]
  have i := h.1
  have i : (1 * (10 * 10) * ((10 * 10) * (10 * 10)) : F64) ⇓ ((1000000 : ℕ) : ℝ) := i.congr (by norm_num)
  refine ⟨Rel.of_is (i.congr (by norm_num)) fun r hr => ?_, .inr (by norm_num), by norm_num⟩
  rw [hr.unique i]
  exact ⟨Rounding.binary64.nat _ (by norm_num), Rounding.binary64.fits_nat _ (by norm_num)⟩

/-- C120: `bw_mfi` is the range of the bar per million of volume to six units of rounding. -/
theorem bw_mfi_accurate (high low volume : List F64) (hl : low.length = high.length) (hv : volume.length = high.length) (fh : ∀ x ∈ high, Price x)
    (fl : ∀ x ∈ low, Price x) (fv : ∀ x ∈ volume, Price x) : ReportsP high.length 0 (fun i y =>
      WithinUnits 6 ((bar (vals high) i - bar (vals low) i) / bar (vals volume) i * 1000000) y) (some (bw_mfi high low volume)) := by
  refine reportsP_map (by simp; omega) (fun i b _ h => by omega) ?_
  rintro i ⟨x, y, z⟩ hi -
  obtain ⟨h1, h2, h3⟩ := zip3_getElem?.1 hi
  rw [bar_vals h1, bar_vals h2, bar_vals h3]
  have pz := fv z (List.mem_of_getElem? h3)
  exact (((mag_diff (fh x (List.mem_of_getElem? h1)) (fl y (List.mem_of_getElem? h2))).quot (mag_price pz) (Regression.val_ne pz) (by norm_num) (by norm_num)
    (by norm_num)).mul mag_million (by norm_num) (by norm_num) (by norm_num)).within (by norm_num) (by norm_num)

end Traquer.Volume

/-! ## Cases that meet the hypotheses -/

namespace Traquer
open FP FloatLit Volume Smooth

example : ReportsP 4 0 (fun i y => WithinUnits (2 * i + 6) (mean (Regression.errors (fun o e => |o - e|) (vals ([flt 5000, flt 4000, flt 5, flt 4] : List F64))
    (vals ([flt 5000, flt 4000, flt 5, flt 4] : List F64).reverse) i)) y)
    (some (Regression.mae ([flt 5000, flt 4000, flt 5, flt 4] : List F64) ([flt 5000, flt 4000, flt 5, flt 4] : List F64).reverse)) :=
  Regression.mae_accurate (by simp) (by simp) fallen_prices fun x hx => fallen_prices x (List.mem_reverse.1 hx)
example := Trend.ulcer_accurate ([flt 5000, flt 4000, flt 5, flt 4] : List F64) 2 (by norm_num) (by norm_num) (by simp) fallen_prices
example := Regression.mase_accurate (data := ([flt 5000, flt 4000, flt 5, flt 4] : List F64)) (estimate := ([flt 5000, flt 4000, flt 5, flt 4] : List F64).reverse)
  (by simp) (by simp) (by simp) fallen_prices fun x hx => fallen_prices x (List.mem_reverse.1 hx)
example := Correlation.perf_accurate [flt 5, flt 7, flt 6] [flt 100, flt 90, flt 120] 2 (by simp) (by norm_num) (by norm_num) (by simp)
  (by
    intro x hx
    simp only [List.mem_cons, List.not_mem_nil, or_false] at hx
    rcases hx with rfl | rfl | rfl <;>
      exact ⟨price_flt (by norm_num) (by norm_num), by rw [(isFlt (by norm_num)).val_eq]; norm_num, by rw [(isFlt (by norm_num)).val_eq]; norm_num⟩)
  (by
    intro x hx
    simp only [List.mem_cons, List.not_mem_nil, or_false] at hx
    rcases hx with rfl | rfl | rfl <;>
      exact ⟨price_flt (by norm_num) (by norm_num), by rw [(isFlt (by norm_num)).val_eq]; norm_num, by rw [(isFlt (by norm_num)).val_eq]; norm_num⟩)

end Traquer
