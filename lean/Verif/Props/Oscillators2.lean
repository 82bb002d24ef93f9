import Verif.Props.Oscillators
import Verif.Props.TrueRange
import Verif.Props.SmoothWeights
import Verif.Lemmas.Bars
import Verif.Lemmas.Witness
/-!
# C58, C68: further oscillators
-/

namespace Traquer
open FP FloatLit
open Traquer.Trend (is_bar)

/-- A map whose function succeeds everywhere. -/
theorem mapP_eq_map {α β : Type} {f : α → Option β} {g : α → β} {l : List α} (h : ∀ x ∈ l, f x = some (g x)) :
    mapP f l = some (l.map g) := by
  rw [mapP_eq_some_iff, List.map_map]
  exact List.map_congr_left h

/-- The true range of bar `i`. -/
noncomputable def trAt (high low close : List ℝ) (i : ℕ) : ℝ := trueRangeOf (bar high i) (bar low i) (bar close (i - 1))

/-- The series of true ranges, which starts at bar 1. -/
theorem trueRange_values {high low close : List XF} (hl : low.length = high.length) (hc : close.length = high.length)
    (hn : 1 ≤ high.length) (fh : Fins high) (fl : Fins low) (fc : Fins close) :
    ∃ t, Volatility.trueRange high low close = some t ∧ t.length = high.length - 1 ∧
      Reports high.length 1 (trAt (vals high) (vals low) (vals close)) (some (nans 1 ++ t)) := by
  obtain ⟨t, e, lt⟩ := Volatility.trueRange_yields high low close hl hc hn
  refine ⟨t, e, lt, reports_nans (by omega) fun i hi => ⟨_, getElem?_of_lt hi, ?_⟩⟩
  obtain ⟨h, l, c, eh, el, ec, e⟩ := Volatility.trueRange_items e (getElem?_of_lt hi)
  rw [e, trAt, show 1 + i = i + 1 by omega, show i + 1 - 1 = i by omega]
  have h1 := is_bar fh eh
  have h2 := is_bar fl el
  have h3 := is_bar fc ec
  refine (is_fmax (is_fmax (is_sub h1 h2) (is_abs (is_sub h1 h3))) (is_abs (is_sub h2 h3))).congr ?_
  rw [trueRangeOf, max_assoc]

end Traquer

namespace Traquer.Momentum
open FP FloatLit
open Traquer.Trend (is_bar)
open Traquer.Smooth (ema1 ema2 ema3 ewma_next)

/-- C68: `cfo` is the distance, in percent of the price, of the price from the value at the same bar of the least squares line through
the window. -/
theorem cfo_reports (data : List XF) (w : ℕ) (hw : 2 ≤ w) (hn : w ≤ data.length + 1) (hd : Fins data) :
    ∃ a b : ℕ → ℝ, ReportsP data.length (w - 1) (fun i => QuotIs (100 * (bar (vals data) i - (a i + b i * w))) (bar (vals data) i))
        (cfo data w) ∧
      ∀ i, w ≤ i + 1 → i < data.length → ∀ a' b',
        Smooth.lineError (a i) (b i) (recent (vals data) w i) ≤ Smooth.lineError a' b' (recent (vals data) w i) := by
  obtain ⟨a, b, h1, h2⟩ := Smooth.lrf_least_squares data w hw hn hd
  refine ⟨a, b, ?_, h2⟩
  obtain ⟨m, e, r, l⟩ := h1.some
  simp only [cfo, e, Option.bind_eq_bind, Option.bind_some]
  refine reportsP_map (by simp; omega) ?_ ?_
  · rintro i ⟨x, y⟩ hi hk
    obtain ⟨h1, h2⟩ := List.getElem?_zip_eq_some.1 hi
    have := r.at_nan h1 hk
    nanp
  · rintro i ⟨x, y⟩ hi hk
    obtain ⟨h1, h2⟩ := List.getElem?_zip_eq_some.1 hi
    have h2 := is_bar hd h2
    exact quotIs (is_mul (is_lit 100) (is_sub h2 (r.at h1 hk))) h2

/-- C68: `cog` is minus the mean age of the window weighted by price, the newest bar having age 1. -/
theorem cog_reports (data : List XF) (w : ℕ) (hw : 1 ≤ w) (hn : w ≤ data.length + 1) (hd : Fins data) :
    ReportsP data.length (w - 1) (fun i => QuotIs (-((List.range w).map fun j : ℕ => bar (vals data) (i - j) * ((j : ℝ) + 1)).sum)
      (recent (vals data) w i).sum) (cog data w) := by
  run_model [cog]
  refine reportsP_windows hw hn fun i h1 h2 => ?_
  have hl : (recent data w i).length = w := recent_length h1 h2
  have key := vals_map_of (v := (recent data w i).reverse.zip ((List.range' 1 w).map fun x => (flt x : XF)))
    (f := fun (e, i) => e * i) (r := (List.range w).map fun j : ℕ => bar (vals data) (i - j) * ((j : ℝ) + 1)) (by simp [hl]) (by
      rintro j ⟨x, y⟩ hj
      obtain ⟨g1, g2⟩ := List.getElem?_zip_eq_some.1 hj
      have hjw : j < w := by simpa [hl] using (List.getElem?_eq_some_iff.1 g1).1
      refine ⟨_, by rw [List.getElem?_map, List.getElem?_range hjw]; rfl, ?_⟩
      rw [List.getElem?_reverse (by omega), hl] at g1
      have g3 : data[i - j]? = some x := by
        rw [← g1]
        show _ = ((data.drop (i + 1 - w)).take w)[w - 1 - j]?
        rw [List.getElem?_take_of_lt (by omega), List.getElem?_drop]; congr 1; omega
      rw [List.getElem?_map, List.getElem?_range' hjw] at g2
      simp only [Option.map_some, Option.some.injEq] at g2
      subst g2
      exact is_mul (is_bar hd g3) ((is_flt _).congr (by push_cast; ring)))
  have hs := key.1.fsum
  rw [key.2] at hs
  have hr := (hd.recent w i).fsum
  rw [recent_vals] at hr
  exact quotIs (is_neg hs) hr

/-- C68: `coppock` is the weighted average of the sum of two changes in percent. -/
theorem coppock_reports (data : List XF) (w short long : ℕ) (hw : 1 ≤ w) (hs : short ≤ long) (hn : long + w ≤ data.length + 1)
    (hd : Fins data) (h0 : ∀ x ∈ data, ¬ x ⇓ 0) : Reports data.length (long + (w - 1))
      (fun i => weightedMean ((List.range' 1 w).map fun i : ℕ => (i : ℝ)) (lastOf (fun x => 100 * (bar (vals data) x / bar (vals data) (x - short) +
        bar (vals data) x / bar (vals data) (x - long) - 2)) w i)) (coppock data w short long) := by
  have nz : ∀ i, i < data.length → bar (vals data) i ≠ 0 := fun i hi hz =>
    h0 _ (List.getElem_mem hi) ((is_bar hd (getElem?_of_lt hi)).congr hz)
  have ev : ∀ y ∈ (List.range data.length).drop long, (fun x => do
      let d ← data[x]?
      let i ← usub x short
      let ds ← data[i]?
      let j ← usub x long
      let dl ← data[j]?
      some (100 * (d / ds + d / dl - 2)) : ℕ → Option XF) y = some ((fun y => 100 * ((data[y]?.getD 0) / (data[y - short]?.getD 0) +
        (data[y]?.getD 0) / (data[y - long]?.getD 0) - 2)) y) := by
    intro y hy
    obtain ⟨j, hj⟩ := List.mem_iff_getElem?.1 hy
    rw [List.getElem?_drop] at hj
    obtain ⟨h1, h2⟩ := List.getElem?_eq_some_iff.1 hj
    simp only [List.getElem_range] at h2
    simp only [List.length_range] at h1
    subst h2
    have e0 := getElem?_of_lt h1
    have e1 := getElem?_of_lt (show long + j - short < data.length by omega)
    have e2 := getElem?_of_lt (show long + j - long < data.length by omega)
    simp only [e0, e1, e2, usub_of_le (show short ≤ long + j by omega), usub_of_le (show long ≤ long + j by omega),
      Option.bind_eq_bind, Option.bind_some, Option.getD_some]
  have r : Reports (data.length - long) 0 (fun i => 100 * (bar (vals data) (long + i) / bar (vals data) (long + i - short) +
        bar (vals data) (long + i) / bar (vals data) (long + i - long) - 2)) (some (((List.range data.length).drop long).map
        fun y => 100 * ((data[y]?.getD 0) / (data[y - short]?.getD 0) + (data[y]?.getD 0) / (data[y - long]?.getD 0) - 2))) := by
    refine reports_map (by simp) (fun i b _ h => by omega) fun i b hi _ => ?_
    rw [List.getElem?_drop] at hi
    obtain ⟨h1, h2⟩ := List.getElem?_eq_some_iff.1 hi
    simp only [List.getElem_range] at h2
    simp only [List.length_range] at h1
    subst h2
    have e0 := getElem?_of_lt h1
    have e1 := getElem?_of_lt (show long + i - short < data.length by omega)
    have e2 := getElem?_of_lt (show long + i - long < data.length by omega)
    rw [e0, e1, e2]
    refine is_mul (is_lit 100) (is_sub (is_add (is_div (is_bar hd e0) (is_bar hd e1) (nz _ (by omega)))
      (is_div (is_bar hd e0) (is_bar hd e2) (nz _ (by omega)))) (is_lit 2))
  obtain ⟨m, e, r', l⟩ := (Smooth.wma_after r hw (by omega)).some
  have := mapP_eq_map ev
  rw [coppock, this]
  simp only [Option.bind_eq_bind, Option.bind_some, e]
  refine ((r'.pad long).cast (by omega) (by omega)).congr fun i h1 h2 => ?_
  congr 1
  refine lastOf_congr fun j hj => ?_
  rw [show long + (i - long + 1 - w + j) = i + 1 - w + j by omega]

/-- C68: `pgo` is the distance of the close from its mean, in units of the exponential average of the true range. -/
theorem pgo_reports (high low close : List XF) (w : ℕ) (hl : low.length = high.length) (hc : close.length = high.length)
    (hw : 1 ≤ w) (hn : w + 1 ≤ high.length) (fh : Fins high) (fl : Fins low) (fc : Fins close) :
    ReportsP high.length w (fun i => QuotIs (bar (vals close) i - mean (recent (vals close) w i))
      (ewmaFrom 1 w (trAt (vals high) (vals low) (vals close)) i)) (pgo high low close w) := by
  obtain ⟨t, et, lt, rt⟩ := trueRange_values hl hc (by omega) fh fl fc
  obtain ⟨a, -, ea, ra, la⟩ := ewma_next (j := 1) (k := 0) rt hw (by omega)
  obtain ⟨m, em, rm, lm⟩ := (Smooth.sma_reports close w hw (by omega) fc).some
  rw [List.drop_zero] at ea
  simp only [pgo, et, ea, em, Option.bind_eq_bind, Option.bind_some]
  refine reportsP_map (by simp; omega) ?_ ?_
  · rintro i ⟨x, y, z⟩ hi hk
    rw [zip3_getElem?] at hi
    have := ra.at_nan (x := z) hi.2.2 (by omega)
    nanp
  · rintro i ⟨x, y, z⟩ hi hk
    rw [zip3_getElem?] at hi
    exact quotIs (is_sub (is_bar fc hi.1) (rm.at hi.2.1 (by omega))) (ra.at (x := z) hi.2.2 (by omega))

end Traquer.Momentum

namespace Traquer
open FP FloatLit
open Traquer.Trend (is_bar)

/-- The value is Wilder's average of `v` (a series of `n` bars) shifted `off` bars into the future, NaN where that is not defined. -/
def ShiftedWilder {ρ : Rounding} (n w off : ℕ) (v : ℕ → ℝ) (i : ℕ) (y : FP ρ) : Prop :=
  if off + (w - 1) ≤ i ∧ i < off + n then y ⇓ wilderFrom 0 w v (i - off) else y = FP.nan

end Traquer

namespace Traquer.Trend
open FP FloatLit

theorem alligatorLine_values (data : List XF) (w off mo : ℕ) (hw : 1 ≤ w) (hn : w ≤ data.length) (ho : off ≤ mo) (hd : Fins data) :
    ∃ m, alligatorLine data w off mo = some m ∧ m.length = data.length + mo ∧
      ∀ i y, m[i]? = some y → ShiftedWilder data.length w off (bar (vals data)) i y := by
  obtain ⟨m, em, rm, lm⟩ := (wilder_values data w hw hn hd).some
  refine ⟨nans off ++ m ++ nans (mo - off), by simp only [alligatorLine, em, usub_of_le ho, Option.bind_eq_bind, Option.bind_some],
    by simp; omega, ?_⟩
  intro i y hy
  rw [ShiftedWilder]
  by_cases h1 : i < off + data.length
  · rw [List.getElem?_append_left (by simp; omega)] at hy
    have r' := rm.pad off
    by_cases h2 : off + (w - 1) ≤ i
    · rw [if_pos ⟨h2, h1⟩]
      exact r'.at hy h2
    · rw [if_neg (by omega), ← isNaN_iff]
      exact r'.at_nan hy (by omega)
  · rw [if_neg (by omega)]
    rw [List.getElem?_append_right (by simp; omega), nans, List.getElem?_replicate] at hy
    split at hy
    · exact (Option.some.inj hy).symm
    · cases hy

/-- C58: the three lines of `alligator` are Wilder averages shifted into the future, with NaN before the start and after the end of each. -/
theorem alligator_items (data : List XF) (jw jo tw tf lw lo : ℕ) (h1 : 1 ≤ jw) (h2 : 1 ≤ tw) (h3 : 1 ≤ lw) (n1 : jw ≤ data.length)
    (n2 : tw ≤ data.length) (n3 : lw ≤ data.length) (hd : Fins data) :
    Items (data.length + max (max jo tf) lo) 0 (fun i y => ShiftedWilder data.length jw jo (bar (vals data)) i y.1 ∧
      ShiftedWilder data.length tw tf (bar (vals data)) i y.2.1 ∧ ShiftedWilder data.length lw lo (bar (vals data)) i y.2.2)
      (alligator data jw jo tw tf lw lo) := by
  obtain ⟨m1, e1, l1, r1⟩ := alligatorLine_values data jw jo (max (max jo tf) lo) h1 n1 (by omega) hd
  obtain ⟨m2, e2, l2, r2⟩ := alligatorLine_values data tw tf (max (max jo tf) lo) h2 n2 (by omega) hd
  obtain ⟨m3, e3, l3, r3⟩ := alligatorLine_values data lw lo (max (max jo tf) lo) h3 n3 (by omega) hd
  simp only [alligator, e1, e2, e3, Option.bind_eq_bind, Option.bind_some]
  refine ⟨_, rfl, by simp; omega, ?_⟩
  rintro i ⟨x, y, z⟩ - hi
  rw [zip3_getElem?] at hi
  exact ⟨r1 i x hi.1, r2 i y hi.2.1, r3 i z hi.2.2⟩

end Traquer.Trend

namespace Traquer
open FP FloatLit

/-- The absolute distance of two shifted averages. -/
theorem shifted_dist {n w w' o o' : ℕ} {v : ℕ → ℝ} {i : ℕ} {x y : XF} (hx : ShiftedWilder n w o v i x) (hy : ShiftedWilder n w' o' v i y) :
    if (o + (w - 1) ≤ i ∧ i < o + n) ∧ (o' + (w' - 1) ≤ i ∧ i < o' + n) then
      fabs (x - y) ⇓ |wilderFrom 0 w v (i - o) - wilderFrom 0 w' v (i - o')| else fabs (x - y) = FP.nan := by
  rw [ShiftedWilder] at hx hy
  by_cases h1 : o + (w - 1) ≤ i ∧ i < o + n
  · by_cases h2 : o' + (w' - 1) ≤ i ∧ i < o' + n
    · rw [if_pos h1] at hx
      rw [if_pos h2] at hy
      rw [if_pos ⟨h1, h2⟩]
      exact is_abs (is_sub hx hy)
    · rw [if_neg (fun h => h2 h.2), ← isNaN_iff]
      rw [if_neg h2, ← isNaN_iff] at hy
      nanp
  · rw [if_neg (fun h => h1 h.1), ← isNaN_iff]
    rw [if_neg h1, ← isNaN_iff] at hx
    nanp

end Traquer

namespace Traquer.Momentum
open FP FloatLit

/-- C58: the two lines of `gator` are the distances between jaw and teeth and between teeth and lips of `alligator` at the same bar, NaN
where one of the two is not defined. -/
theorem gator_items (data : List XF) (jw jo tw tf lw lo : ℕ) (h1 : 1 ≤ jw) (h2 : 1 ≤ tw) (h3 : 1 ≤ lw) (n1 : jw ≤ data.length)
    (n2 : tw ≤ data.length) (n3 : lw ≤ data.length) (hd : Fins data) :
    Items (data.length + max (max jo tf) lo) 0 (fun i y =>
      (if (jo + (jw - 1) ≤ i ∧ i < jo + data.length) ∧ (tf + (tw - 1) ≤ i ∧ i < tf + data.length) then
        y.1 ⇓ |wilderFrom 0 jw (bar (vals data)) (i - jo) - wilderFrom 0 tw (bar (vals data)) (i - tf)| else y.1 = FP.nan) ∧
      if (tf + (tw - 1) ≤ i ∧ i < tf + data.length) ∧ (lo + (lw - 1) ≤ i ∧ i < lo + data.length) then
        y.2 ⇓ |wilderFrom 0 tw (bar (vals data)) (i - tf) - wilderFrom 0 lw (bar (vals data)) (i - lo)| else y.2 = FP.nan)
      (gator data jw jo tw tf lw lo) := by
  obtain ⟨out, e, l, h⟩ := Trend.alligator_items data jw jo tw tf lw lo h1 h2 h3 n1 n2 n3 hd
  simp only [gator, e, Option.bind_eq_bind, Option.bind_some]
  refine ⟨_, rfl, by simpa using l, fun i y hi hy => ?_⟩
  rw [List.getElem?_map] at hy
  obtain ⟨⟨a, b, c⟩, hz, rfl⟩ := Option.map_eq_some_iff.1 hy
  obtain ⟨g1, g2, g3⟩ := h i _ hi hz
  exact ⟨shifted_dist g1 g2, shifted_dist g2 g3⟩

end Traquer.Momentum

namespace Traquer.Correlation
open FP FloatLit
open Traquer.Trend (is_bar)

/-- C58: `rsc` is the quotient of the two series at every bar. -/
theorem rsc_reports (a b : List XF) (hb : b.length = a.length) (fa : Fins a) (fb : Fins b) :
    ReportsP a.length 0 (fun i => QuotIs (bar (vals a) i) (bar (vals b) i)) (some (rsc a b)) := by
  refine reportsP_map (by simp [hb]) (fun i b _ h => by omega) ?_
  rintro i ⟨x, y⟩ hi -
  obtain ⟨h1, h2⟩ := List.getElem?_zip_eq_some.1 hi
  exact quotIs (is_bar fa h1) (is_bar fb h2)

/-- C58: `perf` is the quotient of the two series, each relative to its own mean, for positive series. -/
theorem perf_reports (a b : List XF) (w : ℕ) (hb : b.length = a.length) (hw : 1 ≤ w) (hn : w ≤ a.length + 1) (fa : Fins a) (fb : Fins b)
    (pa : ∀ x ∈ vals a, 0 < x) (pb : ∀ x ∈ vals b, 0 < x) :
    Reports a.length (w - 1) (fun i => (bar (vals a) i / mean (recent (vals a) w i)) / (bar (vals b) i / mean (recent (vals b) w i)))
      (perf a b w) := by
  have mpos : ∀ (l : List XF) i, (∀ x ∈ vals l, 0 < x) → w ≤ i + 1 → i < l.length → 0 < mean (recent (vals l) w i) := by
    intro l i h h1 h2
    have hl : (recent (vals l) w i).length = w := recent_length h1 (by simpa using h2)
    have hne : recent (vals l) w i ≠ [] := List.ne_nil_of_length_pos (by omega)
    have := maxOf_mem hne
    have : 0 < (recent (vals l) w i).sum := List.sum_pos _ (fun x hx => h x (List.mem_of_mem_drop (List.mem_of_mem_take hx))) hne
    exact div_pos this (by rw [hl]; exact_mod_cast hw)
  obtain ⟨m1, e1, r1, l1⟩ := (Smooth.sma_reports a w hw (by omega) fa).some
  obtain ⟨m2, e2, r2, l2⟩ := (Smooth.sma_reports b w hw (by omega) fb).some
  simp only [perf, e1, e2, Option.bind_eq_bind, Option.bind_some]
  refine reports_map (by simp; omega) ?_ ?_
  · rintro i ⟨x, y, z, u⟩ hi hk
    rw [zip4_getElem?] at hi
    have := r1.at_nan hi.2.2.1 hk
    nanp
  · rintro i ⟨x, y, z, u⟩ hi hk
    rw [zip4_getElem?] at hi
    have hin := (List.getElem?_eq_some_iff.1 hi.1).1
    have p1 := mpos a i pa (by omega) hin
    have p2 := mpos b i pb (by omega) (by omega)
    have hby : bar (vals b) i ≠ 0 := by
      have := some_bar (l := vals b) (i := i) (by simp; omega)
      exact (pb _ (List.mem_of_getElem? this)).ne'
    refine (is_mul (is_div (is_bar fa hi.1) (is_bar fb hi.2.1) hby) (is_div (r2.at hi.2.2.2 hk) (r1.at hi.2.2.1 hk) p1.ne')).congr ?_
    field_simp

end Traquer.Correlation

/-! ## The hypotheses can be met, and the values are the expected ones -/

namespace Traquer.Momentum
open FP

/-- Series used below. -/
noncomputable abbrev hi4 : List XF := [3, 5, 4, 6].map fin
/-- Series used below. -/
noncomputable abbrev lo4 : List XF := [1, 2, 3, 3].map fin
/-- Series used below. -/
noncomputable abbrev cl4 : List XF := [2, 5, 3, 4].map fin

example : ValueAt (macd cl4 1 2) 2 (-1 / 6) :=
  (macd_reports cl4 1 2 (by decide) (by decide) (by simp) (fins_map_fin _)).value 2 (by decide) (by simp)
    (by rw [vals_map_fin]; norm_num [ewmaFrom, lastOf, mean, bar, List.range_succ])
example : ValueAt (apo cl4 1 2) 2 (-1 / 6) :=
  (apo_reports cl4 1 2 (by decide) (by decide) (by simp) (fins_map_fin _)).value 2 (by decide) (by simp)
    (by rw [vals_map_fin]; norm_num [ewmaFrom, lastOf, mean, bar, List.range_succ])
example : ValueAt (ppo cl4 1 2) 1 (300 / 7) :=
  (ppo_reports cl4 1 2 (by decide) (by decide) (by simp) (fins_map_fin _)).quot 1 (by decide) (by simp)
    (by rw [vals_map_fin]; norm_num [ewmaFrom, lastOf, mean, bar, List.range_succ])
    (by rw [vals_map_fin]; norm_num [ewmaFrom, lastOf, mean, bar, List.range_succ])
/-- The change reported for window 2 is the one since the previous bar. -/
example : ValueAt (roc cl4 2) 1 150 :=
  (roc_reports cl4 2 (by decide) (by simp) (fins_map_fin _)).quot 1 (by decide) (by simp)
    (by rw [vals_map_fin]; norm_num [bar]) (by rw [vals_map_fin]; norm_num [bar])
example : ValueAt (disparity cl4 2) 1 (300 / 7) :=
  (disparity_reports cl4 2 (by decide) (by simp) (fins_map_fin _)).quot 1 (by decide) (by simp)
    (by rw [vals_map_fin]; norm_num [ewmaFrom, lastOf, mean, bar, List.range_succ])
    (by rw [vals_map_fin]; norm_num [ewmaFrom, lastOf, mean, bar, List.range_succ])
example : ValueAt (qstick lo4 cl4 2) 1 2 :=
  (qstick_reports lo4 cl4 2 rfl (by decide) (by simp) (fins_map_fin _) (fins_map_fin _)).value 1 (by decide) (by simp)
    (by rw [vals_map_fin, vals_map_fin]; norm_num [ewmaFrom, lastOf, mean, bar, List.range_succ])
example : ValueAt (bal_power lo4 hi4 lo4 cl4 2) 1 (3 / 4) :=
  (bal_power_reports lo4 hi4 lo4 cl4 2 rfl rfl rfl (by decide) (by simp) (fins_map_fin _) (fins_map_fin _) (fins_map_fin _)
    (fins_map_fin _) (by
      intro i hi
      rw [vals_map_fin, vals_map_fin]
      rcases i with _ | _ | _ | _ | i
      · norm_num [bar]
      · norm_num [bar]
      · norm_num [bar]
      · norm_num [bar]
      · exact absurd hi (by simp))).value 1 (by decide) (by simp)
    (by simp only [vals_map_fin]; norm_num [ewmaFrom, lastOf, mean, bar, List.range_succ])
example :=
  elder_ray_items hi4 lo4 cl4 2 rfl rfl (by decide) (by simp) (fins_map_fin _) (fins_map_fin _) (fins_map_fin _)
example : ValueAt (trix cl4 1) 1 150 :=
  (trix_reports cl4 1 (by decide) (by simp) (fins_map_fin _)).quot 1 (by decide) (by simp)
    (by rw [vals_map_fin]; norm_num [ewmaFrom, lastOf, mean, bar, List.range_succ])
    (by rw [vals_map_fin]; norm_num [ewmaFrom, lastOf, mean, bar, List.range_succ])
example : ValueAt (pmo cl4 1 2) 2 550 :=
  (pmo_reports cl4 1 2 (by decide) (by decide) (by simp) (fins_map_fin _) (nonzero_map_fin (by simp))).value 2 (by decide) (by simp)
    (by rw [vals_map_fin]; norm_num [ewmaFrom, lastOf, mean, bar, List.range_succ])
example := cfo_reports cl4 2 (by decide) (by simp) (fins_map_fin _)
example : ValueAt (cog cl4 2) 1 (-9 / 7) :=
  (cog_reports cl4 2 (by decide) (by simp) (fins_map_fin _)).quot 1 (by decide) (by simp)
    (by rw [vals_map_fin]; norm_num [recent, bar, List.range_succ])
    (by rw [vals_map_fin]; norm_num [recent, bar, List.range_succ])
example : ValueAt (coppock cl4 2 1 2) 3 (100 * ((1 * (3 / 5 + 3 / 2 - 2) + 2 * (4 / 3 + 4 / 5 - 2)) / 3)) :=
  (coppock_reports cl4 2 1 2 (by decide) (by decide) (by simp) (fins_map_fin _) (nonzero_map_fin (by simp))).value 3 (by decide) (by simp)
    (by rw [vals_map_fin]; norm_num [weightedMean, lastOf, bar, List.range_succ, List.range'])
example : ValueAt (pgo hi4 lo4 cl4 2) 2 (-1 / (5 / 2)) :=
  (pgo_reports hi4 lo4 cl4 2 rfl rfl (by decide) (by simp) (fins_map_fin _) (fins_map_fin _) (fins_map_fin _)).quot 2 (by decide) (by simp)
    (by simp only [vals_map_fin]; norm_num [ewmaFrom, lastOf, mean, recent, bar, trAt, trueRangeOf, List.range_succ])
    (by simp only [vals_map_fin]; norm_num [ewmaFrom, lastOf, mean, recent, bar, trAt, trueRangeOf, List.range_succ])
example :=
  gator_items cl4 3 3 2 2 1 1 (by decide) (by decide) (by decide) (by simp) (by simp) (by simp) (fins_map_fin _)

end Traquer.Momentum

namespace Traquer.Correlation
open FP
open Traquer.Momentum (hi4 lo4 cl4)

example : ValueAt (some (rsc hi4 lo4)) 1 (5 / 2) :=
  (rsc_reports hi4 lo4 rfl (fins_map_fin _) (fins_map_fin _)).quot 1 (by decide) (by simp)
    (by simp only [vals_map_fin]; norm_num [bar]) (by simp only [vals_map_fin]; norm_num [bar])
example : ValueAt (perf hi4 lo4 2) 1 (15 / 16) :=
  (perf_reports hi4 lo4 2 rfl (by decide) (by simp) (fins_map_fin _) (fins_map_fin _) (by simp) (by simp)).value 1 (by decide) (by simp)
    (by simp only [vals_map_fin]; norm_num [mean, recent, bar])

end Traquer.Correlation
