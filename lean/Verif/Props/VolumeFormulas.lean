import Verif.Props.MoneyFlow
import Verif.Props.MomentumFormulas
import Verif.Props.Accumulate
/-!
# C72: volume indicators compute their published formulas
-/

namespace Traquer.Volume
open FP FloatLit
open Traquer.Trend (is_bar)

theorem reports_nansP {n k : ℕ} {v : ℕ → ℝ} {r : List XF} (hn : k + r.length = n) (h : ∀ i y, r[i]? = some y → y ⇓ v (k + i)) :
    Reports n k v (some (nans k ++ r)) :=
  reportsP_nans (P := fun i y => y ⇓ v i) hn h

/-! ## elder_force -/

/-- C72: `elder_force` is the exponential average of the price change times the volume, started with the first change. -/
theorem elder_force_reports (close volume : List XF) (w : ℕ) (hv : volume.length = close.length) (hw : 1 ≤ w) (hn : w < close.length)
    (fc : Fins close) (fv : Fins volume) : Reports close.length w
      (ewmaFrom 1 w fun j => (bar (vals close) j - bar (vals close) (j - 1)) * bar (vals volume) j) (elder_force close volume w) := by
  have r : Reports close.length 1 (fun j => (bar (vals close) j - bar (vals close) (j - 1)) * bar (vals volume) j)
      (some (nans 1 ++ (zip3 (close.take (close.length - 1)) (close.drop 1) (volume.drop 1)).map
        fun (prev, curr, vol) => (curr - prev) * vol)) := by
    refine reports_nansP (by simp; omega) fun i y hy => ?_
    rw [List.getElem?_map] at hy
    obtain ⟨⟨p, c, v⟩, e, rfl⟩ := Option.map_eq_some_iff.1 hy
    obtain ⟨h1, h2, h3⟩ := zip3_getElem?.1 e
    have hi : i < close.length - 1 := by have := (List.getElem?_eq_some_iff.1 h1).1; simp at this; omega
    rw [List.getElem?_take_of_lt hi] at h1
    rw [List.getElem?_drop] at h2 h3
    simp only [Nat.add_sub_cancel_left]
    exact is_mul (is_sub (is_bar fc h2) (is_bar fc h1)) (is_bar fv h3)
  obtain ⟨m, -, em, rm, -⟩ := ewma_after r hw (by omega)
  rw [show 1 + (w - 1) = w by omega] at rm
  have e : (nans 1 ++ (zip3 (close.take (close.length - 1)) (close.drop 1) (volume.drop 1)).map
      fun ((prev, curr, vol) : XF × XF × XF) => (curr - prev) * vol).drop 1 = (zip3 (close.take (close.length - 1)) (close.drop 1)
        (volume.drop 1)).map fun ((prev, curr, vol) : XF × XF × XF) => (curr - prev) * vol := rfl
  rw [e] at em
  run_model [elder_force, em]
  exact rm

/-! ## ease -/

/-- The ease of movement of a bar: the move of the middle of the bar per volume (in units of 100 million) and range. -/
noncomputable def easeAt (high low volume : List ℝ) (j : ℕ) : ℝ :=
  ((bar high j + bar low j) / 2 - (bar high (j - 1) + bar low (j - 1)) / 2) * (bar high j - bar low j) * 100000000 / bar volume j

theorem fin_div_inf {x : XF} {a : ℝ} (hx : x ⇓ a) (s : Bool) : x / inf s ⇓ 0 := by
  rcases is_iff.1 hx with rfl | ⟨rfl, -⟩
  · simp only [div_def, FP.div]
    split
    · exact ⟨trivial, rfl⟩
    · exact ⟨trivial, rfl⟩
  · simp only [div_def, FP.div]
    split
    · exact ⟨trivial, rfl⟩
    · exact ⟨trivial, rfl⟩

/-- C72: `ease` is the mean of the ease of movement of the last `w` bars (finite bars, non-zero volumes from the second bar on). A bar
without range has ease 0. -/
theorem ease_reports (high low volume : List XF) (w : ℕ) (hl : low.length = high.length) (hv : volume.length = high.length) (hw : 1 ≤ w)
    (hn : w ≤ high.length) (fh : Fins high) (fl : Fins low) (fv : Fins volume)
    (v0 : ∀ j, 1 ≤ j → j < high.length → bar (vals volume) j ≠ 0) : Reports high.length w
      (fun i => mean (lastOf (easeAt (vals high) (vals low) (vals volume)) w i)) (ease high low volume w) := by
  obtain ⟨out, eo, -⟩ := ease_aligned high low volume w hl hv hw hn
  obtain ⟨r, er, e⟩ := Option.bind_eq_some_iff.1 eo
  obtain ⟨m, em, e⟩ := Option.bind_eq_some_iff.1 e
  have lr := mapP_length er
  rw [List.length_drop, List.length_range] at lr
  have rr : Reports (high.length - 1) 0 (fun i => easeAt (vals high) (vals low) (vals volume) (1 + i)) (some r) := by
    refine ⟨r, rfl, lr, fun i hi => by omega, fun i _ hi => ?_⟩
    obtain ⟨y, ey⟩ : ∃ y, r[i]? = some y := ⟨_, List.getElem?_eq_getElem (by omega)⟩
    refine ⟨y, ey, ?_⟩
    rw [mapP_getElem? er] at ey
    obtain ⟨j, ej, ey⟩ := Option.bind_eq_some_iff.1 ey
    rw [List.getElem?_drop] at ej
    obtain rfl := range_getElem ej
    obtain ⟨h, eh, ey⟩ := Option.bind_eq_some_iff.1 ey
    obtain ⟨l, el, ey⟩ := Option.bind_eq_some_iff.1 ey
    obtain ⟨hp, ehp, ey⟩ := Option.bind_eq_some_iff.1 ey
    obtain ⟨lp, elp, ey⟩ := Option.bind_eq_some_iff.1 ey
    obtain ⟨v, ev, ey⟩ := Option.bind_eq_some_iff.1 ey
    cases ey
    have i1 := is_bar fh eh
    have i2 := is_bar fl el
    have i3 := is_bar fh ehp
    have i4 := is_bar fl elp
    have i5 := is_bar fv ev
    have num := is_div (is_sub (is_sub (is_add i1 i2) i3) i4) (is_lit 2) (by norm_num)
    have sc := is_div i5 (is_lit 100000000) (by norm_num)
    have w0 := v0 (1 + i) (by omega) (by omega)
    by_cases h0 : bar (vals high) (1 + i) - bar (vals low) (1 + i) = 0
    · obtain ⟨s, es⟩ := (quotIs sc (is_sub i1 i2)).2.2 h0 (div_ne_zero w0 (by norm_num))
      rw [es]
      refine (fin_div_inf num s).congr ?_
      simp only [easeAt, h0]
      ring
    · refine (is_div num (is_div sc (is_sub i1 i2) h0) (div_ne_zero (div_ne_zero w0 (by norm_num)) h0)).congr ?_
      simp only [easeAt]
      rw [show (OfNat.ofNat 2 : ℝ) = 2 from rfl, show (OfNat.ofNat 100000000 : ℝ) = 100000000 from rfl]
      field_simp
      ring
  have rm := rr.sma hw (by omega)
  rw [em] at rm
  have := rm.pad 1
  cases e
  rw [eo]
  refine (this.cast (by omega) (by omega)).congr fun i hi hin => ?_
  congr 1
  exact lastOf_congr fun j hj => by congr 1; omega

/-! ## bw_mfi -/

/-- C72: `bw_mfi` is the range of the bar per million of volume. -/
theorem bw_mfi_reports (high low volume : List XF) (hl : low.length = high.length) (hv : volume.length = high.length) (fh : Fins high)
    (fl : Fins low) (fv : Fins volume) (v0 : ∀ v ∈ vals volume, v ≠ 0) : Reports high.length 0
      (fun i => (bar (vals high) i - bar (vals low) i) / bar (vals volume) i * 1000000) (some (bw_mfi high low volume)) :=
  reports_zip3 (f := fun (h, l, vol) => (h - l) / vol * powi 10 6) hl hv fun i x y z h1 h2 h3 => by
    refine (is_mul (is_div (is_sub (is_bar fh h1) (is_bar fl h2)) (is_bar fv h3) ?_) (is_powi 6 (is_lit 10))).congr (by norm_num)
    rw [bar_vals h3]
    exact v0 _ (List.mem_map_of_mem (List.mem_of_getElem? h3))

/-! ## cmf -/

/-- C72: `cmf` is the sum of the money flow of the last `w` bars over the sum of their volumes (finite bars whose high and low differ). -/
theorem cmf_reports (high low close volume : List XF) (w : ℕ) (hl : low.length = high.length) (hc : close.length = high.length)
    (hv : volume.length = high.length) (hw : 1 ≤ w) (hn : w ≤ high.length + 1) (fh : Fins high) (fl : Fins low) (fc : Fins close)
    (fv : Fins volume) (hr : ∀ j, j < high.length → bar (vals high) j ≠ bar (vals low) j) :
    ReportsP high.length (w - 1) (fun i => QuotIs (lastOf (adTerm (vals high) (vals low) (vals close) (vals volume)) w i).sum
      (lastOf (bar (vals volume)) w i).sum) (cmf high low close volume w) := by
  have rm : Reports high.length 0 (adTerm (vals high) (vals low) (vals close) (vals volume))
      (some ((zip4 high low close volume).map fun (h, l, c, vol) => vol * ((c - l) - (h - c)) / (h - l))) := by
    refine reports_map (by simp; omega) (fun i _ _ hi => by omega) fun i p hp _ => ?_
    obtain ⟨h, l, c, v⟩ := p
    obtain ⟨h1, h2, h3, h4⟩ := zip4_getElem?.1 hp
    have hi := (List.getElem?_eq_some_iff.1 h1).1
    have i1 := is_bar fh h1
    have i2 := is_bar fl h2
    have i3 := is_bar fc h3
    have i4 := is_bar fv h4
    refine (is_div (is_mul i4 (is_sub (is_sub i3 i2) (is_sub i1 i3))) (is_sub i1 i2) (sub_ne_zero.2 (hr i hi))).congr ?_
    rw [adTerm]
    ring
  have rv : Reports high.length 0 (bar (vals volume)) (some volume) := by
    rw [← hv]
    exact fv.reports.congr fun i _ _ => by rw [bar, List.getD_eq_getElem?_getD]
  obtain ⟨mf, hm⟩ : ∃ mf : List XF, (zip4 high low close volume).map (fun (h, l, c, vol) => vol * ((c - l) - (h - c)) / (h - l)) = mf :=
    ⟨_, rfl⟩
  rw [hm] at rm
  have lm := rm.length
  have e : cmf high low close volume w = some (nans (w - 1) ++ ((windowsOf w mf).zip (windowsOf w volume)).map
      fun (m, v) => fsum m / fsum v) := by
    subst hm
    run_model [cmf]
  rw [e, ← lm]
  refine reportsP_windows2 hw (by omega) (by omega) fun i h1 h2 => ?_
  obtain ⟨f1, e1⟩ := rm.recent (w := w) (i := i) (by omega) (by omega)
  obtain ⟨f2, e2⟩ := rv.recent (w := w) (i := i) (by omega) (by omega)
  rw [← e1, ← e2]
  exact quotIs f1.fsum f2.fsum

/-! ## twiggs -/

/-- Wilder's running sum of a series whose first value is at bar 1: the first `w - 1` values are added up, then each bar keeps
`(w - 1) / w` of the sum and adds its value (the values before bar `w` mean nothing). -/
noncomputable def wilderSum (w : ℕ) (v : ℕ → ℝ) : ℕ → ℝ
  | 0 => (lastOf v (w - 1) (w - 1)).sum
  | i + 1 => if i + 1 < w then (lastOf v (w - 1) (w - 1)).sum else wilderSum w v i * (w - 1) / w + v (i + 1)

theorem wilderSum_start (w : ℕ) (v : ℕ → ℝ) {i : ℕ} (h : i < w) : wilderSum w v i = (lastOf v (w - 1) (w - 1)).sum := by
  cases i with
  | zero => rfl
  | succ i => rw [wilderSum, if_pos h]

theorem wilder_sum_reports {n w : ℕ} {v : ℕ → ℝ} {m : List XF} (hm : Reports n 1 v (some (nans 1 ++ m))) (hw : 1 ≤ w) (hn : w ≤ n) :
    ∃ r, wilder_sum m w = some r ∧ Reports n w (wilderSum w v) (some (nans w ++ r)) := by
  have lm := hm.length
  have lm : m.length + 1 = n := by simp at lm; omega
  refine ⟨scanS (fun state x => state * flt (w - 1) / flt w + x) (fsum (m.take (w - 1))) (m.drop (w - 1)), by run_model [wilder_sum], ?_⟩
  have hd : ∀ {i : ℕ} {x : XF}, m[i]? = some x → x ⇓ v (i + 1) := fun {i x} hx => by
    refine hm.at (i := i + 1) ?_ (by omega)
    exact hx
  refine reports_nansP (by rw [scanS_length]; simp; omega) ?_
  have w0 : (w : ℝ) ≠ 0 := (Smooth.natCast_pos hw).ne'
  rw [scanS]
  refine fun i y hy => scan_idx (I := fun i s => s ⇓ wilderSum w v (w - 1 + i)) (P := fun i y => y ⇓ wilderSum w v (w + i)) ?_ ?_ i y hy
  · intro i s x hx hs
    rw [List.getElem?_drop] at hx
    have := is_add (is_div (is_mul hs (is_flt (w - 1))) (is_flt w) w0) (hd hx)
    have e : wilderSum w v (w - 1 + i) * ((w - 1 : ℕ) : ℝ) / (w : ℝ) + v (w - 1 + i + 1) = wilderSum w v (w - 1 + i + 1) := by
      rw [wilderSum, if_neg (by omega), Nat.cast_sub hw, Nat.cast_one]
    rw [show w - 1 + (i + 1) = w - 1 + i + 1 by omega, show w + i = w - 1 + i + 1 by omega]
    exact ⟨this.congr e, this.congr e⟩
  · rw [wilderSum_start w v (by omega)]
    have : Fins (m.take (w - 1)) ∧ vals (m.take (w - 1)) = lastOf v (w - 1) (w - 1) := by
      have := hm.recent (w := w - 1) (i := w - 1) (by omega) (by omega)
      rw [recent, show w - 1 + 1 - (w - 1) = 1 by omega] at this
      exact this
    rw [← this.2]
    exact this.1.fsum

/-- The part of the volume of a bar that Twiggs counts: the position of the close in the true range, from -1 to 1, times the volume. -/
noncomputable def twiggsTerm (high low close volume : List ℝ) (j : ℕ) : ℝ :=
  let trueHigh := max (bar high j) (bar close (j - 1))
  let trueLow := min (bar low j) (bar close (j - 1))
  bar volume j * ((bar close j - trueLow - (trueHigh - bar close j)) / (trueHigh - trueLow))

/-- C72: `twiggs` is Wilder's sum of the volume times the position of the close in the true range over Wilder's sum of the volume (finite
bars whose true range is not zero). -/
theorem twiggs_reports (high low close volume : List XF) (w : ℕ) (hl : low.length = high.length) (hc : close.length = high.length)
    (hv : volume.length = high.length) (hw : 1 ≤ w) (hn : w ≤ high.length) (fh : Fins high) (fl : Fins low) (fc : Fins close)
    (fv : Fins volume) (hr : ∀ j, 1 ≤ j → j < high.length →
      max (bar (vals high) j) (bar (vals close) (j - 1)) ≠ min (bar (vals low) j) (bar (vals close) (j - 1))) :
    ReportsP high.length w (fun i => QuotIs (wilderSum w (twiggsTerm (vals high) (vals low) (vals close) (vals volume)) i)
      (wilderSum w (bar (vals volume)) i)) (twiggs high low close volume w) := by
  obtain ⟨b, eb, lb⟩ := tailBars_yields high low close volume hl hc hv (by omega)
  have tv := tailBars_some eb
  obtain ⟨c0, e0⟩ : ∃ c0, close[0]? = some c0 := ⟨_, List.getElem?_eq_getElem (by omega)⟩
  have r1 : Reports high.length 1 (twiggsTerm (vals high) (vals low) (vals close) (vals volume)) (some (nans 1 ++ scan twiggsStep c0 b)) := by
    refine reports_nansP (by simp; omega) fun i y hy => ?_
    refine scan_idx (I := fun i s => close[i]? = some s) (P := fun i y => y ⇓ twiggsTerm (vals high) (vals low) (vals close) (vals volume) (1 + i))
      ?_ e0 i y hy
    rintro i s ⟨h, l, c, v⟩ hx hs
    rw [tv, tail_getElem?'] at hx
    obtain ⟨h1, h2, h3, h4⟩ := zip4_getElem?.1 hx
    refine ⟨h3, ?_⟩
    have hi := (List.getElem?_eq_some_iff.1 h1).1
    have i1 := is_bar fh h1
    have i2 := is_bar fl h2
    have i3 := is_bar fc h3
    have i4 := is_bar fv h4
    have i0 := is_bar fc hs
    have mx := is_fmax i1 i0
    have mn := is_fmin i2 i0
    have := hr (i + 1) (by omega) hi
    rw [Nat.add_sub_cancel] at this
    refine (is_mul i4 (is_div (is_sub (is_sub (is_mul (is_lit 2) i3) mn) mx) (is_sub mx mn) (sub_ne_zero.2 this))).congr ?_
    simp only [twiggsTerm, Nat.add_comm 1 i, Nat.add_sub_cancel]
    congr 2
    rw [show (OfNat.ofNat 2 : ℝ) = 2 from rfl]
    ring
  have r2 : Reports high.length 1 (bar (vals volume)) (some (nans 1 ++ volume.drop 1)) := by
    refine reports_nansP (by simp; omega) fun i y hy => ?_
    rw [List.getElem?_drop] at hy
    exact is_bar fv hy
  obtain ⟨m1, e1, q1⟩ := wilder_sum_reports r1 hw hn
  obtain ⟨m2, e2, q2⟩ := wilder_sum_reports r2 hw hn
  have e : twiggs high low close volume w = some (nans w ++ (m1.zip m2).map fun (range, vol) => range / vol) := by
    run_model [twiggs, eb, e0, e1, e2]
  rw [e]
  have l1 := q1.length
  have l2 := q2.length
  simp only [List.length_append, nans_length] at l1 l2
  refine reportsP_nans (by simp; omega) fun i y hy => ?_
  rw [List.getElem?_map] at hy
  obtain ⟨⟨x, z⟩, hz, rfl⟩ := Option.map_eq_some_iff.1 hy
  obtain ⟨hx, hz⟩ := List.getElem?_zip_eq_some.1 hz
  have hi := (List.getElem?_eq_some_iff.1 hx).1
  exact quotIs (q1.at (i := w + i) (by rw [List.getElem?_append_right (by simp)]; simpa using hx) (by omega))
    (q2.at (i := w + i) (by rw [List.getElem?_append_right (by simp)]; simpa using hz) (by omega))

/-! ## kvo -/

/-- The direction at a bar: down if the sum of high, low and close fell, else up (also if it is unchanged). -/
noncomputable def trendAt (high low close : List ℝ) (j : ℕ) : ℝ :=
  if bar high j + bar low j + bar close j < bar high (j - 1) + bar low (j - 1) + bar close (j - 1) then -1 else 1

/-- Klinger's cumulative movement: the ranges added up over the bars of a direction, together with the last bar before it. -/
noncomputable def cumMove (high low close : List ℝ) : ℕ → ℝ
  | 0 => 0
  | 1 => bar high 1 - bar low 1
  | j + 2 => (if trendAt high low close (j + 2) = trendAt high low close (j + 1) then cumMove high low close (j + 1)
    else bar high (j + 1) - bar low (j + 1)) + (bar high (j + 2) - bar low (j + 2))

/-- The volume force the code uses: Klinger's without the absolute value. -/
noncomputable def forceAt (high low close volume : List ℝ) (j : ℕ) : ℝ :=
  bar volume j * ((bar high j - bar low j) / cumMove high low close j - 1) * trendAt high low close j * 200

theorem cumMove_pos {high low close : List ℝ} {n : ℕ} (hr : ∀ j, 1 ≤ j → j < n → bar low j < bar high j) :
    ∀ j, 1 ≤ j → j < n → 0 < cumMove high low close j
  | 0, h, _ => by omega
  | 1, _, hn => by rw [cumMove]; linarith [hr 1 le_rfl hn]
  | j + 2, _, hn => by
    rw [cumMove]
    have h1 := cumMove_pos (close := close) hr (j + 1) (by omega) (by omega)
    have h2 := hr (j + 1) (by omega) (by omega)
    have h3 := hr (j + 2) (by omega) hn
    split <;> linarith

theorem add_ne_negz {x y : XF} {a b : ℝ} (hx : x ⇓ a) (hy : y ⇓ b) (h : x ≠ negz) : x + y ≠ negz := by
  rcases is_iff.1 hx with rfl | ⟨rfl, -⟩
  · rcases is_iff.1 hy with rfl | ⟨rfl, -⟩
    · simp [add_def, FP.add, mk_exact]
    · simp [add_def, FP.add, mk_exact]
  · exact absurd rfl h

/-- The sign of the change of the sum of high, low and close. -/
theorem trend_is {high low close : List XF} (fh : Fins high) (fl : Fins low) (fc : Fins close) (hz : ∀ x ∈ high, x ≠ negz) {j : ℕ}
    {h l c ph pl pc : XF} (h1 : high[j + 1]? = some h) (h2 : low[j + 1]? = some l) (h3 : close[j + 1]? = some c) (h4 : high[j]? = some ph)
    (h5 : low[j]? = some pl) (h6 : close[j]? = some pc) :
    signum ((h + l + c) - (ph + pl + pc)) ⇓ trendAt (vals high) (vals low) (vals close) (j + 1) := by
  have i1 := is_bar fh h1
  have i2 := is_bar fl h2
  have i3 := is_bar fc h3
  have i4 := is_bar fh h4
  have i5 := is_bar fl h5
  have i6 := is_bar fc h6
  have a := is_add i1 i2
  refine (Correlation.signum_sub (is_add a i3) (is_add (is_add i4 i5) i6)
    (.inr (add_ne_negz a i3 (add_ne_negz i1 i2 (hz _ (List.mem_of_getElem? h1)))))).congr ?_
  rw [trendAt, Nat.add_sub_cancel]

theorem trendAt_ne (high low close : List ℝ) (j : ℕ) : trendAt high low close j ≠ 0 := by
  unfold trendAt; split <;> norm_num

theorem kvo_of {n short long : ℕ} {v : ℕ → ℝ} {m : List XF} (hm : Reports n 1 v (some (nans 1 ++ m))) (hs : 1 ≤ short) (hlo : 1 ≤ long)
    (hn : max short long < n) : ∃ a b, Smooth.ewma m short = some a ∧ Smooth.ewma m long = some b ∧
      Reports n (max short long) (fun i => ewmaFrom 1 short v i - ewmaFrom 1 long v i)
        (some (FP.nan :: (a.zip b).map fun (x, y) => x - y)) := by
  obtain ⟨a, -, ea, ra, -⟩ := ewma_after hm hs (by omega)
  obtain ⟨b, -, eb, rb, -⟩ := ewma_after hm hlo (by omega)
  refine ⟨a, b, ea, eb, ?_⟩
  have := ra.zipWith rb (f := fun (x, y) => x - y) (g := fun a b => a - b) (fun x y h => by nanp) (fun x y h => by nanp)
    (fun x y a b ha hb => is_sub ha hb)
  exact this.cast rfl (by omega)

/-- C72: `kvo` without the `alt` flag, or with it, is the difference of two exponential averages of the volume, negated at the bars where
high + low + close fell (finite series, no negative zero among the highs). -/
theorem kvo_alt_reports (high low close volume : List XF) (short long : ℕ) (alt : Option Bool) (ha : alt ≠ some false)
    (hl : low.length = high.length) (hc : close.length = high.length) (hv : volume.length = high.length) (hs : 1 ≤ short) (hlo : 1 ≤ long)
    (hn : max short long < high.length) (fh : Fins high) (fl : Fins low) (fc : Fins close) (fv : Fins volume) (hz : ∀ x ∈ high, x ≠ negz) :
    Reports high.length (max short long) (fun i =>
      ewmaFrom 1 short (fun j => bar (vals volume) j * trendAt (vals high) (vals low) (vals close) j) i -
      ewmaFrom 1 long (fun j => bar (vals volume) j * trendAt (vals high) (vals low) (vals close) j) i)
      (kvo high low close volume short long alt) := by
  obtain ⟨b, eb, lb⟩ := tailBars_yields high low close volume hl hc hv (by omega)
  have tv := tailBars_some eb
  obtain ⟨h0, e1⟩ : ∃ x, high[0]? = some x := ⟨_, List.getElem?_eq_getElem (by omega)⟩
  obtain ⟨l0, e2⟩ : ∃ x, low[0]? = some x := ⟨_, List.getElem?_eq_getElem (by omega)⟩
  obtain ⟨c0, e3⟩ : ∃ x, close[0]? = some x := ⟨_, List.getElem?_eq_getElem (by omega)⟩
  obtain ⟨m, em⟩ : ∃ m, vforce_alt high low close volume = some m := ⟨_, by run_model [vforce_alt, eb, e1, e2, e3]; rfl⟩
  have em' := em
  simp only [vforce_alt, eb, e1, e2, e3, Option.bind_eq_bind, Option.bind_some, Option.some.injEq] at em'
  have r : Reports high.length 1 (fun j => bar (vals volume) j * trendAt (vals high) (vals low) (vals close) j) (some (nans 1 ++ m)) := by
    subst em'
    refine reports_nansP (by simp; omega) fun i y hy => ?_
    refine scan_idx (I := fun i s => high[i]? = some s.1 ∧ low[i]? = some s.2.1 ∧ close[i]? = some s.2.2)
      (P := fun i y => y ⇓ bar (vals volume) (1 + i) * trendAt (vals high) (vals low) (vals close) (1 + i)) ?_ ⟨e1, e2, e3⟩ i y hy
    rintro i ⟨ph, pl, pc⟩ ⟨h, l, c, v⟩ hx ⟨q1, q2, q3⟩
    rw [tv, tail_getElem?'] at hx
    obtain ⟨h1, h2, h3, h4⟩ := zip4_getElem?.1 hx
    refine ⟨⟨h1, h2, h3⟩, ?_⟩
    rw [Nat.add_comm 1 i]
    exact is_mul (is_bar fv h4) (trend_is fh fl fc hz h1 h2 h3 q1 q2 q3)
  obtain ⟨a, b, ea, eb', rab⟩ := kvo_of r hs hlo hn
  have hg : alt.getD true = true := by
    match alt, ha with
    | none, _ => rfl
    | some true, _ => rfl
    | some false, h => exact absurd rfl h
  simp only [kvo, hg, if_true, em, ea, eb', Option.bind_eq_bind, Option.bind_some]
  exact rab

/-- C72: `kvo` with `alt` switched off is the difference of two exponential averages of the volume force (finite bars with high above low,
no negative zero among the highs). -/
theorem kvo_reports (high low close volume : List XF) (short long : ℕ) (hl : low.length = high.length) (hc : close.length = high.length)
    (hv : volume.length = high.length) (hs : 1 ≤ short) (hlo : 1 ≤ long) (hn : max short long < high.length) (fh : Fins high)
    (fl : Fins low) (fc : Fins close) (fv : Fins volume) (hz : ∀ x ∈ high, x ≠ negz)
    (hr : ∀ j, 1 ≤ j → j < high.length → bar (vals low) j < bar (vals high) j) :
    Reports high.length (max short long) (fun i =>
      ewmaFrom 1 short (forceAt (vals high) (vals low) (vals close) (vals volume)) i -
      ewmaFrom 1 long (forceAt (vals high) (vals low) (vals close) (vals volume)) i)
      (kvo high low close volume short long (some false)) := by
  obtain ⟨b, eb, lb⟩ := tailBars_yields high low close volume hl hc hv (by omega)
  have tv := tailBars_some eb
  obtain ⟨h0, e1⟩ : ∃ x, high[0]? = some x := ⟨_, List.getElem?_eq_getElem (by omega)⟩
  obtain ⟨l0, e2⟩ : ∃ x, low[0]? = some x := ⟨_, List.getElem?_eq_getElem (by omega)⟩
  obtain ⟨c0, e3⟩ : ∃ x, close[0]? = some x := ⟨_, List.getElem?_eq_getElem (by omega)⟩
  obtain ⟨m, em⟩ : ∃ m, vforce high low close volume = some m := ⟨_, by run_model [vforce, eb, e1, e2, e3]; rfl⟩
  have em' := em
  simp only [vforce, eb, e1, e2, e3, Option.bind_eq_bind, Option.bind_some, Option.some.injEq] at em'
  have r : Reports high.length 1 (forceAt (vals high) (vals low) (vals close) (vals volume)) (some (nans 1 ++ m)) := by
    subst em'
    refine reports_nansP (by simp; omega) fun i y hy => ?_
    refine scan_idx (I := fun i s => high[i]? = some s.h ∧ low[i]? = some s.l ∧ close[i]? = some s.c ∧
        (s.trend ⇓ if i = 0 then 0 else trendAt (vals high) (vals low) (vals close) i) ∧
        (s.cm ⇓ cumMove (vals high) (vals low) (vals close) i) ∧ (s.dm ⇓ if i = 0 then 0 else bar (vals high) i - bar (vals low) i))
      (P := fun i y => y ⇓ forceAt (vals high) (vals low) (vals close) (vals volume) (1 + i)) ?_ ⟨e1, e2, e3, is_zero, is_zero, is_zero⟩ i y hy
    rintro i ⟨ph, pl, pc, tr, cm, dm⟩ ⟨h, l, c, v⟩ hx ⟨q1, q2, q3, q4, q5, q6⟩
    rw [tv, tail_getElem?'] at hx
    obtain ⟨h1, h2, h3, h4⟩ := zip4_getElem?.1 hx
    have hi := (List.getElem?_eq_some_iff.1 h1).1
    have ht := trend_is fh fl fc hz h1 h2 h3 q1 q2 q3
    have hd := is_sub (is_bar fh h1) (is_bar fl h2)
    dsimp only at q4 q5 q6
    have hcm : (if (signum ((h + l + c) - (ph + pl + pc)) ==. tr) = true then cm + (h - l) else dm + (h - l)) ⇓
        cumMove (vals high) (vals low) (vals close) (i + 1) := by
      rw [is_feq ht q4]
      cases i with
      | zero =>
        simp only [if_true, decide_eq_true_eq, trendAt_ne, if_false] at q6 ⊢
        exact (is_add q6 hd).congr (by rw [cumMove]; ring)
      | succ i =>
        simp only [decide_eq_true_eq, Nat.succ_ne_zero, if_false] at q6 ⊢
        rw [cumMove]
        split
        · exact is_add q5 hd
        · exact is_add q6 hd
    refine ⟨⟨h1, h2, h3, by rw [if_neg (by omega)]; exact ht, hcm, by rw [if_neg (by omega)]; exact hd⟩, ?_⟩
    rw [Nat.add_comm 1 i]
    exact is_mul (is_mul (is_mul (is_bar fv h4) (is_sub (is_div hd hcm (cumMove_pos hr (i + 1) (by omega) hi).ne') is_one)) ht) (is_lit 200)
  obtain ⟨a, b, ea, eb', rab⟩ := kvo_of r hs hlo hn
  simp only [kvo, Option.getD_some, Bool.false_eq_true, if_false, em, ea, eb', Option.bind_eq_bind, Option.bind_some]
  exact rab

/-! ## The hypotheses can be met -/

/-- Four volumes. -/
noncomputable def vo4 : List XF := ([10, 20, 40, 50] : List ℝ).map fin

open Traquer.Momentum (hi4 lo4 cl4)

example : ValueAt (elder_force cl4 vo4 1) 2 (-80) :=
  (elder_force_reports cl4 vo4 1 rfl (by decide) (by simp [cl4]) (fins_map_fin _) (fins_map_fin _)).value 2 (by decide) (by simp [cl4]) (by
    simp only [cl4, vo4, vals_map_fin]; norm_num [ewmaFrom, bar])

example : ValueAt (ease hi4 lo4 vo4 1) 1 22500000 :=
  (ease_reports hi4 lo4 vo4 1 rfl rfl (by decide) (by simp [hi4]) (fins_map_fin _) (fins_map_fin _) (fins_map_fin _) (fun j _ h2 => by
    simp only [hi4, List.length_map, List.length_cons, List.length_nil] at h2
    simp only [vo4, vals_map_fin]
    interval_cases j <;> norm_num [bar])).value 1 (by decide) (by simp [hi4]) (by
    simp only [hi4, lo4, vo4, vals_map_fin]; norm_num [lastOf, mean, easeAt, bar])

example : ValueAt (some (bw_mfi hi4 lo4 vo4)) 1 150000 :=
  (bw_mfi_reports hi4 lo4 vo4 rfl rfl (fins_map_fin _) (fins_map_fin _) (fins_map_fin _) (by simp only [vo4, vals_map_fin]; simp)).value 1
    (by decide) (by simp [hi4]) (by simp only [hi4, lo4, vo4, vals_map_fin]; norm_num [bar])

example : ValueAt (cmf hi4 lo4 cl4 vo4 2) 1 (2 / 3) :=
  (cmf_reports hi4 lo4 cl4 vo4 2 rfl rfl rfl (by decide) (by simp [hi4]) (fins_map_fin _) (fins_map_fin _) (fins_map_fin _) (fins_map_fin _)
    (fun j h2 => by
      simp only [hi4, List.length_map, List.length_cons, List.length_nil] at h2
      simp only [hi4, lo4, vals_map_fin]
      interval_cases j <;> norm_num [bar])).quot 1 (by decide) (by simp [hi4])
    (by simp only [vo4, vals_map_fin]; norm_num [lastOf, bar, List.range_succ])
    (by simp only [hi4, lo4, cl4, vo4, vals_map_fin]; norm_num [lastOf, adTerm, bar, List.range_succ])

example : ValueAt (twiggs hi4 lo4 cl4 vo4 2) 2 (-3 / 5) :=
  (twiggs_reports hi4 lo4 cl4 vo4 2 rfl rfl rfl (by decide) (by simp [hi4]) (fins_map_fin _) (fins_map_fin _) (fins_map_fin _) (fins_map_fin _)
    (fun j _ h2 => by
      simp only [hi4, List.length_map, List.length_cons, List.length_nil] at h2
      simp only [hi4, lo4, cl4, vals_map_fin]
      interval_cases j <;> norm_num [bar])).quot 2 (by decide) (by simp [hi4])
    (by simp only [vo4, vals_map_fin]; norm_num [wilderSum, lastOf, bar])
    (by simp only [hi4, lo4, cl4, vo4, vals_map_fin]; norm_num [wilderSum, lastOf, twiggsTerm, bar])

example : ValueAt (kvo hi4 lo4 cl4 vo4 1 2 none) 2 (-30) :=
  (kvo_alt_reports hi4 lo4 cl4 vo4 1 2 none (by simp) rfl rfl rfl (by decide) (by decide) (by simp [hi4]) (fins_map_fin _) (fins_map_fin _)
    (fins_map_fin _) (fins_map_fin _) (by simp [hi4])).value 2 (by decide) (by simp [hi4]) (by
    simp only [hi4, lo4, cl4, vo4, vals_map_fin]; norm_num [ewmaFrom, trendAt, lastOf, mean, bar, List.range_succ])

example : ValueAt (kvo hi4 lo4 cl4 vo4 1 2 (some false)) 2 3000 :=
  (kvo_reports hi4 lo4 cl4 vo4 1 2 rfl rfl rfl (by decide) (by decide) (by simp [hi4]) (fins_map_fin _) (fins_map_fin _)
    (fins_map_fin _) (fins_map_fin _) (by simp [hi4]) (fun j _ h2 => by
      simp only [hi4, List.length_map, List.length_cons, List.length_nil] at h2
      simp only [hi4, lo4, vals_map_fin]
      interval_cases j <;> norm_num [bar])).value 2 (by decide) (by simp [hi4]) (by
    simp only [hi4, lo4, cl4, vo4, vals_map_fin]
    norm_num [ewmaFrom, forceAt, cumMove, trendAt, lastOf, mean, bar, List.range_succ])

end Traquer.Volume
