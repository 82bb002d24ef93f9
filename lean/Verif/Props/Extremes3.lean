import Verif.Props.Extremes2
import Verif.Props.Aroon
import Verif.Props.MoneyFlow
/-!
# What an extreme reading means, concluded (C100)

Ranges of bars, money flow, and examples.
-/

namespace Traquer
open FP FloatLit

theorem maxOf_recent_eq {l : List ℝ} {w i : ℕ} (hw : 1 ≤ w) (h1 : w ≤ i + 1) (h2 : i < l.length) :
    bar l i = maxOf (recent l w i) ↔ ∀ j, i + 1 - w ≤ j → j ≤ i → bar l j ≤ bar l i := by
  rw [← lastOf_bar h1 h2]
  constructor
  · intro e j h3 h4
    rw [e]
    exact le_maxOf ((mem_lastOf h1).2 ⟨j, h3, h4, rfl⟩)
  · intro h
    refine (maxOf_eq ((mem_lastOf h1).2 ⟨i, by omega, le_rfl, rfl⟩) fun x hx => ?_).symm
    obtain ⟨j, h3, h4, rfl⟩ := (mem_lastOf h1).1 hx
    exact h j h3 h4

/-- The typical price of bar `j`. -/
noncomputable def typicalAt (high low close : List ℝ) (j : ℕ) : ℝ := (bar high j + bar low j + bar close j) / 3

section
variable {high low close volume : List ℝ} (hl : low.length = high.length) (hc : close.length = high.length) (hv : volume.length = high.length)
include hl hc hv

private theorem zip4_bar {j : ℕ} (hj : j < high.length) :
    (zip4 high low close volume)[j]? = some (bar high j, bar low j, bar close j, bar volume j) := by
  rw [zip4_getElem?]
  exact ⟨bar_getElem? hj, bar_getElem? (by omega), bar_getElem? (by omega), bar_getElem? (by omega)⟩

theorem bar_flowIn {j : ℕ} (hj : j + 1 < high.length) : bar (flowIn high low close volume) j =
    if typicalAt high low close j < typicalAt high low close (j + 1) then typicalAt high low close (j + 1) * bar volume (j + 1) else 0 := by
  refine bar_eq ?_
  rw [flowIn, List.getElem?_map, pairs_getElem?, zip4_bar hl hc hv hj, zip4_bar hl hc hv (by omega)]
  rfl

theorem bar_flowOut {j : ℕ} (hj : j + 1 < high.length) : bar (flowOut high low close volume) j =
    if typicalAt high low close (j + 1) < typicalAt high low close j then typicalAt high low close (j + 1) * bar volume (j + 1) else 0 := by
  refine bar_eq ?_
  rw [flowOut, List.getElem?_map, pairs_getElem?, zip4_bar hl hc hv hj, zip4_bar hl hc hv (by omega)]
  rfl
end

namespace Momentum
section
variable (high low close : List XF) {w i : ℕ}

/-- C100: `wpr` is 0 exactly when the close is the highest high of the window (which is not a single price). -/
theorem wpr_nought (hw : 1 ≤ w) (hh : Fins high) (hl : Fins low) (hc : Fins close) (ll : low.length = high.length) (lc : close.length = high.length)
    (h1 : w ≤ i + 1) (h2 : i < high.length) (hne : maxOf (recent (vals high) w i) ≠ minOf (recent (vals low) w i)) :
    Shows i (wpr high low close w) 0 ↔ bar (vals close) i = maxOf (recent (vals high) w i) := by
  refine (wpr_reports high low close w hw (by omega) hh hl hc ll lc).shows_iff (by omega) h2 fun y hy => ?_
  have h0 : maxOf (recent (vals high) w i) - minOf (recent (vals low) w i) ≠ 0 := sub_ne_zero.2 hne
  rw [is_iff_eq (hy _ (bar_getElem? (by rw [vals_length]; omega)) hne), mul_eq_zero, or_iff_right (by norm_num), div_eq_zero_iff, or_iff_left h0, sub_eq_zero]
  exact eq_comm

/-- C100: `wpr` is -100 exactly when the close is the lowest low of the window (which is not a single price). -/
theorem wpr_minus_hundred (hw : 1 ≤ w) (hh : Fins high) (hl : Fins low) (hc : Fins close) (ll : low.length = high.length)
    (lc : close.length = high.length) (h1 : w ≤ i + 1) (h2 : i < high.length) (hne : maxOf (recent (vals high) w i) ≠ minOf (recent (vals low) w i)) :
    Shows i (wpr high low close w) (-100) ↔ bar (vals close) i = minOf (recent (vals low) w i) := by
  refine (wpr_reports high low close w hw (by omega) hh hl hc ll lc).shows_iff (by omega) h2 fun y hy => ?_
  have h0 : maxOf (recent (vals high) w i) - minOf (recent (vals low) w i) ≠ 0 := sub_ne_zero.2 hne
  rw [is_iff_eq (hy _ (bar_getElem? (by rw [vals_length]; omega)) hne), show ((-100 : ℝ) * _ = -100 ↔ _ = (1 : ℝ)) from
    ⟨fun h => by linarith, fun h => by linarith⟩, div_eq_one_iff_eq h0]
  constructor <;> intro h <;> linarith

/-- C100: the first line of `stochastic` is 100 exactly when each of the last three closes is the highest high of its window, for bars whose
close does not exceed their high. -/
theorem stochastic_hundred (hw : 1 ≤ w) (hn : w + 3 ≤ high.length) (hh : Fins high) (hl : Fins low) (hc : Fins close) (ll : low.length = high.length)
    (lc : close.length = high.length) (hne : ∀ j, w ≤ j + 1 → j < high.length → minOf (recent (vals low) w j) < maxOf (recent (vals high) w j))
    (hs : ∀ j, j < high.length → bar (vals close) j ≤ bar (vals high) j) (h1 : w + 1 ≤ i) (h2 : i < high.length) :
    Shows i ((stochastic high low close w).map fun out => out.map Prod.fst) 100 ↔
      ∀ j, i - 2 ≤ j → j ≤ i → bar (vals close) j = maxOf (recent (vals high) w j) := by
  obtain ⟨out, e, hk, -⟩ := stochastic_reports high low close w hw hn hh hl hc ll lc fun j h1 h2 => (hne j h1 h2).ne'
  rw [e, Option.map_some, hk.shows_iff h1 h2]
  have raw : ∀ j, rawK (vals high) (vals low) (vals close) w j =
      100 * (bar (vals close) j - minOf (recent (vals low) w j)) / (maxOf (recent (vals high) w j) - minOf (recent (vals low) w j)) := fun j => by
    rw [rawK, bar, List.getD_eq_getElem?_getD]
  have top : ∀ j, i - 2 ≤ j → j ≤ i → bar (vals close) j ≤ maxOf (recent (vals high) w j) := fun j h3 h4 => by
    refine (hs j (by omega)).trans ?_
    rw [← lastOf_bar (by omega) (by rw [vals_length]; omega)]
    exact le_maxOf ((mem_lastOf (by omega)).2 ⟨j, by omega, le_rfl, rfl⟩)
  rw [mean_lastOf_top (by norm_num) (by omega) fun j h3 h4 => by
    have := hne j (by omega) (by omega)
    rw [raw, div_le_iff₀ (by linarith)]
    nlinarith [top j (by omega) h4]]
  constructor
  · intro h j h3 h4
    have h5 := h j (by omega) h4
    have := hne j (by omega) (by omega)
    rw [raw, div_eq_iff (by linarith)] at h5
    linarith
  · intro h j h3 h4
    have := hne j (by omega) (by omega)
    rw [raw, h j (by omega) h4, mul_div_assoc, div_self (by linarith), mul_one]
end

end Momentum

namespace Trend
section
variable (high low : List XF) {w i : ℕ}

private theorem aroon_value {w a : ℕ} (hw : 1 ≤ w) (ha : a ≤ w) : (flt (w - a) / flt w * 100 : XF) ⇓ ((w : ℝ) - a) / w * 100 := by
  have := is_mul (is_div (is_flt (w - a)) (is_flt w) (by positivity)) (is_lit 100)
  rwa [Nat.cast_sub ha] at this

private theorem aroon_eq_iff {w a : ℕ} (hw : 1 ≤ w) :
    (((w : ℝ) - a) / w * 100 = 100 ↔ a = 0) ∧ (((w : ℝ) - a) / w * 100 = 0 ↔ a = w) := by
  have hp : (w : ℝ) ≠ 0 := by positivity
  constructor
  · rw [show ((_ : ℝ) * 100 = 100 ↔ _ = (1 : ℝ)) from ⟨fun h => by linarith, fun h => by linarith⟩, div_eq_one_iff_eq hp]
    constructor
    · intro h
      have : (a : ℝ) = 0 := by linarith
      exact_mod_cast this
    · rintro rfl; simp
  · rw [mul_eq_zero, or_iff_left (by norm_num), div_eq_zero_iff, or_iff_left hp, sub_eq_zero, Nat.cast_inj]
    exact eq_comm

private theorem since_high {l : List ℝ} {w i a : ℕ} (h1 : w ≤ i) (h2 : i < l.length) (h : BarsSinceHigh l w i a) :
    (a = 0 ↔ ∀ j, i - w ≤ j → j ≤ i → bar l j ≤ bar l i) ∧ (a = w ↔ ∀ j, i - w < j → j ≤ i → bar l j < bar l (i - w)) := by
  obtain ⟨ha, m, em, hmax, hlt⟩ := h
  have em' := bar_eq em
  constructor
  · constructor
    · rintro rfl j h3 h4
      rw [Nat.sub_zero] at em'
      rw [em']
      exact hmax j _ h3 h4 (bar_getElem? (by omega))
    · intro h
      by_contra hc
      have h5 := hlt i _ (by omega) le_rfl (bar_getElem? h2)
      have h6 := h (i - a) (by omega) (by omega)
      linarith
  · constructor
    · rintro rfl j h3 h4
      rw [em']
      exact hlt j _ h3 h4 (bar_getElem? (by omega))
    · intro h
      by_contra hc
      have h5 := hmax (i - w) _ le_rfl (by omega) (bar_getElem? (by omega))
      have h6 := h (i - a) (by omega) (by omega)
      linarith

private theorem since_low {l : List ℝ} {w i a : ℕ} (h1 : w ≤ i) (h2 : i < l.length) (h : BarsSinceLow l w i a) :
    (a = 0 ↔ ∀ j, i - w ≤ j → j ≤ i → bar l i ≤ bar l j) ∧ (a = w ↔ ∀ j, i - w < j → j ≤ i → bar l (i - w) < bar l j) := by
  obtain ⟨ha, m, em, hmax, hlt⟩ := h
  have em' := bar_eq em
  constructor
  · constructor
    · rintro rfl j h3 h4
      rw [Nat.sub_zero] at em'
      rw [em']
      exact hmax j _ h3 h4 (bar_getElem? (by omega))
    · intro h
      by_contra hc
      have h5 := hlt i _ (by omega) le_rfl (bar_getElem? h2)
      have h6 := h (i - a) (by omega) (by omega)
      linarith
  · constructor
    · rintro rfl j h3 h4
      rw [em']
      exact hlt j _ h3 h4 (bar_getElem? (by omega))
    · intro h
      by_contra hc
      have h5 := hmax (i - w) _ le_rfl (by omega) (bar_getElem? (by omega))
      have h6 := h (i - a) (by omega) (by omega)
      linarith

/-- C100: the first line of `aroon` is 100 exactly when no high of the last `w + 1` bars exceeds the newest one, and 0 exactly when all highs after
the oldest of these bars are below its high. -/
theorem aroon_up_ends (hw : 1 ≤ w) (hl : low.length = high.length) (fh : Fins high) (fl : Fins low) (h1 : w ≤ i) (h2 : i < high.length) :
    (Shows i ((aroon high low w).map fun out => out.map Prod.fst) 100 ↔ ∀ j, i - w ≤ j → j ≤ i → bar (vals high) j ≤ bar (vals high) i) ∧
    (Shows i ((aroon high low w).map fun out => out.map Prod.fst) 0 ↔ ∀ j, i - w < j → j ≤ i → bar (vals high) j < bar (vals high) (i - w)) := by
  obtain ⟨out, e, hlen, ho⟩ := aroon_items high low w (by omega) hl fh fl
  have hy := List.getElem?_eq_getElem (l := out) (i := i) (by omega)
  obtain ⟨a, b, ha, -, hp⟩ := ho i _ h1 hy
  have hs : Shows i ((aroon high low w).map fun out => out.map Prod.fst) (((w : ℝ) - a) / w * 100) :=
    ⟨_, _, by rw [e, Option.map_some], by rw [List.getElem?_map, hy, Option.map_some], by rw [hp]; exact aroon_value hw ha.1⟩
  obtain ⟨s1, s2⟩ := since_high h1 (by rw [vals_length]; exact h2) ha
  obtain ⟨q1, q2⟩ := aroon_eq_iff (a := a) hw
  rw [← s1, ← s2, ← q1, ← q2]
  exact ⟨⟨fun h => hs.unique h, fun h => hs.congr h⟩, ⟨fun h => hs.unique h, fun h => hs.congr h⟩⟩

/-- C100: the second line of `aroon` is 100 exactly when no low of the last `w + 1` bars is below the newest one, and 0 exactly when all lows after
the oldest of these bars are above its low. -/
theorem aroon_down_ends (hw : 1 ≤ w) (hl : low.length = high.length) (fh : Fins high) (fl : Fins low) (h1 : w ≤ i) (h2 : i < high.length) :
    (Shows i ((aroon high low w).map fun out => out.map Prod.snd) 100 ↔ ∀ j, i - w ≤ j → j ≤ i → bar (vals low) i ≤ bar (vals low) j) ∧
    (Shows i ((aroon high low w).map fun out => out.map Prod.snd) 0 ↔ ∀ j, i - w < j → j ≤ i → bar (vals low) (i - w) < bar (vals low) j) := by
  obtain ⟨out, e, hlen, ho⟩ := aroon_items high low w (by omega) hl fh fl
  have hy := List.getElem?_eq_getElem (l := out) (i := i) (by omega)
  obtain ⟨a, b, -, hb, hp⟩ := ho i _ h1 hy
  have hs : Shows i ((aroon high low w).map fun out => out.map Prod.snd) (((w : ℝ) - b) / w * 100) :=
    ⟨_, _, by rw [e, Option.map_some], by rw [List.getElem?_map, hy, Option.map_some], by rw [hp]; exact aroon_value hw hb.1⟩
  obtain ⟨s1, s2⟩ := since_low h1 (by rw [vals_length]; omega) hb
  obtain ⟨q1, q2⟩ := aroon_eq_iff (a := b) hw
  rw [← s1, ← s2, ← q1, ← q2]
  exact ⟨⟨fun h => hs.unique h, fun h => hs.congr h⟩, ⟨fun h => hs.unique h, fun h => hs.congr h⟩⟩

/-- C100: `ulcer` is 0 exactly when each of the last `w` prices is the highest of its own window. -/
theorem ulcer_nought (data : List XF) {w i : ℕ} (hw : 1 ≤ w) (hd : Fins data)
    (h0 : ∀ i, w ≤ i + 1 → i < data.length → maxOf (recent (vals data) w i) ≠ 0) (h1 : 2 * (w - 1) ≤ i) (h2 : i < data.length) :
    Shows i (ulcer data w) 0 ↔ ∀ j, i + 1 - w ≤ j → j ≤ i → ∀ k, j + 1 - w ≤ k → k ≤ j → bar (vals data) k ≤ bar (vals data) j := by
  have hwi : w ≤ i + 1 := by omega
  have hnn : ∀ j, i + 1 - w ≤ j → j ≤ i → 0 ≤ drawdown (vals data) w j ^ 2 := fun j _ _ => sq_nonneg _
  rw [(ulcer_reports data w hw (by omega) hd h0).shows_iff h1 h2, Real.sqrt_eq_zero (mean_nonneg fun x hx => by
    obtain ⟨j, -, -, rfl⟩ := (mem_lastOf hwi).1 hx; exact sq_nonneg _), mean_lastOf_bottom hw hwi hnn]
  refine forall_congr' fun j => forall_congr' fun h3 => forall_congr' fun h4 => ?_
  rw [← maxOf_recent_eq hw (by omega) (by rw [vals_length]; omega), pow_eq_zero_iff two_ne_zero, drawdown, div_eq_zero_iff,
    or_iff_left (h0 j (by omega) (by omega)), mul_eq_zero, or_iff_right (by norm_num), sub_eq_zero]
end
end Trend

namespace Volume
section
variable (high low close volume : List XF) {w i : ℕ}

private theorem flow_parts (hl : low.length = high.length) (hc : close.length = high.length) (hv : volume.length = high.length)
    (hp : ∀ j, j < high.length → 0 < typicalAt (vals high) (vals low) (vals close) j) (hv' : ∀ j, j < high.length → 0 < bar (vals volume) j)
    (h1 : w ≤ i) (h2 : i < high.length) :
    ((recent (flowIn (vals high) (vals low) (vals close) (vals volume)) w (i - 1)).sum = 0 ↔
      NeverRises (typicalAt (vals high) (vals low) (vals close)) (i - w) i) ∧
    ((recent (flowOut (vals high) (vals low) (vals close) (vals volume)) w (i - 1)).sum = 0 ↔
      NeverFalls (typicalAt (vals high) (vals low) (vals close)) (i - w) i) := by
  rcases Nat.eq_zero_or_pos w with rfl | hw
  · refine ⟨iff_of_true (by simp [recent]) fun j h3 h4 => by omega, iff_of_true (by simp [recent]) fun j h3 h4 => by omega⟩
  have vl : ∀ l : List XF, (vals l).length = l.length := fun l => vals_length l
  have li : (flowIn (vals high) (vals low) (vals close) (vals volume)).length = high.length - 1 := by simp [flowIn, vl]; omega
  have lo : (flowOut (vals high) (vals low) (vals close) (vals volume)).length = high.length - 1 := by simp [flowOut, vl]; omega
  have bi := fun {j : ℕ} (hj : j + 1 < high.length) => bar_flowIn (high := vals high) (low := vals low) (close := vals close) (volume := vals volume)
    (by simp only [vl]; omega) (by simp only [vl]; omega) (by simp only [vl]; omega) (j := j) (by rw [vl]; exact hj)
  have bo := fun {j : ℕ} (hj : j + 1 < high.length) => bar_flowOut (high := vals high) (low := vals low) (close := vals close) (volume := vals volume)
    (by simp only [vl]; omega) (by simp only [vl]; omega) (by simp only [vl]; omega) (j := j) (by rw [vl]; exact hj)
  have pos : ∀ {j : ℕ}, j + 1 < high.length → 0 < typicalAt (vals high) (vals low) (vals close) (j + 1) * bar (vals volume) (j + 1) :=
    fun hj => mul_pos (hp _ hj) (hv' _ hj)
  constructor
  · rw [← lastOf_bar (by omega) (by omega), lastOf_sum_zero (by omega) fun j h3 h4 => by
      rw [bi (by omega)]; split
      · exact (pos (by omega)).le
      · rfl]
    constructor
    · intro h j h3 h4
      have := h (j - 1) (by omega) (by omega)
      rw [bi (by omega), Nat.sub_add_cancel (by omega)] at this
      by_contra hc
      rw [if_pos (not_le.1 hc)] at this
      exact absurd this (mul_pos (hp j (by omega)) (hv' j (by omega))).ne'
    · intro h j h3 h4
      have := h (j + 1) (by omega) (by omega)
      rw [Nat.add_sub_cancel] at this
      rw [bi (by omega), if_neg (not_lt.2 this)]
  · rw [← lastOf_bar (by omega) (by omega), lastOf_sum_zero (by omega) fun j h3 h4 => by
      rw [bo (by omega)]; split
      · exact (pos (by omega)).le
      · rfl]
    constructor
    · intro h j h3 h4
      have := h (j - 1) (by omega) (by omega)
      rw [bo (by omega), Nat.sub_add_cancel (by omega)] at this
      by_contra hc
      rw [if_pos (not_le.1 hc)] at this
      exact absurd this (mul_pos (hp j (by omega)) (hv' j (by omega))).ne'
    · intro h j h3 h4
      have := h (j + 1) (by omega) (by omega)
      rw [Nat.add_sub_cancel] at this
      rw [bo (by omega), if_neg (not_lt.2 this)]

section
variable (hl : low.length = high.length) (hc : close.length = high.length) (hv : volume.length = high.length) (hw : 1 ≤ w)
  (fh : Fins high) (fl : Fins low) (fc : Fins close) (fv : Fins volume)
  (hp : ∀ j, j < high.length → 0 < typicalAt (vals high) (vals low) (vals close) j) (hv' : ∀ j, j < high.length → 0 < bar (vals volume) j)
  (h1 : w ≤ i) (h2 : i < high.length)
include hl hc hv hw fh fl fc fv hp hv' h1 h2

private theorem mfi_quot : ReportsP high.length w (fun i y =>
      let P := (recent (flowIn (vals high) (vals low) (vals close) (vals volume)) w (i - 1)).sum
      let N := (recent (flowOut (vals high) (vals low) (vals close) (vals volume)) w (i - 1)).sum
      QuotIs (100 * P) (P + N) y) (mfi high low close volume w) := by
  have vl : ∀ l : List XF, (vals l).length = l.length := fun l => vals_length l
  refine mfi_reports high low close volume w hl hc hv hw (by omega) fh fl fc fv (fun b hb => ?_) fun v hv'' => ?_
  · obtain ⟨j, hj⟩ := List.mem_iff_getElem?.1 hb
    obtain ⟨a1, a2, a3, a4⟩ := zip4_getElem?.1 hj
    have hjl := (List.getElem?_eq_some_iff.1 a1).1
    rw [vl] at hjl
    have := hp j hjl
    rw [typicalAt, bar_eq a1, bar_eq a2, bar_eq a3] at this
    exact this.le
  · obtain ⟨j, hj⟩ := List.mem_iff_getElem?.1 hv''
    have hjl := (List.getElem?_eq_some_iff.1 hj).1
    rw [vl] at hjl
    rw [← bar_eq hj]
    exact (hv' j (by omega)).le

/-- C100: with positive prices and volumes `mfi` is 100 exactly when the typical price does not fall in any of the last `w` steps and rises over them. -/
theorem mfi_hundred : Shows i (mfi high low close volume w) 100 ↔ NeverFalls (typicalAt (vals high) (vals low) (vals close)) (i - w) i ∧
      typicalAt (vals high) (vals low) (vals close) (i - w) < typicalAt (vals high) (vals low) (vals close) i := by
  obtain ⟨a1, a2⟩ := flow_parts high low close volume hl hc hv hp hv' h1 h2
  rw [(mfi_quot high low close volume hl hc hv hw fh fl fc fv hp hv' h1 h2).shows_iff h1 h2 fun y hy => hy.is_iff.trans share_full, a2, Ne, a1]
  exact and_congr_right fun h => h.not_rises (by omega)

/-- C100: with positive prices and volumes `mfi` is 0 exactly when the typical price does not rise in any of the last `w` steps and falls over them. -/
theorem mfi_nought : Shows i (mfi high low close volume w) 0 ↔ NeverRises (typicalAt (vals high) (vals low) (vals close)) (i - w) i ∧
      typicalAt (vals high) (vals low) (vals close) i < typicalAt (vals high) (vals low) (vals close) (i - w) := by
  obtain ⟨a1, a2⟩ := flow_parts high low close volume hl hc hv hp hv' h1 h2
  rw [(mfi_quot high low close volume hl hc hv hw fh fl fc fv hp hv' h1 h2).shows_iff h1 h2 fun y hy => hy.is_iff.trans share_empty, a1, Ne, a2]
  exact and_congr_right fun h => h.not_falls (by omega)
end

section
variable (hl : low.length = high.length) (hc : close.length = high.length) (hv : volume.length = high.length) (hw : 1 ≤ w)
  (fh : Fins high) (fl : Fins low) (fc : Fins close) (fv : Fins volume) (hr : ∀ j, j < high.length → bar (vals low) j < bar (vals high) j)
  (hs : ∀ j, j < high.length → bar (vals low) j ≤ bar (vals close) j ∧ bar (vals close) j ≤ bar (vals high) j)
  (hv' : ∀ j, j < high.length → 0 < bar (vals volume) j) (h1 : w ≤ i + 1) (h2 : i < high.length)
include hl hc hv hw fh fl fc fv hr hs hv' h1 h2

private theorem volume_pos : (lastOf (bar (vals volume)) w i).sum ≠ 0 := fun h => by
  rw [lastOf_sum_zero h1 fun j _ h4 => (hv' j (by omega)).le] at h
  exact absurd (h i (by omega) le_rfl) (hv' i h2).ne'

/-- C100: with positive volumes and bars that have a range `cmf` is 1 exactly when each of the last `w` bars closes at its high. -/
theorem cmf_one : Shows i (cmf high low close volume w) 1 ↔ ∀ j, i + 1 - w ≤ j → j ≤ i → bar (vals close) j = bar (vals high) j := by
  have hv0 := volume_pos high low close volume hl hc hv hw fh fl fc fv hr hs hv' h1 h2
  rw [(cmf_reports high low close volume w hl hc hv hw (by omega) fh fl fc fv fun j hj => (hr j hj).ne').shows_iff (by omega) h2
    fun y hy => hy.is_iff, and_iff_right hv0, div_eq_one_iff_eq hv0, eq_comm, ← sub_eq_zero, lastOf, lastOf, ← sum_map_sub']
  have e : ∀ j, j < high.length → bar (vals volume) j - adTerm (vals high) (vals low) (vals close) (vals volume) j =
      2 * (bar (vals high) j - bar (vals close) j) / (bar (vals high) j - bar (vals low) j) * bar (vals volume) j := fun j hj => by
    have := hr j hj
    have h0 : bar (vals high) j - bar (vals low) j ≠ 0 := by linarith
    rw [adTerm]; field_simp; ring
  have := lastOf_sum_zero (v := fun j => bar (vals volume) j - adTerm (vals high) (vals low) (vals close) (vals volume) j) h1 fun j h3 h4 => by
    have a1 := hr j (by omega)
    have a2 := (hs j (by omega)).2
    rw [e j (by omega)]
    exact mul_nonneg (div_nonneg (by linarith) (by linarith)) (hv' j (by omega)).le
  rw [lastOf] at this
  rw [this]
  refine forall_congr' fun j => forall_congr' fun h3 => forall_congr' fun h4 => ?_
  have a1 := hr j (by omega)
  rw [e j (by omega), mul_eq_zero, or_iff_left (hv' j (by omega)).ne', div_eq_zero_iff, or_iff_left (by linarith), mul_eq_zero,
    or_iff_right (by norm_num), sub_eq_zero]
  exact eq_comm

/-- C100: with positive volumes and bars that have a range `cmf` is -1 exactly when each of the last `w` bars closes at its low. -/
theorem cmf_minus_one : Shows i (cmf high low close volume w) (-1) ↔ ∀ j, i + 1 - w ≤ j → j ≤ i → bar (vals close) j = bar (vals low) j := by
  have hv0 := volume_pos high low close volume hl hc hv hw fh fl fc fv hr hs hv' h1 h2
  rw [(cmf_reports high low close volume w hl hc hv hw (by omega) fh fl fc fv fun j hj => (hr j hj).ne').shows_iff (by omega) h2
    fun y hy => hy.is_iff, and_iff_right hv0, div_eq_iff hv0, neg_one_mul, ← add_eq_zero_iff_eq_neg, lastOf, lastOf, ← sum_map_add']
  have e : ∀ j, j < high.length → adTerm (vals high) (vals low) (vals close) (vals volume) j + bar (vals volume) j =
      2 * (bar (vals close) j - bar (vals low) j) / (bar (vals high) j - bar (vals low) j) * bar (vals volume) j := fun j hj => by
    have := hr j hj
    have h0 : bar (vals high) j - bar (vals low) j ≠ 0 := by linarith
    rw [adTerm]; field_simp; ring
  have := lastOf_sum_zero (v := fun j => adTerm (vals high) (vals low) (vals close) (vals volume) j + bar (vals volume) j) h1 fun j h3 h4 => by
    have a1 := hr j (by omega)
    have a2 := (hs j (by omega)).1
    rw [e j (by omega)]
    exact mul_nonneg (div_nonneg (by linarith) (by linarith)) (hv' j (by omega)).le
  rw [lastOf] at this
  rw [this]
  refine forall_congr' fun j => forall_congr' fun h3 => forall_congr' fun h4 => ?_
  have a1 := hr j (by omega)
  rw [e j (by omega), mul_eq_zero, or_iff_left (hv' j (by omega)).ne', div_eq_zero_iff, or_iff_left (by linarith), mul_eq_zero,
    or_iff_right (by norm_num), sub_eq_zero]
end
end
end Volume

/-! ## Examples -/

private noncomputable def steps : List XF := [fin 1, fin 2, fin 2, fin 4, fin 4]
private noncomputable def lows : List XF := [fin 0, fin 1, fin 1, fin 3, fin 3]
private noncomputable def units : List XF := [fin 1, fin 1, fin 1, fin 1, fin 1]
private noncomputable def spike : List XF := [fin 2, fin 1, fin 1, fin 1, fin 5]
private noncomputable def line : List XF := [fin 5, fin 7, fin 7, fin 11, fin 11]

private theorem fins_steps : Fins steps := fun x hx => by fin_cases hx <;> trivial
private theorem fins_lows : Fins lows := fun x hx => by fin_cases hx <;> trivial
private theorem fins_units : Fins units := fun x hx => by fin_cases hx <;> trivial
private theorem fins_spike : Fins spike := fun x hx => by fin_cases hx <;> trivial
private theorem fins_line : Fins line := fun x hx => by fin_cases hx <;> trivial

private theorem steps_up (a : ℕ) : NeverFalls (bar (vals steps)) a 4 := fun j h1 h2 => by
  interval_cases j <;> norm_num [bar, steps, vals, FP.val]

example : Shows 4 (Momentum.rsi steps 2) 100 :=
  (Momentum.rsi_hundred steps (by norm_num) fins_steps (by norm_num) (by simp [steps])).2 ⟨steps_up 0, by norm_num [bar, steps, vals, FP.val]⟩

example : ¬ Shows 4 (Momentum.rsi steps 2) 0 := fun h => by
  have := ((Momentum.rsi_nought steps (by norm_num) fins_steps (by norm_num) (by simp [steps])).1 h).2
  norm_num [bar, steps, vals, FP.val] at this

example : Shows 4 (Momentum.cmo steps 3) 100 :=
  (Momentum.cmo_hundred steps fins_steps (by norm_num) (by simp [steps])).2 ⟨steps_up _, by norm_num [bar, steps, vals, FP.val]⟩

example : ¬ Shows 4 (Momentum.cmo steps 3) (-100) := fun h => by
  have := ((Momentum.cmo_minus_hundred steps fins_steps (by norm_num) (by simp [steps])).1 h).2
  norm_num [bar, steps, vals, FP.val] at this

example : Shows 4 (Momentum.psych steps 3) 100 :=
  (Momentum.psych_hundred steps (by norm_num) fins_steps (fun x hx => by fin_cases hx <;> simp) (by norm_num) (by simp [steps])).2 (steps_up _)

example : ¬ Shows 4 (Momentum.psych steps 3) 0 := fun h => by
  have := (Momentum.psych_nought steps (by norm_num) fins_steps (fun x hx => by fin_cases hx <;> simp) (by norm_num) (by simp [steps])).1 h 4
    (by norm_num) le_rfl
  norm_num [bar, steps, vals, FP.val] at this

example : ¬ Shows 3 (Momentum.tii steps 2) 0 := fun h => by
  have := ((Momentum.tii_nought steps (by norm_num) (by simp [steps]) fins_steps (by norm_num) (by simp [steps])).1 h).1 3 (by norm_num) (by norm_num)
  norm_num [Momentum.deviation, lastOf, mean, bar, steps, vals, FP.val, List.range_succ] at this

example : Shows 3 (Momentum.tii steps 2) 100 := by
  refine (Momentum.tii_hundred steps (by norm_num) (by simp [steps]) fins_steps (by norm_num) (by simp [steps])).2 ⟨fun j h1 h2 => ?_, 3, by norm_num,
    by norm_num, ?_⟩
  · obtain rfl : j = 3 := by omega
    norm_num [Momentum.deviation, lastOf, mean, bar, steps, vals, FP.val, List.range_succ]
  · norm_num [Momentum.deviation, lastOf, mean, bar, steps, vals, FP.val, List.range_succ]

example : Shows 4 (Distribution.zscore spike 3) √((3 : ℕ) - 1) := by
  refine (Distribution.zscore_largest spike (by norm_num) (by simp [spike]) fins_spike (by norm_num) (by simp [spike])).2 ⟨1, ?_, fun j h1 h2 => ?_⟩
  · norm_num [bar, spike, vals, FP.val]
  · have : 2 ≤ j := h1
    interval_cases j <;> norm_num [bar, spike, vals, FP.val]

example : ¬ Shows 4 (Distribution.zscore spike 4) (-√((4 : ℕ) - 1)) := fun h => by
  obtain ⟨c, h1, h2⟩ := (Distribution.zscore_smallest spike (by norm_num) (by simp [spike]) fins_spike (by norm_num) (by simp [spike])).1 h
  have := h2 3 (by norm_num) (by norm_num)
  norm_num [bar, spike, vals, FP.val] at this h1
  linarith

private theorem steps_move : ¬ Flat (recent (vals steps) 3 4) := fun h => by
  have := h 2 (by simp [recent, steps, vals, FP.val]) 4 (by simp [recent, steps, vals, FP.val])
  norm_num at this

example : Shows 4 (Correlation.pcc steps line 3) 1 := by
  refine (Correlation.pcc_one steps line (by simp [steps, line]) (by norm_num) (by simp [steps]) fins_steps fins_line (by norm_num) (by simp [steps])).2
    ⟨steps_move, 2, 3, by norm_num, fun j h1 h2 => ?_⟩
  have : 2 ≤ j := h1
  interval_cases j <;> norm_num [bar, steps, line, vals, FP.val]

example : ¬ Shows 4 (Correlation.pcc steps line 3) (-1) := fun h => by
  obtain ⟨-, c, d, hc, h⟩ := (Correlation.pcc_minus_one steps line (by simp [steps, line]) (by norm_num) (by simp [steps]) fins_steps fins_line
    (by norm_num) (by simp [steps])).1 h
  have a := h 2 (by norm_num) (by norm_num)
  have b := h 3 (by norm_num) (by norm_num)
  norm_num [bar, steps, line, vals, FP.val] at a b
  linarith

example : Shows 4 (some (Regression.mse steps steps)) 0 ∧ Shows 4 (some (Regression.rmse steps steps)) 0 ∧ Shows 4 (some (Regression.mae steps steps)) 0 :=
  ⟨(Regression.mse_nought steps steps rfl fins_steps fins_steps (by simp [steps])).2 fun _ _ => rfl,
    (Regression.rmse_nought steps steps rfl fins_steps fins_steps (by simp [steps])).2 fun _ _ => rfl,
    (Regression.mae_nought steps steps rfl fins_steps fins_steps (by simp [steps])).2 fun _ _ => rfl⟩

example : Shows 4 (Regression.mda steps line) 1 := by
  refine (Regression.mda_one steps line (by simp [steps, line]) fins_steps fins_line (fun x hx => by fin_cases hx <;> simp)
    (fun x hx => by fin_cases hx <;> simp) (by norm_num) (by simp [steps])).2 fun j h1 h2 => ?_
  interval_cases j <;> norm_num [bar, steps, line, vals, FP.val]

private theorem range_steps : maxOf (recent (vals steps) 3 4) ≠ minOf (recent (vals lows) 3 4) := by
  norm_num [recent, steps, lows, vals, FP.val, maxOf, minOf]

example : Shows 4 (Momentum.wpr steps lows steps 3) 0 :=
  (Momentum.wpr_nought steps lows steps (by norm_num) fins_steps fins_lows fins_steps (by simp [steps, lows]) rfl (by norm_num) (by simp [steps]) range_steps).2
    (by norm_num [bar, recent, steps, vals, FP.val, maxOf])

example : ¬ Shows 4 (Momentum.wpr steps lows lows 3) (-100) := fun h => by
  have := (Momentum.wpr_minus_hundred steps lows lows (by norm_num) fins_steps fins_lows fins_lows (by simp [steps, lows]) (by simp [steps, lows])
    (by norm_num) (by simp [steps]) range_steps).1 h
  norm_num [bar, recent, lows, vals, FP.val, minOf] at this

example : Shows 4 ((Momentum.stochastic steps lows steps 1).map fun out => out.map Prod.fst) 100 := by
  refine (Momentum.stochastic_hundred steps lows steps (by norm_num) (by simp [steps]) fins_steps fins_lows fins_steps (by simp [steps, lows]) rfl
    (fun j h1 h2 => ?_) (fun j _ => le_rfl) (by norm_num) (by simp [steps])).2 fun j h1 h2 => ?_
  · have : j < 5 := by simpa [steps] using h2
    interval_cases j <;> norm_num [recent, steps, lows, vals, FP.val, maxOf, minOf]
  · have : 2 ≤ j := h1
    interval_cases j <;> norm_num [bar, recent, steps, vals, FP.val, maxOf]

example : Shows 4 ((Trend.aroon steps lows 2).map fun out => out.map Prod.fst) 100 := by
  refine (Trend.aroon_up_ends steps lows (by norm_num) (by simp [steps, lows]) fins_steps fins_lows (by norm_num) (by simp [steps])).1.2 fun j h1 h2 => ?_
  have : 2 ≤ j := h1
  interval_cases j <;> norm_num [bar, steps, vals, FP.val]

example : Shows 4 ((Trend.aroon steps lows 2).map fun out => out.map Prod.snd) 0 := by
  refine (Trend.aroon_down_ends steps lows (by norm_num) (by simp [steps, lows]) fins_steps fins_lows (by norm_num) (by simp [steps])).2.2 fun j h1 h2 => ?_
  have : 2 < j := h1
  interval_cases j <;> norm_num [bar, lows, vals, FP.val]

example : Shows 4 (Trend.ulcer steps 3) 0 := by
  refine (Trend.ulcer_nought steps (by norm_num) fins_steps (fun i h1 h2 => ?_) (by norm_num) (by simp [steps])).2 fun j h1 h2 k h3 h4 =>
    (show NeverFalls (bar (vals steps)) 0 4 from steps_up 0).le (by omega) h4 h2
  have : i < 5 := by simpa [steps] using h2
  have : 2 ≤ i := by omega
  interval_cases i <;> norm_num [recent, steps, vals, FP.val, maxOf]

private theorem typical_steps : ∀ j, j < steps.length → 0 < typicalAt (vals steps) (vals lows) (vals steps) j := fun j h => by
  have : j < 5 := by simpa [steps] using h
  interval_cases j <;> norm_num [typicalAt, bar, steps, lows, vals, FP.val]

private theorem units_pos : ∀ j, j < steps.length → 0 < bar (vals units) j := fun j h => by
  have : j < 5 := by simpa [steps] using h
  interval_cases j <;> norm_num [bar, units, vals, FP.val]

example : Shows 4 (Volume.mfi steps lows steps units 2) 100 := by
  refine (Volume.mfi_hundred steps lows steps units (by simp [steps, lows]) rfl (by simp [steps, units]) (by norm_num) fins_steps fins_lows fins_steps
    fins_units typical_steps units_pos (by norm_num) (by simp [steps])).2 ⟨fun j h1 h2 => ?_, ?_⟩
  · have : 2 < j := h1
    interval_cases j <;> norm_num [typicalAt, bar, steps, lows, vals, FP.val]
  · norm_num [typicalAt, bar, steps, lows, vals, FP.val]

example : ¬ Shows 4 (Volume.mfi steps lows steps units 2) 0 := fun h => by
  have := ((Volume.mfi_nought steps lows steps units (by simp [steps, lows]) rfl (by simp [steps, units]) (by norm_num) fins_steps fins_lows fins_steps
    fins_units typical_steps units_pos (by norm_num) (by simp [steps])).1 h).2
  norm_num [typicalAt, bar, steps, lows, vals, FP.val] at this

private theorem steps_range : ∀ j, j < steps.length → bar (vals lows) j < bar (vals steps) j := fun j h => by
  have : j < 5 := by simpa [steps] using h
  interval_cases j <;> norm_num [bar, steps, lows, vals, FP.val]

example : Shows 4 (Volume.cmf steps lows steps units 2) 1 :=
  (Volume.cmf_one steps lows steps units (by simp [steps, lows]) rfl (by simp [steps, units]) (by norm_num) fins_steps fins_lows fins_steps
    fins_units steps_range (fun j hj => ⟨(steps_range j hj).le, le_rfl⟩) units_pos (by norm_num) (by simp [steps])).2 fun _ _ _ => rfl

example : Shows 4 (Volume.cmf steps lows lows units 2) (-1) :=
  (Volume.cmf_minus_one steps lows lows units (by simp [steps, lows]) (by simp [steps, lows]) (by simp [steps, units]) (by norm_num) fins_steps fins_lows
    fins_lows fins_units steps_range (fun j hj => ⟨le_rfl, (steps_range j hj).le⟩) units_pos (by norm_num) (by simp [steps])).2 fun _ _ _ => rfl

end Traquer
