import Verif.Props.ZeroLine
import Verif.Props.Lag
import Verif.Props.TrendFormulas
/-!
# C114: indicators of several series on the zero line
-/

namespace Traquer.Momentum
open Traquer FP FloatLit Smooth

/-- C114: `qstick` is above zero if every bar closes above its open. -/
theorem qstick_over (openp close : List XF) (w : ℕ) (hc : close.length = openp.length) (hw : 1 ≤ w) (hn : w ≤ openp.length)
    (ho : Fins openp) (hd : Fins close) (h : Over (vals close) (vals openp)) : AboveZero openp.length (w - 1) (qstick openp close w) :=
  (qstick_reports openp close w hc hw hn ho hd).toP fun i y h1 h2 hy => ⟨_, hy,
    ewmaFrom_pos (k := 0) (n := openp.length) hw (fun j _ hj => sub_pos.2 (h j (by simpa [hc] using hj))) i (by omega) h2⟩

theorem qstick_under (openp close : List XF) (w : ℕ) (hc : close.length = openp.length) (hw : 1 ≤ w) (hn : w ≤ openp.length)
    (ho : Fins openp) (hd : Fins close) (h : Over (vals openp) (vals close)) : BelowZero openp.length (w - 1) (qstick openp close w) :=
  (qstick_reports openp close w hc hw hn ho hd).toP fun i y h1 h2 hy => ⟨_, hy, by
    have := ewmaFrom_pos (k := 0) (n := openp.length) (w := w) (x := fun j => -(bar (vals close) j - bar (vals openp) j)) hw
      (fun j _ hj => by have := h j (by simpa using hj); linarith) i (by omega) h2
    rw [ewmaFrom_neg] at this
    linarith⟩

section
variable (openp high low close : List XF) (w : ℕ) (hh : high.length = openp.length) (hl : low.length = openp.length)
  (hc : close.length = openp.length) (hw : 1 ≤ w) (fo : Fins openp) (fh : Fins high) (fl : Fins low) (fc : Fins close)
  (hr : Over (vals high) (vals low))
include hh hl hc hw fo fh fl fc hr

/-- C114: `bal_power` is above zero if every bar closes above its open. -/
theorem bal_power_over (hn : w ≤ openp.length) (h : Over (vals close) (vals openp)) :
    AboveZero openp.length (w - 1) (bal_power openp high low close w) :=
  (bal_power_reports openp high low close w hh hl hc hw hn fo fh fl fc fun i hi => (hr i (by simpa [hh] using hi)).ne').toP
    fun i y h1 h2 hy => ⟨_, hy, ewmaFrom_pos (k := 0) (n := openp.length) hw
      (fun j _ hj => div_pos (sub_pos.2 (h j (by simpa [hc] using hj))) (sub_pos.2 (hr j (by simpa [hh] using hj)))) i (by omega) h2⟩

theorem bal_power_under (hn : w ≤ openp.length) (h : Over (vals openp) (vals close)) :
    BelowZero openp.length (w - 1) (bal_power openp high low close w) :=
  (bal_power_reports openp high low close w hh hl hc hw hn fo fh fl fc fun i hi => (hr i (by simpa [hh] using hi)).ne').toP
    fun i y h1 h2 hy => ⟨_, hy, by
      have := ewmaFrom_pos (k := 0) (n := openp.length) (w := w)
        (x := fun j => -((bar (vals close) j - bar (vals openp) j) / (bar (vals high) j - bar (vals low) j))) hw
        (fun j _ hj => by
          have h1 := h j (by simpa using hj)
          have h2 := hr j (by simpa [hh] using hj)
          rw [← neg_div]
          exact div_pos (by linarith) (by linarith)) i (by omega) h2
      rw [ewmaFrom_neg] at this
      linarith⟩

/-- C114: `relative_vigor` is above zero if every bar closes above its open. -/
theorem relative_vigor_over (hn : w + 2 ≤ openp.length) (h : Over (vals close) (vals openp)) :
    AboveZero openp.length (3 + (w - 1)) (relative_vigor openp high low close w) := by
  have hv : ∀ v : ℕ → ℝ, (∀ j, j < openp.length → 0 < v j) → ∀ i, 3 + (w - 1) ≤ i → i < openp.length → 0 < mean (lastOf (vigorOf v) w i) :=
    fun v hv i h1 h2 => mean_lastOf_pos (k := 3) hw (by omega) fun j j1 j2 => by
      have a1 := hv j (by omega)
      have a2 := hv (j - 1) (by omega)
      have a3 := hv (j - 2) (by omega)
      have a4 := hv (j - 3) (by omega)
      rw [vigorOf]
      exact div_pos (by linarith) (by norm_num)
  exact (relative_vigor_reports openp high low close w hh hl hc hw hn fo fh fl fc).mono fun i y h1 h2 hy =>
    hy.above (hv _ (fun j hj => sub_pos.2 (h j (by simpa [hc] using hj))) i h1 h2)
      (hv _ (fun j hj => sub_pos.2 (hr j (by simpa [hh] using hj))) i h1 h2)

theorem relative_vigor_under (hn : w + 2 ≤ openp.length) (h : Over (vals openp) (vals close)) :
    BelowZero openp.length (3 + (w - 1)) (relative_vigor openp high low close w) := by
  have hv : ∀ v : ℕ → ℝ, (∀ j, j < openp.length → 0 < v j) → ∀ i, 3 + (w - 1) ≤ i → i < openp.length → 0 < mean (lastOf (vigorOf v) w i) :=
    fun v hv i h1 h2 => mean_lastOf_pos (k := 3) hw (by omega) fun j j1 j2 => by
      have a1 := hv j (by omega)
      have a2 := hv (j - 1) (by omega)
      have a3 := hv (j - 2) (by omega)
      have a4 := hv (j - 3) (by omega)
      rw [vigorOf]
      exact div_pos (by linarith) (by norm_num)
  refine (relative_vigor_reports openp high low close w hh hl hc hw hn fo fh fl fc).mono fun i y h1 h2 hy =>
    hy.below ?_ (hv _ (fun j hj => sub_pos.2 (hr j (by simpa [hh] using hj))) i h1 h2)
  have := hv (fun j => -(bar (vals close) j - bar (vals openp) j)) (fun j hj => by have := h j (by simpa using hj); linarith) i h1 h2
  have e : vigorOf (fun j => -(bar (vals close) j - bar (vals openp) j)) = fun j => -vigorOf (fun j => bar (vals close) j - bar (vals openp) j) j := by
    funext j
    rw [vigorOf, vigorOf]
    ring
  rw [e] at this
  rw [mean, lastOf, sum_map_opposite, neg_div, List.length_map, List.length_range] at this
  rw [mean, lastOf, List.length_map, List.length_range]
  linarith

end

section
variable (high low close : List XF) (w : ℕ) (hl : low.length = high.length) (hc : close.length = high.length) (hw : 2 ≤ w)
  (fh : Fins high) (fl : Fins low) (fc : Fins close)
include hl hc hw fh fl fc

/-- C114: while closes rise the bull line of `elder_ray` is above zero; while they fall the bear line is below zero. -/
theorem elder_ray_rising (hn : w ≤ high.length) (h : Rising (vals close)) (ho : ∀ i, i < high.length → bar (vals close) i ≤ bar (vals high) i) :
    Items high.length (w - 1) (fun _ y => ∃ v : ℝ, y.1 ⇓ v ∧ 0 < v) (elder_ray high low close w) := by
  obtain ⟨out, e, el, hv⟩ := elder_ray_items high low close w hl hc (by omega) hn fh fl fc
  have cc := h.climbs
  rw [vals_length, hc] at cc
  refine ⟨out, e, el, fun i y hi hy => ⟨_, (hv i y hi hy).1, ?_⟩⟩
  have hin : i < high.length := by rw [← el]; exact (List.getElem?_eq_some_iff.1 hy).1
  have := cc.ewma_lt hw i (by omega) hin
  have := ho i hin
  linarith

theorem elder_ray_falling (hn : w ≤ high.length) (h : Falling (vals close)) (ho : ∀ i, i < high.length → bar (vals low) i ≤ bar (vals close) i) :
    Items high.length (w - 1) (fun _ y => ∃ v : ℝ, y.2 ⇓ v ∧ v < 0) (elder_ray high low close w) := by
  obtain ⟨out, e, el, hv⟩ := elder_ray_items high low close w hl hc (by omega) hn fh fl fc
  have cc := h.climbs
  rw [vals_length, hc] at cc
  refine ⟨out, e, el, fun i y hi hy => ⟨_, (hv i y hi hy).2, ?_⟩⟩
  have hin : i < high.length := by rw [← el]; exact (List.getElem?_eq_some_iff.1 hy).1
  have := cc.ewma_lt hw i (by omega) hin
  rw [ewmaFrom_neg] at this
  have := ho i hin
  linarith

theorem trAt_pos (hs : ∀ i, i < high.length → bar (vals low) i ≤ bar (vals close) i ∧ bar (vals close) i ≤ bar (vals high) i)
    {i : ℕ} (hi : i < high.length) (hne : bar (vals close) i ≠ bar (vals close) (i - 1)) : 0 < trAt (vals high) (vals low) (vals close) i := by
  obtain ⟨s1, s2⟩ := hs i hi
  rw [trAt, trueRangeOf]
  rcases lt_or_gt_of_ne hne with h | h
  · refine lt_of_lt_of_le ?_ ((le_max_right _ _).trans (le_max_right _ _))
    exact abs_pos.2 (by linarith)
  · refine lt_of_lt_of_le ?_ ((le_max_left _ _).trans (le_max_right _ _))
    exact abs_pos.2 (by linarith)

/-- C114: `pgo` is above zero while closes rise. -/
theorem pgo_rising (hn : w + 1 ≤ high.length) (h : Rising (vals close))
    (hs : ∀ i, i < high.length → bar (vals low) i ≤ bar (vals close) i ∧ bar (vals close) i ≤ bar (vals high) i) :
    AboveZero high.length w (pgo high low close w) := by
  have cc := h.climbs
  rw [vals_length, hc] at cc
  refine (pgo_reports high low close w hl hc (by omega) hn fh fl fc).mono fun i y h1 h2 hy => hy.above (sub_pos.2 ?_) ?_
  · rw [← lastOf_bar (by omega) (by simp; omega)]
    exact cc.mean_lt hw (by omega) h2
  · exact ewmaFrom_pos (n := high.length) (by omega) (fun j j1 j2 => trAt_pos high low close w hl hc hw fh fl fc hs j2
      (h.lt (i := j - 1) (by omega) (by simp; omega)).ne') i (by omega) h2

theorem pgo_falling (hn : w + 1 ≤ high.length) (h : Falling (vals close))
    (hs : ∀ i, i < high.length → bar (vals low) i ≤ bar (vals close) i ∧ bar (vals close) i ≤ bar (vals high) i) :
    BelowZero high.length w (pgo high low close w) := by
  have cc := h.climbs
  rw [vals_length, hc] at cc
  refine (pgo_reports high low close w hl hc (by omega) hn fh fl fc).mono fun i y h1 h2 hy => hy.below (sub_neg.2 ?_) ?_
  · rw [← lastOf_bar (by omega) (by simp; omega)]
    have := cc.mean_lt hw (i := i) (by omega) h2
    rw [mean, lastOf, sum_map_opposite, neg_div, List.length_map, List.length_range] at this
    rw [mean, lastOf, List.length_map, List.length_range]
    linarith
  · exact ewmaFrom_pos (n := high.length) (by omega) (fun j j1 j2 => trAt_pos high low close w hl hc hw fh fl fc hs j2
      (h.lt (i := j - 1) (by omega) (by simp; omega)).ne) i (by omega) h2

/-- C114: `cci` is above zero while typical prices rise. -/
theorem cci_rising (hn : w ≤ high.length + 1) (h : ∀ i, i + 1 < high.length →
    typicalAt (vals high) (vals low) (vals close) i < typicalAt (vals high) (vals low) (vals close) (i + 1)) :
    AboveZero high.length (w - 1) (cci high low close w) := by
  have cc : Climbs 0 high.length (typicalAt (vals high) (vals low) (vals close)) := fun i _ hi => h i hi
  refine (cci_reports high low close w hl hc (by omega) hn fh fl fc).mono fun i y h1 h2 hy => hy.above (sub_pos.2 (cc.mean_lt hw (by omega) h2))
    (mul_pos (by norm_num) ?_)
  refine meanAbsDev_pos (List.mem_map.2 ⟨w - 2, List.mem_range.2 (by omega), rfl⟩) (List.mem_map.2 ⟨w - 1, List.mem_range.2 (by omega), rfl⟩) ?_
  exact cc.lt (by omega) (by omega) (by omega)

theorem cci_falling (hn : w ≤ high.length + 1) (h : ∀ i, i + 1 < high.length →
    typicalAt (vals high) (vals low) (vals close) (i + 1) < typicalAt (vals high) (vals low) (vals close) i) :
    BelowZero high.length (w - 1) (cci high low close w) := by
  have cc : Climbs 0 high.length (fun i => -typicalAt (vals high) (vals low) (vals close) i) := fun i _ hi => neg_lt_neg (h i hi)
  refine (cci_reports high low close w hl hc (by omega) hn fh fl fc).mono fun i y h1 h2 hy => hy.below (sub_neg.2 ?_)
    (mul_pos (by norm_num) ?_)
  · have := cc.mean_lt hw (i := i) (by omega) h2
    rw [mean, lastOf, sum_map_opposite, neg_div, List.length_map, List.length_range] at this
    rw [mean, lastOf, List.length_map, List.length_range]
    linarith
  · refine meanAbsDev_pos (List.mem_map.2 ⟨w - 1, List.mem_range.2 (by omega), rfl⟩) (List.mem_map.2 ⟨w - 2, List.mem_range.2 (by omega), rfl⟩) ?_
    exact neg_lt_neg_iff.1 (cc.lt (i := i + 1 - w + (w - 2)) (j := i + 1 - w + (w - 1)) (by omega) (by omega) (by omega))

end

theorem smaIter_climbs {n w : ℕ} {x : ℕ → ℝ} (h : Climbs 0 n x) (hw : 2 ≤ w) (j : ℕ) : Climbs ((w - 1) * j) n (smaIter w x j) ∧
    ∀ i, (w - 1) * (j + 1) ≤ i → i < n → smaIter w x (j + 1) i < x i := by
  induction j with
  | zero => exact ⟨by simpa [smaIter] using h, fun i h1 h2 => h.mean_lt hw (by omega) h2⟩
  | succ j ih =>
    have e : (w - 1) * (j + 1) = (w - 1) * j + (w - 1) := by ring
    have c : Climbs ((w - 1) * (j + 1)) n (smaIter w x (j + 1)) := by
      rw [e]
      exact ih.1.mean_step (by omega)
    refine ⟨c, fun i h1 h2 => ?_⟩
    have e' : (w - 1) * (j + 1 + 1) = (w - 1) * (j + 1) + (w - 1) := by ring
    exact (c.mean_lt hw (i := i) (by omega) h2).trans (ih.2 i (by omega) h2)

theorem smaIter_opposite (w : ℕ) (x : ℕ → ℝ) (j : ℕ) : smaIter w (fun i => -x i) j = fun i => -smaIter w x j i := by
  induction j with
  | zero => rfl
  | succ j ih =>
    funext i
    show mean (lastOf (smaIter w (fun i => -x i) j) w i) = -mean (lastOf (smaIter w x j) w i)
    rw [ih, mean, mean, lastOf, lastOf, sum_map_opposite, neg_div, List.length_map, List.length_map]

section
variable (data : List XF) (w lookback : ℕ) (hw : 2 ≤ w) (hn : w ≤ data.length + 1) (hlb : 1 ≤ lookback)
    (hk : lookback ≤ (w - 1) * 10 + 1) (hk' : (w - 1) * 10 ≤ data.length) (hd : Fins data) (hb : ∀ x ∈ vals data, |x| ≤ f64Max)
include hw hn hlb hk hk' hd hb

theorem rainbow_under {i : ℕ} (cc : Climbs 0 data.length (bar (vals data))) (hi : (w - 1) * 10 ≤ i) (h2 : i < data.length) :
    mean (rainbowLines (vals data) w i) < bar (vals data) i := by
  have hlt : ∀ j, j < 10 → smaIter w (bar (vals data)) (j + 1) i < bar (vals data) i := fun j hj =>
    (smaIter_climbs cc hw j).2 i ((Nat.mul_le_mul_left _ (by omega)).trans hi) h2
  rw [mean, rainbowLines, List.length_map, List.length_range, div_lt_iff₀ (by norm_num)]
  have e : bar (vals data) i * ((10 : ℕ) : ℝ) = ((List.range 10).map fun _ => bar (vals data) i).sum := by simp; ring
  rw [e]
  exact List.sum_lt_sum _ _ (fun j hj => (hlt j (List.mem_range.1 hj)).le) ⟨0, List.mem_range.2 (by norm_num), hlt 0 (by norm_num)⟩

/-- C114: the oscillator line of `rainbow` is above zero while prices rise. -/
theorem rainbow_rising (h : Rising (vals data)) :
    Items data.length ((w - 1) * 10) (fun _ y => ∃ v : ℝ, y.1 ⇓ v ∧ 0 < v) (rainbow data w lookback) := by
  obtain ⟨out, e, el, hv⟩ := rainbow_reports data w lookback (by omega) hn hlb hk hk' hd hb
  have cc := h.climbs
  rw [vals_length] at cc
  refine ⟨out, e, el, fun i y hi hy => ⟨_, (hv i y hi hy).1, ?_⟩⟩
  have hin : i < data.length := by rw [← el]; exact (List.getElem?_eq_some_iff.1 hy).1
  exact div_pos (mul_pos (by norm_num) (sub_pos.2 (rainbow_under data w lookback hw hn hlb hk hk' hd hb cc hi hin)))
    (lt_of_lt_of_le (by norm_num) (le_max_right _ _))

theorem rainbow_falling (h : Falling (vals data)) :
    Items data.length ((w - 1) * 10) (fun _ y => ∃ v : ℝ, y.1 ⇓ v ∧ v < 0) (rainbow data w lookback) := by
  obtain ⟨out, e, el, hv⟩ := rainbow_reports data w lookback (by omega) hn hlb hk hk' hd hb
  have cc := h.climbs
  rw [vals_length] at cc
  refine ⟨out, e, el, fun i y hi hy => ⟨_, (hv i y hi hy).1, ?_⟩⟩
  have hin : i < data.length := by rw [← el]; exact (List.getElem?_eq_some_iff.1 hy).1
  refine div_neg_of_neg_of_pos (mul_neg_of_pos_of_neg (by norm_num) (sub_neg.2 ?_)) (lt_of_lt_of_le (by norm_num) (le_max_right _ _))
  have hlt : ∀ j, j < 10 → bar (vals data) i < smaIter w (bar (vals data)) (j + 1) i := fun j hj => by
    have := (smaIter_climbs cc hw j).2 i ((Nat.mul_le_mul_left _ (by omega)).trans hi) hin
    rw [smaIter_opposite] at this
    exact neg_lt_neg_iff.1 this
  rw [mean, rainbowLines, List.length_map, List.length_range, lt_div_iff₀ (by norm_num)]
  have e : bar (vals data) i * ((10 : ℕ) : ℝ) = ((List.range 10).map fun _ => bar (vals data) i).sum := by simp; ring
  rw [e]
  exact List.sum_lt_sum _ _ (fun j hj => (hlt j (List.mem_range.1 hj)).le) ⟨0, List.mem_range.2 (by norm_num), hlt 0 (by norm_num)⟩

end
end Traquer.Momentum

namespace Traquer.Volume
open Traquer FP

/-- C114: `elder_force` is above zero while closes rise on positive volumes. -/
theorem elder_force_rising (close volume : List XF) (w : ℕ) (hv : volume.length = close.length) (hw : 1 ≤ w) (hn : w < close.length)
    (fc : Fins close) (fv : Fins volume) (hp : Positive (vals volume)) (h : Rising (vals close)) :
    AboveZero close.length w (elder_force close volume w) :=
  (elder_force_reports close volume w hv hw hn fc fv).toP fun i y h1 h2 hy => ⟨_, hy, ewmaFrom_pos (n := close.length) hw
    (fun j j1 j2 => mul_pos (sub_pos.2 (h.lt (by omega) (by simpa using j2))) (hp.bar (by simp; omega))) i (by omega) h2⟩

theorem elder_force_falling (close volume : List XF) (w : ℕ) (hv : volume.length = close.length) (hw : 1 ≤ w) (hn : w < close.length)
    (fc : Fins close) (fv : Fins volume) (hp : Positive (vals volume)) (h : Falling (vals close)) :
    BelowZero close.length w (elder_force close volume w) :=
  (elder_force_reports close volume w hv hw hn fc fv).toP fun i y h1 h2 hy => ⟨_, hy, by
    have := ewmaFrom_pos (k := 1) (n := close.length) (w := w) (x := fun j => -((bar (vals close) j - bar (vals close) (j - 1)) * bar (vals volume) j)) hw
      (fun j j1 j2 => by
        have a := h.lt (i := j - 1) (j := j) (by omega) (by simpa using j2)
        have b := hp.bar (i := j) (by simp; omega)
        have := mul_pos (show 0 < bar (vals close) (j - 1) - bar (vals close) j by linarith) b
        linarith) i (by omega) h2
    rw [ewmaFrom_neg] at this
    linarith⟩

end Traquer.Volume

namespace Traquer.Distribution
open Traquer FP

section
variable (data : List XF) (w : ℕ) (hw : 2 ≤ w) (hn : w ≤ data.length + 1) (hd : Fins data)
include hw hn hd

theorem zscore_rising (h : Rising (vals data)) : AboveZero data.length (w - 1) (zscore data w) := by
  have cc := h.climbs
  rw [vals_length] at cc
  refine (zscore_reports data w (by omega) hn hd).mono fun i y h1 h2 hy => ?_
  have hf : ¬ Flat (recent (vals data) w i) := fun hf => by
    have := hf _ (bar_mem_recent (by omega) (by simpa using h2) (show i + 1 - w ≤ i - 1 by omega) (by omega)) _
      (bar_mem_recent (by omega) (by simpa using h2) (by omega) le_rfl)
    exact (cc.lt (i := i - 1) (by omega) (by omega) h2).ne this
  refine ⟨_, hy.1 hf _ (bar_some (by simpa using h2)), div_pos (sub_pos.2 ?_) (stdDev_pos hf)⟩
  rw [← lastOf_bar (by omega) (by simpa using h2)]
  exact cc.mean_lt hw (by omega) h2

theorem zscore_falling (h : Falling (vals data)) : BelowZero data.length (w - 1) (zscore data w) := by
  have cc := h.climbs
  rw [vals_length] at cc
  refine (zscore_reports data w (by omega) hn hd).mono fun i y h1 h2 hy => ?_
  have hf : ¬ Flat (recent (vals data) w i) := fun hf => by
    have := hf _ (bar_mem_recent (by omega) (by simpa using h2) (show i + 1 - w ≤ i - 1 by omega) (by omega)) _
      (bar_mem_recent (by omega) (by simpa using h2) (by omega) le_rfl)
    exact (h.lt (i := i - 1) (j := i) (by omega) (by simpa using h2)).ne' this
  refine ⟨_, hy.1 hf _ (bar_some (by simpa using h2)), div_neg_of_neg_of_pos (sub_neg.2 ?_) (stdDev_pos hf)⟩
  rw [← lastOf_bar (by omega) (by simpa using h2)]
  have := cc.mean_lt hw (i := i) (by omega) h2
  rw [mean, lastOf, sum_map_opposite, neg_div, List.length_map, List.length_range] at this
  rw [mean, lastOf, List.length_map, List.length_range]
  linarith

end
end Traquer.Distribution

namespace Traquer
open FP

private noncomputable def up : List XF := [fin 1, fin 2, fin 5, fin 6, fin 10]
private noncomputable def down : List XF := [fin 10, fin 6, fin 5, fin 2, fin 1]
private noncomputable def flat0 : List XF := List.replicate 5 (fin 0)

private theorem up_vals : vals up = [1, 2, 5, 6, 10] := by simp [vals, up, FP.val]
private theorem down_vals : vals down = [10, 6, 5, 2, 1] := by simp [vals, down, FP.val]
private theorem up_fins : Fins up := fun x hx => by fin_cases hx <;> trivial
private theorem down_fins : Fins down := fun x hx => by fin_cases hx <;> trivial
private theorem up_rising : Rising (vals up) := by
  rw [up_vals]
  intro i hi
  simp only [List.length_cons, List.length_nil] at hi
  have hi : i < 4 := by omega
  interval_cases i <;> norm_num [bar]
private theorem down_falling : Falling (vals down) := by
  rw [down_vals]
  intro i hi
  simp only [List.length_cons, List.length_nil] at hi
  have hi : i < 4 := by omega
  interval_cases i <;> norm_num [bar]
private theorem up_positive : Positive (vals up) := by
  rw [up_vals]
  intro x hx
  fin_cases hx <;> norm_num
private theorem down_positive : Positive (vals down) := by
  rw [down_vals]
  intro x hx
  fin_cases hx <;> norm_num

/-- The statements of this file apply to five rising prices: `macd`, `ppo`, `disparity`, `roc`, `trix`, `pmo`, `coppock` are above zero. -/
example : AboveZero 5 2 (Momentum.macd up 2 3) ∧ AboveZero 5 2 (Momentum.ppo up 2 3) ∧ AboveZero 5 1 (Momentum.disparity up 2) ∧
    AboveZero 5 1 (Momentum.roc up 2) ∧ AboveZero 5 4 (Momentum.trix up 2) ∧ AboveZero 5 3 (Momentum.pmo up 2 2) ∧
    AboveZero 5 3 (Momentum.coppock up 2 1 2) ∧ AboveZero 5 1 (Distribution.zscore up 2) :=
  ⟨Momentum.macd_rising up 2 3 up_fins (by decide) (by decide) (by simp [up]) up_rising,
    Momentum.ppo_rising up 2 3 up_fins (by decide) (by decide) (by simp [up]) up_positive up_rising,
    Momentum.disparity_rising up 2 up_fins (by decide) (by simp [up]) up_positive up_rising,
    Momentum.roc_rising up 2 up_fins (by decide) (by simp [up]) up_positive up_rising,
    Momentum.trix_rising up 2 up_fins (by decide) (by simp [up]) up_positive up_rising,
    Momentum.pmo_rising up up_fins (by decide) (by decide) (by simp [up]) up_positive up_rising,
    Momentum.coppock_rising up 2 1 2 up_fins (by decide) (by decide) (by decide) (by simp [up]) up_positive up_rising,
    Distribution.zscore_rising up 2 (by decide) (by simp [up]) up_fins up_rising⟩

/-- ... and to five falling ones. -/
example : BelowZero 5 2 (Momentum.macd down 2 3) ∧ BelowZero 5 2 (Momentum.ppo down 2 3) ∧ BelowZero 5 1 (Momentum.disparity down 2) ∧
    BelowZero 5 1 (Momentum.roc down 2) ∧ BelowZero 5 4 (Momentum.trix down 2) ∧ BelowZero 5 3 (Momentum.pmo down 2 2) ∧
    BelowZero 5 3 (Momentum.coppock down 2 1 2) ∧ BelowZero 5 1 (Distribution.zscore down 2) :=
  ⟨Momentum.macd_falling down 2 3 down_fins (by decide) (by decide) (by simp [down]) down_falling,
    Momentum.ppo_falling down 2 3 down_fins (by decide) (by decide) (by simp [down]) down_positive down_falling,
    Momentum.disparity_falling down 2 down_fins (by decide) (by simp [down]) down_positive down_falling,
    Momentum.roc_falling down 2 down_fins (by decide) (by simp [down]) down_positive down_falling,
    Momentum.trix_falling down 2 down_fins (by decide) (by simp [down]) down_positive down_falling,
    Momentum.pmo_falling down down_fins (by decide) (by decide) (by simp [down]) down_positive down_falling,
    Momentum.coppock_falling down 2 1 2 down_fins (by decide) (by decide) (by decide) (by simp [down]) down_positive down_falling,
    Distribution.zscore_falling down 2 (by decide) (by simp [down]) down_fins down_falling⟩

private theorem flat0_bar (i : ℕ) : bar (vals flat0) i = 0 := by
  have hv : vals flat0 = List.replicate 5 0 := by simp only [vals, flat0, List.map_replicate, FP.val]
  rw [hv, bar, List.getD_eq_getElem?_getD, List.getElem?_replicate]
  split <;> rfl

private theorem up_over : Over (vals up) (vals flat0) := by
  intro i hi
  rw [flat0_bar]
  exact up_positive.bar hi

/-- Bars that open at their low of zero and close at their high: `qstick`, `bal_power` and `relative_vigor` are above zero, and so are the bull
line, `pgo` and `cci`. -/
example : AboveZero 5 1 (Momentum.qstick flat0 up 2) ∧ AboveZero 5 1 (Momentum.bal_power flat0 up flat0 up 2) ∧
    AboveZero 5 4 (Momentum.relative_vigor flat0 up flat0 up 2) ∧
    Items 5 1 (fun _ y => ∃ v : ℝ, y.1 ⇓ v ∧ 0 < v) (Momentum.elder_ray up flat0 up 2) ∧ AboveZero 5 2 (Momentum.pgo up flat0 up 2) ∧
    AboveZero 5 1 (Momentum.cci up up up 2) ∧ AboveZero 5 2 (Volume.elder_force up up 2) := by
  have f0 : Fins flat0 := fun x hx => by rw [(List.mem_replicate.1 hx).2]; trivial
  have l0 : flat0.length = 5 := by simp [flat0]
  have l1 : up.length = 5 := by simp [up]
  have k1 := Momentum.qstick_over flat0 up 2 (by omega) (by decide) (by omega) f0 up_fins up_over
  have k2 := Momentum.bal_power_over flat0 up flat0 up 2 (by omega) rfl (by omega) (by decide) f0 up_fins f0 up_fins up_over (by omega) up_over
  have k3 := Momentum.relative_vigor_over flat0 up flat0 up 2 (by omega) rfl (by omega) (by decide) f0 up_fins f0 up_fins up_over (by omega) up_over
  rw [l0] at k1 k2 k3
  refine ⟨k1, k2, k3, Momentum.elder_ray_rising up flat0 up 2 (by omega) rfl le_rfl up_fins f0 up_fins (by omega) up_rising (fun i _ => le_rfl),
    Momentum.pgo_rising up flat0 up 2 (by omega) rfl le_rfl up_fins f0 up_fins (by omega) up_rising (fun i hi => ⟨?_, le_rfl⟩),
    Momentum.cci_rising up up up 2 rfl rfl le_rfl up_fins up_fins up_fins (by omega) (fun i hi => ?_),
    Volume.elder_force_rising up up 2 rfl (by decide) (by omega) up_fins up_fins up_positive up_rising⟩
  · rw [flat0_bar]
    exact (up_positive.bar (by simpa using hi)).le
  · have := up_rising i (by simpa using hi)
    rw [Momentum.typicalAt, Momentum.typicalAt]
    linarith

end Traquer
