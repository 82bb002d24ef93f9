import Verif.Props.Composed
/-!
# C58, C68: oscillators made of averages and of relative changes
-/

namespace Traquer
open FP FloatLit
open Traquer.Trend (is_bar)

/-- `c * (x / y - 1)` is the relative change, with IEEE's answers for a zero base. -/
theorem quotIs_rel {c x y : XF} {k a b : ℝ} (hc : c ⇓ k) (hk : k ≠ 0) (hx : x ⇓ a) (hy : y ⇓ b) :
    QuotIs (k * (a - b)) b (c * (x / y - 1)) := by
  have q := quotIs hx hy
  refine ⟨fun hb => ?_, fun hb ha => ?_, fun hb ha => ?_⟩
  · refine (is_mul hc (is_sub (q.1 hb) is_one)).congr ?_
    field_simp
  · have : a = 0 := by
      subst hb
      rcases mul_eq_zero.1 ha with h | h
      · exact absurd h hk
      · simpa using h
    rw [q.2.1 hb this]
    rcases is_iff.1 hc with rfl | ⟨rfl, -⟩ <;> rfl
  · have : a ≠ 0 := by
      rintro rfl
      subst hb
      simp at ha
    obtain ⟨s, e⟩ := q.2.2 hb this
    have e1 : (inf s - 1 : XF) = inf s := by
      rcases is_iff.1 is_one with h | ⟨h, h2⟩
      · rw [h]; simp [sub_def, add, neg]
      · exact absurd h2 one_ne_zero
    rw [e, e1]
    rcases is_iff.1 hc with rfl | ⟨rfl, rfl⟩
    · exact ⟨_, by simp [mul_def, mul, hk]; rfl⟩
    · exact absurd rfl hk

/-- Consecutive values of a series, combined. -/
theorem reports_pairs {data : List XF} {f : XF × XF → XF} {g : ℕ → ℝ} (hn : 1 ≤ data.length)
    (h : ∀ i x y, data[i]? = some x → data[i + 1]? = some y → f (x, y) ⇓ g (i + 1)) :
    Reports data.length 1 g (some (nans 1 ++ (pairs data).map f)) := by
  refine reports_nans (by simp; omega) fun i hi => ?_
  simp only [List.length_map, pairs_length] at hi
  have e0 := getElem?_of_lt (show i < data.length by omega)
  have e1 := getElem?_of_lt (show i + 1 < data.length by omega)
  refine ⟨_, by rw [List.getElem?_map, pairs_getElem?, e0, e1]; rfl, ?_⟩
  rw [show 1 + i = i + 1 by omega]
  exact h i _ _ e0 e1

end Traquer

namespace Traquer.Momentum
open FP FloatLit
open Traquer.Trend (is_bar)
open Traquer.Smooth (ema1 ema2 ema3 ewma_next)

/-- C58: `macd` is the difference of the two exponential averages at the same bar. -/
theorem macd_reports (close : List XF) (short long : ℕ) (hs : 1 ≤ short) (hl : 1 ≤ long) (hn : max short long ≤ close.length)
    (hd : Fins close) : Reports close.length (max short long - 1)
      (fun i => ema1 short (bar (vals close)) i - ema1 long (bar (vals close)) i) (macd close short long) := by
  obtain ⟨m1, e1, r1, -⟩ := (ewma_values close short hs (by omega) hd).some
  obtain ⟨m2, e2, r2, -⟩ := (ewma_values close long hl (by omega) hd).some
  have := r1.zipWith r2 (f := fun (x, y) => x - y) (g := fun a b => a - b)
    (fun x y h => by nanp) (fun x y h => by nanp) (fun x y a b ha hb => is_sub ha hb)
  rw [show max (short - 1) (long - 1) = max short long - 1 by omega] at this
  simpa only [macd, e1, e2, Option.bind_eq_bind, Option.bind_some] using this

/-- C58: `apo` is the difference of the two exponential averages at the same bar. -/
theorem apo_reports (data : List XF) (short long : ℕ) (hs : 1 ≤ short) (hl : 1 ≤ long) (hn : max short long ≤ data.length)
    (hd : Fins data) : Reports data.length (max short long - 1)
      (fun i => ema1 short (bar (vals data)) i - ema1 long (bar (vals data)) i) (apo data short long) :=
  macd_reports data short long hs hl hn hd

/-- C58: `ppo` is the difference of the two exponential averages in percent of the long one. -/
theorem ppo_reports (data : List XF) (short long : ℕ) (hs : 1 ≤ short) (hl : 1 ≤ long) (hn : max short long ≤ data.length)
    (hd : Fins data) : ReportsP data.length (max short long - 1)
      (fun i => QuotIs (100 * (ema1 short (bar (vals data)) i - ema1 long (bar (vals data)) i)) (ema1 long (bar (vals data)) i))
      (ppo data short long) := by
  obtain ⟨m1, e1, r1, l1⟩ := (ewma_values data short hs (by omega) hd).some
  obtain ⟨m2, e2, r2, l2⟩ := (ewma_values data long hl (by omega) hd).some
  simp only [ppo, e1, e2, Option.bind_eq_bind, Option.bind_some]
  refine reportsP_map (by simp; omega) ?_ ?_
  · rintro i ⟨x, y⟩ hi hk
    obtain ⟨h1, h2⟩ := List.getElem?_zip_eq_some.1 hi
    by_cases h : i < short - 1
    · have := r1.at_nan h1 h
      nanp
    · have := r2.at_nan h2 (by omega)
      nanp
  · rintro i ⟨x, y⟩ hi hk
    obtain ⟨h1, h2⟩ := List.getElem?_zip_eq_some.1 hi
    exact quotIs_rel (is_lit 100) (by norm_num) (r1.at h1 (by omega)) (r2.at h2 (by omega))

/-- C58: `roc` at bar `i` is the change in percent since bar `i - (w - 1)`. -/
theorem roc_reports (data : List XF) (w : ℕ) (hw : 1 ≤ w) (hn : w ≤ data.length + 1) (hd : Fins data) :
    ReportsP data.length (w - 1) (fun i => QuotIs (100 * (bar (vals data) i - bar (vals data) (i - (w - 1)))) (bar (vals data) (i - (w - 1))))
      (roc data w) := by
  run_model [roc]
  refine reportsP_mapP_windows hw hn fun i h1 h2 => ?_
  have hl : (recent data w i).length = w := recent_length h1 h2
  have e0 := getElem?_of_lt (show i - (w - 1) < data.length by omega)
  have e1 := getElem?_of_lt h2
  have f0 : (recent data w i)[0]? = some data[i - (w - 1)] := by
    rw [← e0, recent, List.getElem?_take_of_lt (by omega), List.getElem?_drop]; congr 1; omega
  have f1 : (recent data w i)[w - 1]? = some data[i] := by
    rw [← e1, recent, List.getElem?_take_of_lt (by omega), List.getElem?_drop]; congr 1; omega
  refine ⟨_, by rw [hl, f0, f1]; rfl, ?_⟩
  exact quotIs_rel (is_lit 100) (by norm_num) (is_bar hd e1) (is_bar hd e0)

/-- C68: `disparity` is the distance of the price from its exponential average in percent of the average. -/
theorem disparity_reports (data : List XF) (w : ℕ) (hw : 1 ≤ w) (hn : w ≤ data.length) (hd : Fins data) :
    ReportsP data.length (w - 1) (fun i => QuotIs (100 * (bar (vals data) i - ema1 w (bar (vals data)) i)) (ema1 w (bar (vals data)) i))
      (disparity data w) := by
  obtain ⟨m1, e1, r1, l1⟩ := (ewma_values data w hw hn hd).some
  simp only [disparity, e1, Option.bind_eq_bind, Option.bind_some]
  refine reportsP_map (by simp; omega) ?_ ?_
  · rintro i ⟨x, y⟩ hi hk
    obtain ⟨h1, h2⟩ := List.getElem?_zip_eq_some.1 hi
    have := r1.at_nan h2 hk
    nanp
  · rintro i ⟨x, y⟩ hi hk
    obtain ⟨h1, h2⟩ := List.getElem?_zip_eq_some.1 hi
    have h2 := r1.at h2 hk
    exact quotIs (is_mul (is_lit 100) (is_sub (is_bar hd h1) h2)) h2

/-- C68: `qstick` is the exponential average of close less open. -/
theorem qstick_reports (openp close : List XF) (w : ℕ) (hc : close.length = openp.length) (hw : 1 ≤ w) (hn : w ≤ openp.length)
    (ho : Fins openp) (hd : Fins close) : Reports openp.length (w - 1)
      (ewmaFrom 0 w fun i => bar (vals close) i - bar (vals openp) i) (qstick openp close w) := by
  have r : Reports openp.length 0 (fun i => bar (vals close) i - bar (vals openp) i)
      (some ((close.zip openp).map fun (c, o) => c - o)) := by
    refine reports_map (by simp [hc]) (fun i b _ h => by omega) ?_
    rintro i ⟨x, y⟩ hi -
    obtain ⟨h1, h2⟩ := List.getElem?_zip_eq_some.1 hi
    exact is_sub (is_bar hd h1) (is_bar ho h2)
  obtain ⟨m, -, e, r', -⟩ := ewma_after r hw (by omega)
  rw [List.drop_zero] at e
  rw [qstick, e]
  simpa [nans] using r'

/-- C68: `bal_power` is the exponential average of (close - open) / (high - low), provided no bar has a zero range. -/
theorem bal_power_reports (openp high low close : List XF) (w : ℕ) (hh : high.length = openp.length) (hl : low.length = openp.length)
    (hc : close.length = openp.length) (hw : 1 ≤ w) (hn : w ≤ openp.length) (ho : Fins openp) (hf : Fins high) (hg : Fins low)
    (hd : Fins close) (h0 : ∀ i, i < openp.length → bar (vals high) i ≠ bar (vals low) i) : Reports openp.length (w - 1)
      (ewmaFrom 0 w fun i => (bar (vals close) i - bar (vals openp) i) / (bar (vals high) i - bar (vals low) i))
      (bal_power openp high low close w) := by
  have r : Reports openp.length 0 (fun i => (bar (vals close) i - bar (vals openp) i) / (bar (vals high) i - bar (vals low) i))
      (some ((zip4 openp high low close).map fun (o, h, l, c) => (c - o) / (h - l))) := by
    refine reports_map (by simp; omega) (fun i b _ h => by omega) ?_
    rintro i ⟨o, h, l, c⟩ hi -
    rw [zip4_getElem?] at hi
    exact is_div (is_sub (is_bar hd hi.2.2.2) (is_bar ho hi.1)) (is_sub (is_bar hf hi.2.1) (is_bar hg hi.2.2.1))
      (sub_ne_zero.2 (h0 i (List.getElem?_eq_some_iff.1 hi.1).1))
  obtain ⟨m, -, e, r', -⟩ := ewma_after r hw (by omega)
  rw [List.drop_zero] at e
  rw [bal_power, e]
  simpa [nans] using r'

/-- C68: the two lines of `elder_ray` are the high and the low less the exponential average of the close. -/
theorem elder_ray_items (high low close : List XF) (w : ℕ) (hl : low.length = high.length) (hc : close.length = high.length)
    (hw : 1 ≤ w) (hn : w ≤ high.length) (hf : Fins high) (hg : Fins low) (hd : Fins close) :
    Items high.length (w - 1) (fun i y => (y.1 ⇓ bar (vals high) i - ema1 w (bar (vals close)) i) ∧
      y.2 ⇓ bar (vals low) i - ema1 w (bar (vals close)) i) (elder_ray high low close w) := by
  obtain ⟨m1, e1, r1, l1⟩ := (ewma_values close w hw (by omega) hd).some
  simp only [elder_ray, e1, Option.bind_eq_bind, Option.bind_some]
  refine ⟨_, rfl, by simp; omega, fun i y hi hy => ?_⟩
  rw [List.getElem?_map] at hy
  obtain ⟨⟨h, l, c⟩, hz, rfl⟩ := Option.map_eq_some_iff.1 hy
  rw [zip3_getElem?] at hz
  have h3 := r1.at hz.2.2 hi
  exact ⟨is_sub (is_bar hf hz.1) h3, is_sub (is_bar hg hz.2.1) h3⟩

/-- C68: `trix` is the change in percent of the triple exponential average since the previous bar. -/
theorem trix_reports (close : List XF) (w : ℕ) (hw : 1 ≤ w) (hn : 3 * w ≤ close.length + 2) (hd : Fins close) :
    ReportsP close.length (3 * (w - 1) + 1) (fun i => QuotIs (100 * (ema3 w (bar (vals close)) i - ema3 w (bar (vals close)) (i - 1)))
      (ema3 w (bar (vals close)) (i - 1))) (trix close w) := by
  obtain ⟨m1, e1, r1, l1⟩ := (ewma_values close w hw (by omega) hd).some
  obtain ⟨m2, s1, e2, r2, l2⟩ := ewma_after r1 hw (by omega)
  obtain ⟨m3, s2, e3, r3, l3⟩ := ewma_next r2 hw (by omega)
  have s3 : sliceFrom m3 1 = some (m3.drop 1) := sliceFrom_of_le (by omega)
  simp only [trix, e1, s1, e2, s2, e3, s3, usub_of_le hw, Option.bind_eq_bind, Option.bind_some]
  have key : ReportsP (close.length - (w - 1 + (w - 1)) - 1) (w - 1) (fun i => QuotIs
      (100 * (ema3 w (bar (vals close)) (w - 1 + (w - 1) + 1 + i) - ema3 w (bar (vals close)) (w - 1 + (w - 1) + i)))
      (ema3 w (bar (vals close)) (w - 1 + (w - 1) + i)))
      (some ((m3.zip (m3.drop 1)).map fun (prev, curr) => 100 * (curr - prev) / prev)) := by
    have r3' := r3.tail (w - 1 + (w - 1)) (by omega)
    rw [List.drop_append, List.drop_eq_nil_of_le (by simp), List.nil_append, nans_length, Nat.sub_self, List.drop_zero] at r3'
    refine reportsP_map (by simp; omega) ?_ ?_
    · rintro i ⟨x, y⟩ hi hk
      obtain ⟨h1, h2⟩ := List.getElem?_zip_eq_some.1 hi
      have := r3'.at_nan h1 (by omega)
      nanp
    · rintro i ⟨x, y⟩ hi hk
      obtain ⟨h1, h2⟩ := List.getElem?_zip_eq_some.1 hi
      rw [List.getElem?_drop] at h2
      have h1 := r3'.at h1 (by omega)
      have h2 := r3'.at h2 (by omega)
      rw [← Nat.add_assoc] at h2
      rw [ema3, show 2 * (w - 1) = w - 1 + (w - 1) by omega]
      exact quotIs (is_mul (is_lit 100) (is_sub h2 h1)) h1
  refine ((key.pad ((w - 1) * 2 + 1)).cast (by omega) (by omega)).mono fun i y h1 _ h => ?_
  rwa [show w - 1 + (w - 1) + 1 + (i - ((w - 1) * 2 + 1)) = i by omega,
    show w - 1 + (w - 1) + (i - ((w - 1) * 2 + 1)) = i - 1 by omega] at h

/-- C68: `pmo` is the exponential average of the exponential average of ten times the change in percent. -/
theorem pmo_reports (data : List XF) (w1 w2 : ℕ) (h1 : 1 ≤ w1) (h2 : 1 ≤ w2) (hn : w1 + w2 ≤ data.length) (hd : Fins data)
    (h0 : ∀ x ∈ data, ¬ x ⇓ 0) : Reports data.length (w1 + (w2 - 1))
      (ewmaFrom w1 w2 (ewmaFrom 1 w1 fun i => 1000 * (bar (vals data) i / bar (vals data) (i - 1) - 1))) (pmo data w1 w2) := by
  have r := reports_pairs (data := data) (f := fun (p0, p1) => 1000 * (p1 / p0 - 1))
    (g := fun i => 1000 * (bar (vals data) i / bar (vals data) (i - 1) - 1)) (by omega) (by
      intro i x y hx hy
      have hx' := is_bar hd hx
      refine is_mul (is_lit 1000) (is_sub (is_div (is_bar hd hy) (by simpa using hx') ?_) is_one)
      intro hz
      rw [show i + 1 - 1 = i by omega] at hz
      exact h0 x (List.mem_of_getElem? hx) (hx'.congr hz))
  obtain ⟨m1, -, e1, r1, l1⟩ := ewma_next (j := 1) (k := 0) r h1 (by omega)
  obtain ⟨m2, s1, e2, r2, l2⟩ := ewma_next r1 h2 (by omega)
  rw [List.drop_zero] at e1
  simp only [pmo, e1, s1, e2, usub_of_le h1, Option.bind_eq_bind, Option.bind_some]
  rw [show 1 + 0 + (w1 - 1) = w1 by omega] at r2
  exact r2

end Traquer.Momentum
