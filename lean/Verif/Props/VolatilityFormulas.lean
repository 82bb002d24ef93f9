import Verif.Props.Oscillators2
import Verif.Props.Kendall
import Mathlib.Analysis.Complex.ExponentialBounds
/-!
# C70: the volatility measures compute their published formulas
-/

namespace Traquer
open FP FloatLit
open Traquer.Trend (is_bar)

/-- A statistic of the windows of a series that starts at bar `k`. -/
theorem reportsP_windows_of {n k w : ℕ} {v : ℕ → ℝ} {m : List XF} {f : List XF → XF} {P : ℕ → XF → Prop}
    (hm : Reports n k v (some (nans k ++ m))) (hw : 1 ≤ w) (hn : k + w ≤ n + 1)
    (h : ∀ i l, k + (w - 1) ≤ i → i < n → l.length = w → Fins l → vals l = lastOf v w i → P i (f l)) :
    ReportsP n (k + (w - 1)) P (some (nans (k + (w - 1)) ++ (windowsOf w m).map f)) := by
  have lm : k + m.length = n := by simpa using hm.length
  refine ⟨_, rfl, by simp; omega, fun i hi _ => ?_, fun i hi hin => ?_⟩
  · rw [List.getElem?_append_left (by simpa using hi), nans, List.getElem?_replicate, if_pos hi]
  · rw [List.getElem?_append_right (by simpa using hi), List.getElem?_map]
    have hr := windowsOf_recent (l := m) (w := w) (i := i - k) hw (by omega) (by omega)
    have e : recent m w (i - k) = recent (nans k ++ m) w i := by
      show (m.drop (i - k + 1 - w)).take w = ((nans k ++ m).drop (i + 1 - w)).take w
      rw [List.drop_append, List.drop_of_length_le (l := nans k) (by simp; omega), List.nil_append]
      congr 2; simp; omega
    obtain ⟨h1, h2⟩ := hm.recent (w := w) (i := i) (by omega) hin
    rw [nans_length, show i - (k + (w - 1)) = i - k - (w - 1) by omega, hr, e]
    exact ⟨_, rfl, h i _ hi hin (recent_length (by omega) (by simp; omega)) h1 h2⟩

theorem reports_windows_of {n k w : ℕ} {v v' : ℕ → ℝ} {m : List XF} {f : List XF → XF}
    (hm : Reports n k v (some (nans k ++ m))) (hw : 1 ≤ w) (hn : k + w ≤ n + 1)
    (h : ∀ i l, k + (w - 1) ≤ i → i < n → l.length = w → Fins l → vals l = lastOf v w i → f l ⇓ v' i) :
    Reports n (k + (w - 1)) v' (some (nans (k + (w - 1)) ++ (windowsOf w m).map f)) :=
  reportsP_windows_of (P := fun i y => y ⇓ v' i) hm hw hn h

theorem reportsP_nans {n k : ℕ} {P : ℕ → XF → Prop} {r : List XF} (hn : k + r.length = n)
    (h : ∀ i y, r[i]? = some y → P (k + i) y) : ReportsP n k P (some (nans k ++ r)) := by
  refine ⟨_, rfl, by simp; omega, fun i hi _ => ?_, fun i hi hin => ?_⟩
  · rw [List.getElem?_append_left (by simpa using hi), nans, List.getElem?_replicate, if_pos hi]
  · rw [List.getElem?_append_right (by simpa using hi), nans_length]
    have e := getElem?_of_lt (show i - k < r.length by omega)
    refine ⟨_, e, ?_⟩
    have := h _ _ e
    rwa [show k + (i - k) = i by omega] at this

/-- The `i`-th window ends at bar `i + w - 1`. -/
theorem windowsOf_at {α : Type} {l x : List α} {w i : ℕ} (hw : 1 ≤ w) (h : (windowsOf w l)[i]? = some x) :
    x = recent l w (i + w - 1) ∧ i + w ≤ l.length := by
  have hl := (List.getElem?_eq_some_iff.1 h).1
  simp only [windowsOf_length] at hl
  have := windowsOf_recent (l := l) (w := w) (i := i + w - 1) hw (by omega) (by omega)
  rw [show i + w - 1 - (w - 1) = i by omega, h] at this
  exact ⟨Option.some.inj this, by omega⟩

theorem lastOf_bar {l : List ℝ} {w i : ℕ} (h1 : w ≤ i + 1) (h2 : i < l.length) : lastOf (bar l) w i = recent l w i := by
  apply List.ext_getElem?
  intro j
  show _ = ((l.drop (i + 1 - w)).take w)[j]?
  by_cases hj : j < w
  · rw [List.getElem?_take_of_lt hj, List.getElem?_drop, lastOf, List.getElem?_map, List.getElem?_range hj, Option.map_some,
      some_bar (by omega)]
  · rw [List.getElem?_eq_none (by simp [lastOf]; omega), List.getElem?_eq_none (by simp; omega)]

theorem maxOf_recent {l : List XF} (hf : Fins l) {w i : ℕ} (hw : 1 ≤ w) (h1 : w ≤ i + 1) (h2 : i < l.length) :
    Volatility.foldMax (recent l w i) ⇓ maxOf (recent (vals l) w i) := by
  rw [← recent_vals]
  exact foldMax_is (hf.recent w i) (List.ne_nil_of_length_pos (by rw [recent_length h1 h2]; omega))

theorem minOf_recent {l : List XF} (hf : Fins l) {w i : ℕ} (hw : 1 ≤ w) (h1 : w ≤ i + 1) (h2 : i < l.length) :
    Volatility.foldMin (recent l w i) ⇓ minOf (recent (vals l) w i) := by
  rw [← recent_vals]
  exact foldMin_is (hf.recent w i) (List.ne_nil_of_length_pos (by rw [recent_length h1 h2]; omega))

/-- The values of a window of a series without its first values. -/
theorem recent_drop {α : Type} (l : List α) (k w i : ℕ) (h : w ≤ i + 1) : recent (l.drop k) w i = recent l w (k + i) := by
  show ((l.drop k).drop (i + 1 - w)).take w = (l.drop (k + i + 1 - w)).take w
  rw [List.drop_drop]
  congr 2; omega

/-- The sum over a window of a series that starts at bar `k`. -/
theorem fsum_window {n k w i : ℕ} {v : ℕ → ℝ} {m : List XF} (hm : Reports n k v (some (nans k ++ m))) (h1 : w ≤ i + 1) (h2 : k + i < n) :
    fsum (recent m w i) ⇓ (lastOf v w (k + i)).sum := by
  obtain ⟨f1, f2⟩ := hm.recent (w := w) (i := k + i) (by omega) h2
  have e : recent (nans k ++ m) w (k + i) = recent m w i := by
    rw [← recent_drop _ _ _ _ h1, List.drop_left' (by simp)]
  rw [e] at f1 f2
  rw [← f2]
  exact f1.fsum

/-- The first and the last value of a window. -/
theorem recent_ends {α : Type} {l : List α} {k i : ℕ} (h : k ≤ i) (hi : i < l.length) :
    (recent l (k + 1) i).head? = l[i - k]? ∧ (recent l (k + 1) i).getLast? = l[i]? := by
  have hl : (recent l (k + 1) i).length = k + 1 := recent_length (by omega) hi
  rw [List.getLast?_eq_getElem?, List.head?_eq_getElem?, hl]
  constructor
  · show ((l.drop (i + 1 - (k + 1))).take (k + 1))[0]? = _
    rw [List.getElem?_take_of_lt (by omega), List.getElem?_drop]
    congr 1; omega
  · show ((l.drop (i + 1 - (k + 1))).take (k + 1))[k + 1 - 1]? = _
    rw [List.getElem?_take_of_lt (by omega), List.getElem?_drop]
    congr 1; omega

theorem bar_pos {l : List ℝ} (h : ∀ x ∈ l, 0 < x) {i : ℕ} (hi : i < l.length) : 0 < bar l i :=
  h _ (by simp [bar, hi])

/-- The logarithmic return of bar `i`. -/
noncomputable def logReturn (x : List ℝ) (i : ℕ) : ℝ := Real.log (bar x i / bar x (i - 1))

end Traquer

namespace Traquer.Volatility
open FP FloatLit
open Traquer.Trend (is_bar)

/-- C70: `wcp` counts the close twice. -/
theorem wcp_reports (high low close : List XF) (hl : low.length = high.length) (hc : close.length = high.length)
    (fh : Fins high) (fl : Fins low) (fc : Fins close) : Reports high.length 0
      (fun i => (bar (vals high) i + bar (vals low) i + 2 * bar (vals close) i) / 4) (some (wcp high low close)) := by
  refine reports_map (by simp [hl, hc]) (fun i b _ hi => by omega) ?_
  rintro i ⟨h, l, c⟩ hi -
  rw [zip3_getElem?] at hi
  exact is_div (is_add (is_add (is_bar fh hi.1) (is_bar fl hi.2.1)) (is_mul (is_lit 2) (is_bar fc hi.2.2))) (is_lit 4) (by norm_num)

/-- The logarithmic returns of positive prices. -/
theorem logReturns {data : List XF} (hn : 1 ≤ data.length) (hd : Fins data) (hp : ∀ x ∈ vals data, 0 < x) :
    Reports data.length 1 (logReturn (vals data)) (some (nans 1 ++ (pairs data).map fun p => ln (p.2 / p.1))) := by
  refine reports_pairs hn fun i x y hx hy => ?_
  have p1 := bar_pos hp (i := i) (by simpa using (List.getElem?_eq_some_iff.1 hx).1)
  have p2 := bar_pos hp (i := i + 1) (by simpa using (List.getElem?_eq_some_iff.1 hy).1)
  exact is_ln (is_div (is_bar hd hy) (is_bar hd hx) p1.ne') (div_pos p2 p1)

/-- C70: `hv` is the standard deviation of the logarithmic returns of the window, scaled by the square root of `252 * deviations`. -/
theorem hv_reports (data : List XF) (w : ℕ) (dev : Option XF) (d : ℝ) (hw : 1 ≤ w) (hn : w ≤ data.length) (hd : Fins data)
    (hp : ∀ x ∈ vals data, 0 < x) (hdev : dev.getD 1 ⇓ d) (h0 : 0 ≤ d) : Reports data.length w
      (fun i => √(252 * d * moment 2 (lastOf (logReturn (vals data)) w i))) (hv data w dev) := by
  have wr : (w : ℝ) ≠ 0 := by positivity
  have key := reports_windows_of (w := w) (f := fun l => sqrt (fsum (l.map fun x => powi (x - fsum l / flt w) 2) * (252 * dev.getD 1) / flt w))
    (v' := fun i => √(252 * d * moment 2 (lastOf (logReturn (vals data)) w i))) (logReturns (by omega) hd hp) hw (by omega) (by
      intro i l hi hin hl hf hv
      have hm : fsum l / flt w ⇓ mean (vals l) := by
        rw [mean, show ((vals l).length : ℝ) = w by simp [hl]]
        exact is_div hf.fsum (is_flt w) wr
      obtain ⟨f1, f2⟩ := vals_map_of (v := l) (f := fun x => powi (x - fsum l / flt w) 2)
        (r := (vals l).map fun x => (x - mean (vals l)) ^ 2) (by simp) (by
          intro j b hb
          refine ⟨_, by rw [List.getElem?_map, vals_getElem?, hb]; rfl, is_powi 2 (is_sub (hf b (List.mem_of_getElem? hb)).is hm)⟩)
      have hs := f1.fsum
      rw [f2] at hs
      have hmom : ((vals l).map fun x => (x - mean (vals l)) ^ 2).sum = w * moment 2 (vals l) := by
        have : ((vals l).length : ℝ) = w := by simp [hl]
        rw [moment]
        generalize mean (vals l) = c
        rw [mean, List.length_map, this]
        field_simp
      have m0 : 0 ≤ moment 2 (vals l) := mean_nonneg (by
        intro x hx
        obtain ⟨y, -, rfl⟩ := List.mem_map.1 hx
        positivity)
      have q := (is_div (is_mul hs (is_mul (is_lit 252) hdev)) (is_flt w) wr).congr (b := 252 * d * moment 2 (vals l)) (by
        rw [hmom]
        field_simp)
      rw [← hv]
      exact is_sqrt q (by positivity))
  run_model [hv]
  rw [show 1 + (w - 1) = w by omega] at key
  exact key

/-- C70: `cc_hv` is the root of 252 times the mean squared logarithmic return of the window. -/
theorem cc_hv_reports (data : List XF) (w : ℕ) (hw : 1 ≤ w) (hn : w ≤ data.length) (hd : Fins data)
    (hp : ∀ x ∈ vals data, 0 < x) : Reports data.length w
      (fun i => √(252 * mean (lastOf (fun j => logReturn (vals data) j ^ 2) w i))) (cc_hv data w) := by
  have wr : (w : ℝ) ≠ 0 := by positivity
  have base : Reports data.length 1 (fun j => logReturn (vals data) j ^ 2) (some (nans 1 ++ (pairs data).map fun p => powi (ln (p.2 / p.1)) 2)) := by
    refine reports_pairs (by omega) fun i x y hx hy => ?_
    have p1 := bar_pos hp (i := i) (by simpa using (List.getElem?_eq_some_iff.1 hx).1)
    have p2 := bar_pos hp (i := i + 1) (by simpa using (List.getElem?_eq_some_iff.1 hy).1)
    exact is_powi 2 (is_ln (is_div (is_bar hd hy) (is_bar hd hx) p1.ne') (div_pos p2 p1))
  have key := reports_windows_of (w := w) (f := fun l => sqrt (fsum l * 252 / flt w))
    (v' := fun i => √(252 * mean (lastOf (fun j => logReturn (vals data) j ^ 2) w i))) base hw (by omega) (by
      intro i l hi hin hl hf hv
      rw [← hv]
      refine is_sqrt ((is_div (is_mul hf.fsum (is_lit 252)) (is_flt w) wr).congr ?_) (mul_nonneg (by norm_num) (mean_nonneg (by
        rw [hv]
        intro x hx
        obtain ⟨y, -, rfl⟩ := List.mem_map.1 hx
        positivity)))
      rw [mean, show ((vals l).length : ℝ) = w by simp [hl], show (OfNat.ofNat 252 : ℝ) = 252 from rfl]
      ring)
  run_model [cc_hv]
  rw [show 1 + (w - 1) = w by omega] at key
  exact key

/-- The Garman-Klass variance of bar `i` with Yang and Zhang's overnight term. -/
noncomputable def gkyzOf (openp high low close : List ℝ) (i : ℕ) : ℝ :=
  Real.log (bar openp i / bar close (i - 1)) ^ 2 + Real.log (bar high i / bar low i) ^ 2 / 2 -
    (2 * Real.log 2 - 1) * Real.log (bar close i / bar openp i) ^ 2

/-- It is not negative for a bar whose open and close lie within its range. -/
theorem gkyzOf_nonneg {openp high low close : List ℝ} {i : ℕ} (h0 : 0 < bar low i) (h1 : bar low i ≤ bar openp i)
    (h2 : bar openp i ≤ bar high i) (h3 : bar low i ≤ bar close i) (h4 : bar close i ≤ bar high i) :
    0 ≤ gkyzOf openp high low close i := by
  have ho := h0.trans_le h1
  have hc := h0.trans_le h3
  have hh := ho.trans_le h2
  have l1 := Real.log_le_log h0 h1
  have l2 := Real.log_le_log ho h2
  have l3 := Real.log_le_log h0 h3
  have l4 := Real.log_le_log hc h4
  rw [gkyzOf, Real.log_div hh.ne' h0.ne', Real.log_div hc.ne' ho.ne']
  have b1 := Real.log_two_lt_d9
  have b2 := Real.log_two_gt_d9
  set H := Real.log (bar high i)
  set L := Real.log (bar low i)
  set C := Real.log (bar close i)
  set O := Real.log (bar openp i)
  have q : (C - O) ^ 2 ≤ (H - L) ^ 2 := by
    apply sq_le_sq'
    · linarith
    · linarith
  have q1 : (2 * Real.log 2 - 1) * (C - O) ^ 2 ≤ 1 / 2 * (H - L) ^ 2 := by
    calc (2 * Real.log 2 - 1) * (C - O) ^ 2 ≤ 1 / 2 * (C - O) ^ 2 := mul_le_mul_of_nonneg_right (by linarith) (sq_nonneg _)
      _ ≤ _ := by linarith
  have q2 := sq_nonneg (Real.log (bar openp i / bar close (i - 1)))
  linarith

/-- C70: `gkyz_hv` is the root of 252 times the mean Garman-Klass-Yang-Zhang variance of the window. In particular it is a number for
every series of positive bars whose open and close lie within the range. -/
theorem gkyz_hv_reports (openp high low close : List XF) (w : ℕ) (hh : high.length = openp.length) (hl : low.length = openp.length)
    (hc : close.length = openp.length) (hw : 1 ≤ w) (hn : w ≤ openp.length) (fo : Fins openp) (fh : Fins high) (fl : Fins low)
    (fc : Fins close) (h0 : ∀ i, i < openp.length → 0 < bar (vals low) i ∧
      bar (vals low) i ≤ bar (vals openp) i ∧ bar (vals openp) i ≤ bar (vals high) i ∧
      bar (vals low) i ≤ bar (vals close) i ∧ bar (vals close) i ≤ bar (vals high) i) : Reports openp.length w
      (fun i => √(252 * mean (lastOf (gkyzOf (vals openp) (vals high) (vals low) (vals close)) w i))) (gkyz_hv openp high low close w) := by
  have wr : (w : ℝ) ≠ 0 := by positivity
  have base : Reports openp.length 1 (gkyzOf (vals openp) (vals high) (vals low) (vals close)) (some (nans 1 ++
      (zip5 (openp.drop 1) (high.drop 1) (low.drop 1) (close.drop 1) close).map fun (o, h, l, c, c0) => gkyzTerm o h l c c0)) := by
    refine reports_nans (by simp [hh, hl, hc]; omega) fun i hi => ?_
    refine ⟨_, getElem?_of_lt hi, ?_⟩
    simp only [List.length_map] at hi
    have e := getElem?_of_lt hi
    obtain ⟨⟨o, h, l, c, c0⟩, ex⟩ : ∃ x, x = (zip5 (openp.drop 1) (high.drop 1) (low.drop 1) (close.drop 1) close)[i] := ⟨_, rfl⟩
    rw [List.getElem_map, ← ex]
    rw [← ex, zip5_getElem?] at e
    simp only [List.getElem?_drop] at e
    obtain ⟨e1, e2, e3, e4, e5⟩ := e
    have hi1 := (List.getElem?_eq_some_iff.1 e1).1
    obtain ⟨g0, g1, g2, g3, g4⟩ := h0 (1 + i) hi1
    have p0 := (h0 i (by omega)).1.trans_le (h0 i (by omega)).2.2.2.1
    have po := g0.trans_le g1
    have pc := g0.trans_le g3
    have ph := po.trans_le g2
    have half : (0.5 : XF) ⇓ (1 / 2 : ℝ) := (is_sci 5 true 1).congr (by norm_num)
    have b1 := is_bar fo e1
    have b2 := is_bar fh e2
    have b3 := is_bar fl e3
    have b4 := is_bar fc e4
    have b5 := is_bar fc e5
    refine (is_sub (is_add (is_powi 2 (is_ln (is_div b1 b5 p0.ne') (div_pos po p0)))
      (is_mul half (is_powi 2 (is_ln (is_div b2 b3 g0.ne') (div_pos ph g0)))))
      (is_mul (is_sub (is_mul (is_lit 2) (is_ln (is_lit 2) (by norm_num))) is_one)
        (is_powi 2 (is_ln (is_div b4 b1 po.ne') (div_pos pc po))))).congr ?_
    rw [gkyzOf, show 1 + i - 1 = i by omega, show (OfNat.ofNat 2 : ℝ) = 2 from rfl]
    ring
  have key := reports_windows_of (w := w) (f := fun l => sqrt (fsum l * 252 / flt w))
    (v' := fun i => √(252 * mean (lastOf (gkyzOf (vals openp) (vals high) (vals low) (vals close)) w i))) base hw (by omega) (by
      intro i l hi hin hl hf hv
      rw [← hv]
      refine is_sqrt ((is_div (is_mul hf.fsum (is_lit 252)) (is_flt w) wr).congr ?_) (mul_nonneg (by norm_num) (mean_nonneg (by
        rw [hv]
        intro x hx
        obtain ⟨y, hy, rfl⟩ := List.mem_map.1 hx
        have := List.mem_range.1 hy
        obtain ⟨g0, g1, g2, g3, g4⟩ := h0 (i + 1 - w + y) (by omega)
        exact gkyzOf_nonneg g0 g1 g2 g3 g4)))
      rw [mean, show ((vals l).length : ℝ) = w by simp [hl], show (OfNat.ofNat 252 : ℝ) = 252 from rfl]
      ring)
  run_model [gkyz_hv]
  rw [show 1 + (w - 1) = w by omega] at key
  exact key

/-- C70: `vhf` is the range of the window over the distance the close travelled in it. -/
theorem vhf_reports (high low close : List XF) (w : ℕ) (hl : low.length = high.length) (hc : close.length = high.length)
    (hw : 1 ≤ w) (hn : w ≤ high.length) (fh : Fins high) (fl : Fins low) (fc : Fins close) : ReportsP high.length w
      (fun i => QuotIs (maxOf (recent (vals high) w i) - minOf (recent (vals low) w i))
        (lastOf (fun j => |bar (vals close) j - bar (vals close) (j - 1)|) w i).sum) (vhf high low close w) := by
  have base : Reports close.length 1 (fun j => |bar (vals close) j - bar (vals close) (j - 1)|)
      (some (nans 1 ++ (pairs close).map fun (prev, curr) => fabs (curr - prev))) :=
    reports_pairs (by omega) fun i x y hx hy => is_abs (is_sub (is_bar fc hy) (is_bar fc hx))
  run_model [vhf]
  refine reportsP_nans (by simp [hl, hc]; omega) ?_
  intro i y hy
  rw [List.getElem?_map] at hy
  obtain ⟨⟨d, h, l⟩, hz, rfl⟩ := Option.map_eq_some_iff.1 hy
  rw [zip3_getElem?] at hz
  simp only [List.getElem?_drop] at hz
  obtain ⟨rfl, -⟩ := windowsOf_at hw hz.1
  obtain ⟨rfl, l2⟩ := windowsOf_at hw hz.2.1
  obtain ⟨rfl, l3⟩ := windowsOf_at hw hz.2.2
  have e : 1 + i + w - 1 = w + i := by omega
  rw [e]
  have := fsum_window (w := w) (i := i + w - 1) base (by omega) (by omega)
  rw [show 1 + (i + w - 1) = w + i by omega] at this
  exact quotIs (is_sub (maxOf_recent fh hw (by omega) (by omega)) (minOf_recent fl hw (by omega) (by omega))) this

/-- C70: `chop` is `100 * ln (sum of true ranges / range) / ln w` over the window, wherever both are positive. -/
theorem chop_reports (high low close : List XF) (w : ℕ) (hl : low.length = high.length) (hc : close.length = high.length)
    (hw : 2 ≤ w) (hn : w ≤ high.length) (fh : Fins high) (fl : Fins low) (fc : Fins close) : ReportsP high.length w
      (fun i y => 0 < (lastOf (trAt (vals high) (vals low) (vals close)) w i).sum →
        0 < maxOf (recent (vals high) w i) - minOf (recent (vals low) w i) →
        y ⇓ 100 * Real.log ((lastOf (trAt (vals high) (vals low) (vals close)) w i).sum /
          (maxOf (recent (vals high) w i) - minOf (recent (vals low) w i))) / Real.log w) (chop high low close w) := by
  obtain ⟨t, et, lt, rt⟩ := trueRange_values hl hc (by omega) fh fl fc
  run_model [chop, et]
  refine reportsP_nans (by simp [hl, lt]; omega) ?_
  intro i y hy p1 p2
  rw [List.getElem?_map] at hy
  obtain ⟨⟨h, l, d⟩, hz, rfl⟩ := Option.map_eq_some_iff.1 hy
  rw [zip3_getElem?] at hz
  obtain ⟨rfl, l1⟩ := windowsOf_at (by omega) hz.1
  obtain ⟨rfl, l2⟩ := windowsOf_at (by omega) hz.2.1
  obtain ⟨rfl, l3⟩ := windowsOf_at (by omega) hz.2.2
  have e : 1 + (i + w - 1) = w + i := by omega
  simp only [List.length_drop] at l1 l2
  have hs := fsum_window (w := w) (i := i + w - 1) rt (by omega) (by omega)
  rw [e] at hs
  rw [recent_drop _ _ _ _ (by omega), recent_drop _ _ _ _ (by omega), e]
  have hr := is_sub (maxOf_recent fh (w := w) (i := w + i) (by omega) (by omega) (by omega)) (minOf_recent fl (w := w) (i := w + i) (by omega) (by omega) (by omega))
  have w1 : (1 : ℝ) < w := by exact_mod_cast (by omega : 1 < w)
  exact is_div (is_mul (is_lit 100) (is_ln (is_div hs hr p2.ne') (div_pos p1 p2))) (is_ln (is_flt w) (by linarith)) (Real.log_pos w1).ne'

/-- Bars whose close lies within their range: a high exceeds a low of the same stretch by at most the sum of the true ranges. -/
theorem range_le_sum {high low close : List ℝ} {a : ℕ} (k : ℕ)
    (hs : ∀ j, a ≤ j → j ≤ a + k → bar low j ≤ bar close j ∧ bar close j ≤ bar high j) :
    (∀ x, a ≤ x → x ≤ a + k →
      bar high x - bar close (a + k) ≤ ((List.range (k + 1)).map fun j => trAt high low close (a + j)).sum ∧
      bar close (a + k) - bar low x ≤ ((List.range (k + 1)).map fun j => trAt high low close (a + j)).sum) ∧
    ∀ x y, a ≤ x → x ≤ a + k → a ≤ y → y ≤ a + k →
      bar high x - bar low y ≤ ((List.range (k + 1)).map fun j => trAt high low close (a + j)).sum := by
  induction k with
  | zero =>
    have t : bar high a - bar low a ≤ trAt high low close a := le_max_left _ _
    obtain ⟨s1, s2⟩ := hs a le_rfl (by omega)
    constructor
    · intro x h1 h2
      obtain rfl : x = a := by omega
      simp only [Nat.zero_add, List.range_one, List.map_cons, List.map_nil, List.sum_singleton, Nat.add_zero]
      constructor <;> linarith
    · intro x y h1 h2 h3 h4
      obtain rfl : x = a := by omega
      obtain rfl : y = x := by omega
      simpa using t
  | succ k ih =>
    obtain ⟨ih1, ih2⟩ := ih fun j h1 h2 => hs j h1 (by omega)
    have tr0 : ∀ j, 0 ≤ trAt high low close j := fun j => le_trans (abs_nonneg _) ((le_max_left _ _).trans (le_max_right _ _))
    rw [List.range_succ, List.map_append, List.sum_append]
    simp only [List.map_cons, List.map_nil, List.sum_singleton]
    set S := ((List.range (k + 1)).map fun j => trAt high low close (a + j)).sum
    have S0 : 0 ≤ S := List.sum_nonneg (by
      intro x hx
      obtain ⟨y, -, rfl⟩ := List.mem_map.1 hx
      exact tr0 _)
    have t1 : bar high (a + (k + 1)) - bar low (a + (k + 1)) ≤ trAt high low close (a + (k + 1)) := le_max_left _ _
    have t2 : |bar high (a + (k + 1)) - bar close (a + k)| ≤ trAt high low close (a + (k + 1)) :=
      (le_max_left _ _).trans (le_max_right _ _)
    have t3 : |bar low (a + (k + 1)) - bar close (a + k)| ≤ trAt high low close (a + (k + 1)) :=
      (le_max_right _ _).trans (le_max_right _ _)
    obtain ⟨-, t2⟩ := abs_le.1 t2
    obtain ⟨t3, -⟩ := abs_le.1 t3
    obtain ⟨s1, s2⟩ := hs (a + (k + 1)) (by omega) (by omega)
    constructor
    · intro x h1 h2
      by_cases hx : x ≤ a + k
      · obtain ⟨p, q⟩ := ih1 x h1 hx
        constructor <;> linarith
      · obtain rfl : x = a + (k + 1) := by omega
        constructor <;> linarith
    · intro x y h1 h2 h3 h4
      by_cases hx : x ≤ a + k <;> by_cases hy : y ≤ a + k
      · have := ih2 x y h1 hx h3 hy
        linarith [tr0 (a + (k + 1))]
      · obtain rfl : y = a + (k + 1) := by omega
        linarith [(ih1 x h1 hx).1]
      · obtain rfl : x = a + (k + 1) := by omega
        linarith [(ih1 y h3 hy).2]
      · obtain rfl : y = a + (k + 1) := by omega
        obtain rfl : x = a + (k + 1) := by omega
        linarith

theorem mem_recent_bar {l : List ℝ} {w i : ℕ} (h1 : w ≤ i + 1) (h2 : i < l.length) {x : ℝ} (h : x ∈ recent l w i) :
    ∃ j, i + 1 - w ≤ j ∧ j ≤ i ∧ x = bar l j := by
  rw [← lastOf_bar h1 h2] at h
  obtain ⟨j, hj, rfl⟩ := List.mem_map.1 h
  have := List.mem_range.1 hj
  exact ⟨_, by omega, by omega, rfl⟩

/-- C70: `chop` is never negative: for bars whose close lies within their range it is a non-negative number wherever the range of the
window is not 0. -/
theorem chop_nonneg (high low close : List XF) (w : ℕ) (hl : low.length = high.length) (hc : close.length = high.length)
    (hw : 2 ≤ w) (hn : w ≤ high.length) (fh : Fins high) (fl : Fins low) (fc : Fins close)
    (hs : ∀ i, i < high.length → bar (vals low) i ≤ bar (vals close) i ∧ bar (vals close) i ≤ bar (vals high) i) : ReportsP high.length w
      (fun i y => maxOf (recent (vals high) w i) ≠ minOf (recent (vals low) w i) → ∃ r, y ⇓ r ∧ 0 ≤ r) (chop high low close w) := by
  refine (chop_reports high low close w hl hc hw hn fh fl fc).mono fun i y hi hin h hne => ?_
  have lh : (recent (vals high) w i).length = w := recent_length (by omega) (by simpa using hin)
  have ll : (recent (vals low) w i).length = w := recent_length (by omega) (by simp; omega)
  obtain ⟨x, x1, x2, ex⟩ := mem_recent_bar (l := vals high) (w := w) (i := i) (by omega) (by simpa using hin) (maxOf_mem (List.ne_nil_of_length_pos (by rw [lh]; omega)))
  obtain ⟨z, z1, z2, ez⟩ := mem_recent_bar (l := vals low) (w := w) (i := i) (by omega) (by simp; omega) (minOf_mem (List.ne_nil_of_length_pos (by rw [ll]; omega)))
  have key := (range_le_sum (high := vals high) (low := vals low) (close := vals close) (a := i + 1 - w) (w - 1) (fun j h1 h2 => hs j (by omega))).2
    x z x1 (by omega) z1 (by omega)
  rw [← ex, ← ez, show w - 1 + 1 = w by omega] at key
  have key : maxOf (recent (vals high) w i) - minOf (recent (vals low) w i) ≤ (lastOf (trAt (vals high) (vals low) (vals close)) w i).sum := key
  have hle : minOf (recent (vals low) w i) ≤ maxOf (recent (vals high) w i) := by
    have m1 : bar (vals low) i ∈ recent (vals low) w i := by
      rw [← lastOf_bar (by omega) (by simp; omega)]
      exact List.mem_map.2 ⟨w - 1, List.mem_range.2 (by omega), by congr 1; omega⟩
    have m2 : bar (vals high) i ∈ recent (vals high) w i := by
      rw [← lastOf_bar (by omega) (by simpa using hin)]
      exact List.mem_map.2 ⟨w - 1, List.mem_range.2 (by omega), by congr 1; omega⟩
    have := hs i hin
    linarith [minOf_le m1, le_maxOf m2]
  have hr : 0 < maxOf (recent (vals high) w i) - minOf (recent (vals low) w i) := sub_pos.2 (lt_of_le_of_ne hle (Ne.symm hne))
  refine ⟨_, h (hr.trans_le key) hr, ?_⟩
  have w1 : (1 : ℝ) < w := by exact_mod_cast (by omega : 1 < w)
  have l1 : 0 ≤ Real.log ((lastOf (trAt (vals high) (vals low) (vals close)) w i).sum /
      (maxOf (recent (vals high) w i) - minOf (recent (vals low) w i))) := Real.log_nonneg ((one_le_div hr).2 key)
  have l2 := Real.log_pos w1
  positivity

/-- C70: `gri` is the logarithm to base `w` of the range of the window, wherever that is positive. -/
theorem gri_reports (high low : List XF) (w : ℕ) (hl : low.length = high.length) (hw : 2 ≤ w) (hn : w ≤ high.length + 1)
    (fh : Fins high) (fl : Fins low) : ReportsP high.length (w - 1)
      (fun i y => 0 < maxOf (recent (vals high) w i) - minOf (recent (vals low) w i) →
        y ⇓ Real.logb w (maxOf (recent (vals high) w i) - minOf (recent (vals low) w i))) (gri high low w) := by
  run_model [gri]
  refine reportsP_windows2 (by omega) hl hn fun i h1 h2 p => ?_
  have hr := is_sub (maxOf_recent fh (w := w) (i := i) (by omega) h1 h2) (minOf_recent fl (w := w) (i := i) (by omega) h1 (by omega))
  have w1 : (1 : ℝ) < w := by exact_mod_cast (by omega : 1 < w)
  exact is_div (is_ln hr p) (is_ln (is_flt w) (by linarith)) (Real.log_pos w1).ne'

/-- The ranges of the bars. -/
theorem ranges {high low : List XF} (hl : low.length = high.length) (fh : Fins high) (fl : Fins low) :
    Reports high.length 0 (fun i => bar (vals high) i - bar (vals low) i) (some ((high.zip low).map fun (h, l) => h - l)) := by
  refine reports_map (by simp [hl]) (fun i b _ hi => by omega) ?_
  rintro i ⟨h, l⟩ hi -
  obtain ⟨h1, h2⟩ := List.getElem?_zip_eq_some.1 hi
  exact is_sub (is_bar fh h1) (is_bar fl h2)

/-- C70: `cvi` is the change in percent, over `roc` bars, of the exponential average of the range. -/
theorem cvi_reports (high low : List XF) (w roc : ℕ) (hl : low.length = high.length) (hw : 1 ≤ w) (hn : roc + w ≤ high.length)
    (fh : Fins high) (fl : Fins low) : ReportsP high.length (roc + (w - 1)) (fun i => QuotIs
      (100 * (ewmaFrom 0 w (fun i => bar (vals high) i - bar (vals low) i) i - ewmaFrom 0 w (fun i => bar (vals high) i - bar (vals low) i) (i - roc)))
      (ewmaFrom 0 w (fun i => bar (vals high) i - bar (vals low) i) (i - roc))) (cvi high low w roc) := by
  obtain ⟨m, -, em, rm, lm⟩ := ewma_after (k := 0) (ranges hl fh fl) hw (by omega)
  rw [List.drop_zero] at em
  simp only [nans, List.replicate_zero, List.nil_append, Nat.zero_add] at rm
  simp only [cvi, em, windows_eq m (show 1 ≤ roc + 1 by omega), Option.bind_eq_bind, Option.bind_some]
  have lm : m.length = high.length := by omega
  have key : ∀ x ∈ windowsOf (roc + 1) m, (fun (w : List XF) => w.getLast?.bind fun last => w.head?.bind fun first => some (100 * (last / first - 1))) x =
      some ((fun x => 100 * (x.getLast?.getD 0 / x.head?.getD 0 - 1)) x) := by
    intro x hx
    obtain ⟨i, hi⟩ := List.mem_iff_getElem?.1 hx
    obtain ⟨rfl, li⟩ := windowsOf_at (by omega) hi
    have hlen : (recent m (roc + 1) (i + (roc + 1) - 1)).length = roc + 1 := recent_length (by omega) (by omega)
    simp only [List.getLast?_eq_getElem?, List.head?_eq_getElem?]
    rw [getElem?_of_lt (show 0 < (recent m (roc + 1) (i + (roc + 1) - 1)).length by omega),
      getElem?_of_lt (show (recent m (roc + 1) (i + (roc + 1) - 1)).length - 1 < (recent m (roc + 1) (i + (roc + 1) - 1)).length by omega)]
    rfl
  rw [mapP_eq_map key]
  simp only [Option.bind_some]
  have elt : ∀ i, roc ≤ i → i < high.length → ∃ a b, m[i]? = some a ∧ m[i - roc]? = some b ∧
      (nans roc ++ (windowsOf (roc + 1) m).map fun x => 100 * (x.getLast?.getD 0 / x.head?.getD 0 - 1))[i]? = some (100 * (a / b - 1)) := by
    intro i hr hin
    have ea := getElem?_of_lt (show i < m.length by omega)
    have eb := getElem?_of_lt (show i - roc < m.length by omega)
    refine ⟨_, _, ea, eb, ?_⟩
    rw [List.getElem?_append_right (by simpa using hr), nans_length, List.getElem?_map]
    have e := windowsOf_recent (l := m) (w := roc + 1) (i := i) (by omega) (by omega) (by omega)
    rw [show i - (roc + 1 - 1) = i - roc by omega] at e
    obtain ⟨e1, e2⟩ := recent_ends (l := m) hr (by omega)
    rw [e, Option.map_some, e1, e2, ea, eb]
    rfl
  refine ⟨_, rfl, by simp; omega, fun i hi hin => ?_, fun i hi hin => ?_⟩
  · by_cases hr : i < roc
    · rw [List.getElem?_append_left (by simpa using hr), nans, List.getElem?_replicate, if_pos hr]
    · obtain ⟨a, b, ea, eb, e⟩ := elt i (by omega) hin
      rw [e]
      have hb := rm.at_nan eb (by omega)
      have : Traquer.isNaN (100 * (a / b - 1)) = true := by nanp
      rw [isNaN_iff] at this
      rw [this]
      rfl
  · obtain ⟨a, b, ea, eb, e⟩ := elt i (by omega) hin
    exact ⟨_, e, quotIs_rel (is_lit 100) (by norm_num) (rm.at ea (by omega)) (rm.at eb (by omega))⟩

/-- C70: `mass` is the sum over `long` bars of the exponential average of the range over its own exponential average, if that is
never 0. -/
theorem mass_reports (high low : List XF) (short long : ℕ) (hl : low.length = high.length) (hs : 1 ≤ short) (hlo : 1 ≤ long)
    (hn : 2 * short + long ≤ high.length + 2) (fh : Fins high) (fl : Fins low)
    (h0 : ∀ i, 2 * (short - 1) ≤ i → i < high.length →
      ewmaFrom (short - 1) short (ewmaFrom 0 short fun i => bar (vals high) i - bar (vals low) i) i ≠ 0) :
    Reports high.length (2 * (short - 1) + (long - 1)) (fun i => (lastOf (fun j =>
      ewmaFrom 0 short (fun i => bar (vals high) i - bar (vals low) i) j /
        ewmaFrom (short - 1) short (ewmaFrom 0 short fun i => bar (vals high) i - bar (vals low) i) j) long i).sum)
      (mass high low short long) := by
  obtain ⟨m, -, em, rm, lm⟩ := ewma_after (k := 0) (ranges hl fh fl) hs (by omega)
  rw [List.drop_zero] at em
  simp only [nans, List.replicate_zero, List.nil_append, Nat.zero_add] at rm
  obtain ⟨m2, e1, e2, r2, l2⟩ := ewma_after rm hs (by omega)
  set E1 := ewmaFrom 0 short fun i => bar (vals high) i - bar (vals low) i
  set E2 := ewmaFrom (short - 1) short E1
  run_model [mass, em, e1, e2]
  have rz : Reports (high.length - (short - 1)) (short - 1) (fun j => E1 (short - 1 + j) / E2 (short - 1 + j))
      (some (((m.drop (short - 1)).zip m2).map fun (num, denom) => num / denom)) := by
    refine reports_map (by simp; omega) ?_ ?_
    all_goals
      rintro i ⟨a, b⟩ hi hk
      obtain ⟨ha, hb⟩ := List.getElem?_zip_eq_some.1 hi
      have hb' : (nans (short - 1) ++ m2)[short - 1 + i]? = some b := by
        rw [List.getElem?_append_right (by simp), nans_length, show short - 1 + i - (short - 1) = i by omega]; exact hb
    · have := r2.at_nan hb' (by omega)
      nanp
    · have hin := (List.getElem?_eq_some_iff.1 hb).1
      simp only [List.getElem?_drop] at ha
      exact is_div (rm.at ha (by omega)) (r2.at hb' (by omega)) (h0 _ (by omega) (by omega))
  have rw' := rz.windows (w := long) (f := fsum) (v' := fun i => (lastOf (fun j => E1 (short - 1 + j) / E2 (short - 1 + j)) long i).sum) hlo (by omega)
    (fun l _ h => isNaN_fsum h) fun i h1 h2 => by
      obtain ⟨f1, f2⟩ := rz.recent (w := long) (i := i) h1 h2
      rw [← f2]
      exact f1.fsum
  have := rw'.pad (short - 1)
  rw [← List.append_assoc, nans, nans, ← List.replicate_add, Nat.add_comm (short - 1) (long - 1)] at this
  refine (this.cast (by omega) (by omega)).congr fun i h1 h2 => ?_
  congr 1
  refine lastOf_congr fun j hj => ?_
  rw [show short - 1 + (i - (short - 1) + 1 - long + j) = i + 1 - long + j by omega]

/-- The standard deviation counted as upward: at bars whose close is not below the previous one. -/
noncomputable def upDev (close : List ℝ) (w i : ℕ) : ℝ := if bar close i < bar close (i - 1) then 0 else stdDev (recent close w i)

/-- The standard deviation counted as downward: at bars whose close is not above the previous one. -/
noncomputable def downDev (close : List ℝ) (w i : ℕ) : ℝ := if bar close (i - 1) < bar close i then 0 else stdDev (recent close w i)

/-- C70: `relative_vol` is the share, in percent, of the upward standard deviation, both smoothed by Wilder's average. A bar with an
unchanged close counts on both sides. -/
theorem relative_vol_reports (close : List XF) (w s : ℕ) (hw : 2 ≤ w) (hs : 1 ≤ s) (hn : w - 1 + s ≤ close.length) (hd : Fins close)
    (hz : ∀ x ∈ close, x ≠ negz) : ReportsP close.length (w - 1 + (s - 1)) (fun i => QuotIs
      (100 * wilderFrom (w - 1) s (upDev (vals close) w) i)
      (wilderFrom (w - 1) s (upDev (vals close) w) i + wilderFrom (w - 1) s (downDev (vals close) w) i)) (relative_vol close w s) := by
  run_model [relative_vol, Distribution.stdDevRaw]
  set z := (zip3 ((windowsOf w close).map (Distribution.stdDevWin w)) (close.drop (w - 1)) ((close.take (close.length - 1)).drop (w - 2))).map
    fun (std, curr, prev) => (fmax 0 (signum (curr - prev)) * std, fmax 0 (signum (prev - curr)) * std) with hz'
  have lz : z.length = close.length - (w - 1) := by simp [hz']; omega
  have el : ∀ i p, z[i]? = some p → p.1 ⇓ upDev (vals close) w (w - 1 + i) ∧ p.2 ⇓ downDev (vals close) w (w - 1 + i) := by
    intro i p hp
    rw [hz', List.getElem?_map] at hp
    obtain ⟨⟨sd, c, pr⟩, e, rfl⟩ := Option.map_eq_some_iff.1 hp
    rw [zip3_getElem?, List.getElem?_map, List.getElem?_drop, List.getElem?_drop] at e
    obtain ⟨e1, e2, e3⟩ := e
    obtain ⟨x, ex, rfl⟩ := Option.map_eq_some_iff.1 e1
    obtain ⟨rfl, -⟩ := windowsOf_at (by omega) ex
    have hi := (List.getElem?_eq_some_iff.1 e2).1
    rw [List.getElem?_take_of_lt (by omega)] at e3
    have sd := Distribution.stdDevWin_is (w := w) (hd.recent w (i + w - 1)) (recent_length (by omega) (by omega)) (by omega)
    rw [recent_vals] at sd
    have b2 := is_bar hd e2
    have b3 := is_bar hd e3
    have s1 := Correlation.signum_sub b2 b3 (.inr (hz _ (List.mem_of_getElem? e2)))
    have s2 := Correlation.signum_sub b3 b2 (.inr (hz _ (List.mem_of_getElem? e3)))
    have q1 := is_mul (is_fmax is_zero s1) sd
    have q2 := is_mul (is_fmax is_zero s2) sd
    rw [show w - 2 + i = w - 1 + i - 1 by omega] at q1 q2
    rw [show i + w - 1 = w - 1 + i by omega] at q1 q2 ⊢
    constructor
    · refine q1.congr ?_
      rw [upDev]
      split <;> simp
    · refine q2.congr ?_
      rw [downDev]
      split <;> simp
  have ru : Reports close.length (w - 1) (upDev (vals close) w) (some (nans (w - 1) ++ z.map (·.1))) :=
    reports_nans (by simp [lz]; omega) fun i hi => ⟨_, getElem?_of_lt hi, by
      rw [List.getElem_map]; exact (el i _ (getElem?_of_lt (by simpa using hi))).1⟩
  have rd : Reports close.length (w - 1) (downDev (vals close) w) (some (nans (w - 1) ++ z.map (·.2))) :=
    reports_nans (by simp [lz]; omega) fun i hi => ⟨_, getElem?_of_lt hi, by
      rw [List.getElem_map]; exact (el i _ (getElem?_of_lt (by simpa using hi))).2⟩
  obtain ⟨g, -, eg, rg, lg⟩ := wilder_after ru hs (by omega)
  obtain ⟨l, -, el', rl, ll⟩ := wilder_after rd hs (by omega)
  rw [List.drop_left' (by simp)] at eg el'
  simp only [eg, el', Option.bind_some]
  have e : (nans (w - 1) ++ (g.zip l).map fun (g, l) => 100 * g / (g + l) : List XF) =
      ((nans (w - 1) ++ g).zip (nans (w - 1) ++ l)).map fun (g, l) => 100 * g / (g + l) := by
    rw [List.zip_append (by simp), List.map_append]
    congr 1
    simp only [nans, List.zip_replicate', List.map_replicate]
    congr 1
    refine (isNaN_iff.1 (?_ : Traquer.isNaN (100 * (nan : XF) / (nan + nan)) = true)).symm
    have : Traquer.isNaN (nan : XF) = true := rfl
    nanp
  rw [e]
  refine reportsP_map (by simp; omega) ?_ ?_
  · rintro i ⟨x, y⟩ hi hk
    obtain ⟨h1, h2⟩ := List.getElem?_zip_eq_some.1 hi
    have := rg.at_nan h1 hk
    nanp
  · rintro i ⟨x, y⟩ hi hk
    obtain ⟨h1, h2⟩ := List.getElem?_zip_eq_some.1 hi
    exact quotIs (is_mul (is_lit 100) (rg.at h1 hk)) (is_add (rg.at h1 hk) (rl.at h2 hk))

/-- C70: `inertia` is the value at the newest bar of the least squares line through the last `s` values of `relative_vol`, if that is
defined at every bar. -/
theorem inertia_reports (close : List XF) (w s : ℕ) (hw : 2 ≤ w) (hs : 2 ≤ s) (hn : 2 * (w - 1) + s ≤ close.length) (hd : Fins close)
    (hz : ∀ x ∈ close, x ≠ negz) (h0 : ∀ i, 2 * (w - 1) ≤ i → i < close.length →
      wilderFrom (w - 1) w (upDev (vals close) w) i + wilderFrom (w - 1) w (downDev (vals close) w) i ≠ 0) :
    ∃ v a b : ℕ → ℝ, Reports close.length (2 * (w - 1)) v (relative_vol close w w) ∧
      Reports close.length (2 * (w - 1) + (s - 1)) (fun i => a i + b i * s) (inertia close w s) ∧
      ∀ i, 2 * (w - 1) + (s - 1) ≤ i → i < close.length → ∀ a' b',
        Smooth.lineError (a i) (b i) (lastOf v s i) ≤ Smooth.lineError a' b' (lastOf v s i) := by
  have h := (relative_vol_reports close w w hw (by omega) (by omega) hd hz).cast (n' := close.length) (k' := 2 * (w - 1)) rfl (by omega)
  obtain ⟨m, e, lm, h1, h2⟩ := h
  set v : ℕ → ℝ := fun i => 100 * wilderFrom (w - 1) w (upDev (vals close) w) i /
    (wilderFrom (w - 1) w (upDev (vals close) w) i + wilderFrom (w - 1) w (downDev (vals close) w) i)
  have r : Reports close.length (2 * (w - 1)) v (some m) := ⟨m, rfl, lm, h1, fun i hi hin => by
    obtain ⟨y, ey, q⟩ := h2 i hi hin
    exact ⟨y, ey, q.1 (h0 i hi hin)⟩⟩
  refine ⟨v, fun i => Smooth.intercept (lastOf v s i), fun i => Smooth.slope (lastOf v s i), by rw [e]; exact r, ?_, ?_⟩
  · run_model [inertia, e, Smooth.lrf]
    refine r.windows (by omega) (by omega) (fun l hl hx => Smooth.lrfWin_isNaN hl hx) fun i h1 h2 => ?_
    obtain ⟨f1, f2⟩ := r.recent (w := s) (i := i) h1 h2
    have hl : (recent m s i).length = s := recent_length (by omega) (by omega)
    have := Smooth.lrfWin_is f1 (by omega)
    rw [hl, f2] at this
    exact this.congr (by ring)
  · intro i h1 h2 a' b'
    exact Smooth.lineError_slope_min _ (by simpa [lastOf] using hs) _ _

/-! ## Concrete runs -/

open Traquer.Momentum (hi4 lo4 cl4)

example : ValueAt (some (wcp hi4 lo4 cl4)) 1 (17 / 4) :=
  (wcp_reports hi4 lo4 cl4 rfl rfl (fins_map_fin _) (fins_map_fin _) (fins_map_fin _)).value 1 (by decide) (by simp)
    (by simp only [vals_map_fin]; norm_num [bar])
example : ValueAt (hv cl4 1 none) 1 0 :=
  (hv_reports cl4 1 none 1 (by decide) (by simp) (fins_map_fin _) (by simp) is_one zero_le_one).value 1 (by decide) (by simp)
    (by norm_num [lastOf, moment, mean])
example : ValueAt (cc_hv cl4 1) 1 (√252 * Real.log (5 / 2)) :=
  (cc_hv_reports cl4 1 (by decide) (by simp) (fins_map_fin _) (by simp)).value 1 (by decide) (by simp) (by
    simp only [vals_map_fin]
    norm_num [lastOf, mean, logReturn, bar]
    exact Real.sqrt_sq (Real.log_nonneg (by norm_num)))
example := gkyz_hv_reports cl4 hi4 lo4 cl4 2 rfl rfl rfl (by decide) (by simp) (fins_map_fin _) (fins_map_fin _) (fins_map_fin _)
  (fins_map_fin _) (by
    simp only [vals_map_fin, List.length_map]
    intro i hi
    rcases i with _ | _ | _ | _ | i
    · norm_num [bar]
    · norm_num [bar]
    · norm_num [bar]
    · norm_num [bar]
    · exact absurd hi (by simp))
example : ValueAt (vhf hi4 lo4 cl4 2) 2 (3 / 5) :=
  (vhf_reports hi4 lo4 cl4 2 rfl rfl (by decide) (by simp) (fins_map_fin _) (fins_map_fin _) (fins_map_fin _)).quot 2 (by decide) (by simp)
    (by simp only [vals_map_fin]; norm_num [lastOf, bar, List.range_succ])
    (by simp only [vals_map_fin]; norm_num [lastOf, bar, List.range_succ, recent, maxOf, minOf])

example := chop_reports hi4 lo4 cl4 2 rfl rfl (by decide) (by simp) (fins_map_fin _) (fins_map_fin _) (fins_map_fin _)
example : ∃ out y r, chop hi4 lo4 cl4 2 = some out ∧ out[2]? = some y ∧ y ⇓ r ∧ 0 ≤ r := by
  obtain ⟨out, e, -, -, h⟩ := chop_nonneg hi4 lo4 cl4 2 rfl rfl (by decide) (by simp) (fins_map_fin _) (fins_map_fin _) (fins_map_fin _) (by
    simp only [vals_map_fin, List.length_map]
    intro i hi
    rcases i with _ | _ | _ | _ | i
    · norm_num [bar]
    · norm_num [bar]
    · norm_num [bar]
    · norm_num [bar]
    · exact absurd hi (by simp))
  obtain ⟨y, ey, hy⟩ := h 2 (by decide) (by simp)
  obtain ⟨r, h1, h2⟩ := hy (by simp only [vals_map_fin]; norm_num [recent, maxOf, minOf])
  exact ⟨out, y, r, e, ey, h1, h2⟩
example := gri_reports hi4 lo4 2 rfl (by decide) (by simp) (fins_map_fin _) (fins_map_fin _)
example : ValueAt (cvi hi4 lo4 1 1) 1 50 :=
  (cvi_reports hi4 lo4 1 1 rfl (by decide) (by simp) (fins_map_fin _) (fins_map_fin _)).quot 1 (by decide) (by simp)
    (by simp only [vals_map_fin]; norm_num [ewmaFrom, lastOf, mean, bar, List.range_succ])
    (by simp only [vals_map_fin]; norm_num [ewmaFrom, lastOf, mean, bar, List.range_succ])
example : ValueAt (mass hi4 lo4 2 1) 2 (3 / 4) :=
  (mass_reports hi4 lo4 2 1 rfl (by decide) (by decide) (by simp) (fins_map_fin _) (fins_map_fin _) (by
    simp only [vals_map_fin, List.length_map]
    intro i hi hn
    rcases i with _ | _ | _ | _ | i
    · omega
    · omega
    · norm_num [ewmaFrom, lastOf, mean, bar, List.range_succ]
    · norm_num [ewmaFrom, lastOf, mean, bar, List.range_succ]
    · exact absurd hn (by simp))).value 2 (by decide) (by simp)
    (by simp only [vals_map_fin]; norm_num [ewmaFrom, lastOf, mean, bar, List.range_succ])
theorem no_negz (xs : List ℝ) : ∀ x ∈ xs.map (fin : ℝ → XF), x ≠ negz := by
  intro x hx h
  obtain ⟨r, -, rfl⟩ := List.mem_map.1 hx
  cases h
example : ValueAt (relative_vol cl4 2 1) 1 100 :=
  (relative_vol_reports cl4 2 1 (by decide) (by decide) (by simp) (fins_map_fin _) (no_negz _)).quot 1 (by decide) (by simp)
    (by simp only [vals_map_fin]; norm_num [wilderFrom, upDev, downDev, stdDev, moment, lastOf, mean, bar, recent, List.range_succ])
    (by simp only [vals_map_fin]; norm_num [wilderFrom, upDev, downDev, stdDev, moment, lastOf, mean, bar, recent, List.range_succ])
example := inertia_reports cl4 2 2 (by decide) (by decide) (by simp) (fins_map_fin _) (no_negz _) (by
    simp only [vals_map_fin, List.length_map]
    intro i hi hn
    rcases i with _ | _ | _ | _ | i
    · omega
    · omega
    · norm_num [wilderFrom, upDev, downDev, stdDev, moment, lastOf, mean, bar, recent, List.range_succ]
      positivity
    · norm_num [wilderFrom, upDev, downDev, stdDev, moment, lastOf, mean, bar, recent, List.range_succ]
      positivity
    · exact absurd hn (by simp))

end Traquer.Volatility
