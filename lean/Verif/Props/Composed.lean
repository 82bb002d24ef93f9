import Verif.Lemmas.Averages
import Verif.Props.SmoothConst
import Verif.Props.Adaptive2
/-!
# C67: averages composed of averages
-/

namespace Traquer.Smooth
open FP FloatLit
open Traquer.Trend (is_bar)

/-- The exponential average of a series given from bar 0. -/
noncomputable abbrev ema1 (w : ℕ) (x : ℕ → ℝ) : ℕ → ℝ := ewmaFrom 0 w x
/-- The exponential average of the exponential average, from where that is defined. -/
noncomputable abbrev ema2 (w : ℕ) (x : ℕ → ℝ) : ℕ → ℝ := ewmaFrom (w - 1) w (ema1 w x)
/-- Three times. -/
noncomputable abbrev ema3 (w : ℕ) (x : ℕ → ℝ) : ℕ → ℝ := ewmaFrom (2 * (w - 1)) w (ema2 w x)
/-- Four times. -/
noncomputable abbrev ema4 (w : ℕ) (x : ℕ → ℝ) : ℕ → ℝ := ewmaFrom (3 * (w - 1)) w (ema3 w x)
/-- Five times. -/
noncomputable abbrev ema5 (w : ℕ) (x : ℕ → ℝ) : ℕ → ℝ := ewmaFrom (4 * (w - 1)) w (ema4 w x)
/-- Six times. -/
noncomputable abbrev ema6 (w : ℕ) (x : ℕ → ℝ) : ℕ → ℝ := ewmaFrom (5 * (w - 1)) w (ema5 w x)

/-- One more exponential average of a padded series, in the shape the code uses: the list `m` starts at bar `j`. -/
theorem ewma_next {n j k w : ℕ} {v : ℕ → ℝ} {m : List XF} (hm : Reports n (j + k) v (some (nans j ++ m))) (hw : 1 ≤ w)
    (hn : j + k + w ≤ n) : ∃ m', sliceFrom m k = some (m.drop k) ∧ ewma (m.drop k) w = some m' ∧
      Reports n (j + k + (w - 1)) (ewmaFrom (j + k) w v) (some (nans (j + k) ++ m')) ∧ m'.length = n - (j + k) := by
  obtain ⟨m', e1, e2, r, l⟩ := ewma_after hm hw hn
  have : (nans j ++ m).drop (j + k) = m.drop k := by
    rw [List.drop_append, List.drop_eq_nil_of_le (by simp), List.nil_append]; simp
  rw [this] at e2
  have hl := hm.length
  simp at hl
  exact ⟨m', sliceFrom_of_le (by omega), e2, r, l⟩

/-- C67: `dema` is twice the exponential average less the exponential average of it. -/
theorem dema_reports (data : List XF) (w : ℕ) (hw : 1 ≤ w) (hn : 2 * w ≤ data.length + 1) (hd : Fins data) :
    Reports data.length (2 * (w - 1)) (fun i => 2 * ema1 w (bar (vals data)) i - ema2 w (bar (vals data)) i) (dema data w) := by
  obtain ⟨m1, e1, r1, -⟩ := (ewma_values data w hw (by omega) hd).some
  obtain ⟨m2, s1, e2, r2, -⟩ := ewma_after r1 hw (by omega)
  simp only [dema, e1, s1, e2, usub_of_le hw, Option.bind_eq_bind, Option.bind_some]
  have := r1.zipWith r2 (f := fun (x, y) => 2 * x - y) (g := fun a b => 2 * a - b)
    (fun x y h => by nanp) (fun x y h => by nanp) (fun x y a b ha hb => is_sub (is_mul (is_lit 2) ha) hb)
  rw [show max (w - 1) (w - 1 + (w - 1)) = 2 * (w - 1) by omega] at this
  exact this

/-- C67: `tema` is three times the single less three times the double plus the triple exponential average. -/
theorem tema_reports (data : List XF) (w : ℕ) (hw : 1 ≤ w) (hn : 3 * w ≤ data.length + 2) (hd : Fins data) :
    Reports data.length (3 * (w - 1)) (fun i => 3 * ema1 w (bar (vals data)) i - 3 * ema2 w (bar (vals data)) i +
      ema3 w (bar (vals data)) i) (tema data w) := by
  obtain ⟨m1, e1, r1, l1⟩ := (ewma_values data w hw (by omega) hd).some
  obtain ⟨m2, s1, e2, r2, l2⟩ := ewma_after r1 hw (by omega)
  obtain ⟨m3, s2, e3, r3, l3⟩ := ewma_next r2 hw (by omega)
  simp only [tema, e1, s1, e2, s2, e3, usub_of_le hw, Option.bind_eq_bind, Option.bind_some]
  rw [show w - 1 + (w - 1) = (w - 1) * 2 by omega] at r3
  refine reports_map (by simp; omega) ?_ ?_
  · rintro i ⟨x, y, z⟩ hi hk
    rw [zip3_getElem?] at hi
    have := r3.at_nan hi.2.2 (by omega)
    nanp
  · rintro i ⟨x, y, z⟩ hi hk
    rw [zip3_getElem?] at hi
    have hx := r1.at hi.1 (by omega)
    have hy := r2.at hi.2.1 (by omega)
    have hz := r3.at hi.2.2 (by omega)
    rw [ema3, show 2 * (w - 1) = (w - 1) * 2 by omega]
    exact is_add (is_sub (is_mul (is_lit 3) hx) (is_mul (is_lit 3) hy)) hz

/-- C67: Tillson's `t3` with volume factor `f` (clamped to [0, 1]) combines the triple to sixfold exponential averages. -/
theorem t3_reports (data : List XF) (w : ℕ) (factor : Option XF) (f : ℝ) (hw : 1 ≤ w) (hn : 6 * w ≤ data.length + 5)
    (hf : factor.getD 0.7 ⇓ f) (hd : Fins data) :
    let g := max 0 (min f 1)
    Reports data.length (6 * (w - 1)) (fun i => -g ^ 3 * ema6 w (bar (vals data)) i +
      (3 * g ^ 2 + 3 * g ^ 3) * ema5 w (bar (vals data)) i + (-3 * g - 6 * g ^ 2 - 3 * g ^ 3) * ema4 w (bar (vals data)) i +
      (1 + 3 * g + 3 * g ^ 2 + g ^ 3) * ema3 w (bar (vals data)) i) (t3 data w factor) := by
  intro g
  obtain ⟨m1, e1, r1, l1⟩ := (ewma_values data w hw (by omega) hd).some
  obtain ⟨m2, s1, e2, r2, l2⟩ := ewma_after r1 hw (by omega)
  obtain ⟨m3, s2, e3, r3, l3⟩ := ewma_next r2 hw (by omega)
  obtain ⟨m4, s3, e4, r4, l4⟩ := ewma_next r3 hw (by omega)
  obtain ⟨m5, s4, e5, r5, l5⟩ := ewma_next r4 hw (by omega)
  obtain ⟨m6, s5, e6, r6, l6⟩ := ewma_next r5 hw (by omega)
  have hF : clampLit (factor.getD 0.7) 0 1 ⇓ g := is_clampLit hf is_zero is_one zero_le_one
  have h3 := is_powi 3 hF
  have h2 := is_powi 2 hF
  simp only [t3, e1, s1, e2, s2, e3, s3, e4, s4, e5, s5, e6, usub_of_le hw, Option.bind_eq_bind, Option.bind_some]
  generalize hk : w - 1 = k at *
  have cut : ∀ {j K : ℕ} {v : ℕ → ℝ} {m : List XF}, Reports data.length K v (some (nans (k + k + j) ++ m)) →
      Reports (data.length - (k + k)) (K - (k + k)) (fun i => v (k + k + i)) (some (nans j ++ m)) := by
    intro j K v m h
    have h1 := h.tail (k + k) (by omega)
    rw [List.drop_append_of_le_length (by simp)] at h1
    simpa [nans, List.drop_replicate] using h1
  have r3' := cut (j := 0) (m := m3) r3
  have r4' := cut (j := k) (m := m4) r4
  have r5' := cut (j := k * 2) (m := m5) (by rw [show k + k + k * 2 = k + k + k + k by omega]; exact r5)
  have r6' := cut (j := k * 3) (m := m6) (by rw [show k + k + k * 3 = k + k + k + k + k by omega]; exact r6)
  have key : Reports (data.length - (k + k)) (4 * k) (fun i => -g ^ 3 * ema6 w (bar (vals data)) (k + k + i) +
      (3 * g ^ 2 + 3 * g ^ 3) * ema5 w (bar (vals data)) (k + k + i) + (-3 * g - 6 * g ^ 2 - 3 * g ^ 3) * ema4 w (bar (vals data)) (k + k + i) +
      (1 + 3 * g + 3 * g ^ 2 + g ^ 3) * ema3 w (bar (vals data)) (k + k + i)) (some
      ((zip4 m3 (nans k ++ m4) (nans (k * 2) ++ m5) (nans (k * 3) ++ m6)).map
        fun (e3, e4, e5, e6) => -(powi (clampLit (factor.getD 0.7) 0 1) 3) * e6 +
          (3 * powi (clampLit (factor.getD 0.7) 0 1) 2 + 3 * powi (clampLit (factor.getD 0.7) 0 1) 3) * e5 +
          ((-3 : XF) * clampLit (factor.getD 0.7) 0 1 - 6 * powi (clampLit (factor.getD 0.7) 0 1) 2
            - 3 * powi (clampLit (factor.getD 0.7) 0 1) 3) * e4 +
          (1 + 3 * clampLit (factor.getD 0.7) 0 1 + 3 * powi (clampLit (factor.getD 0.7) 0 1) 2
            + powi (clampLit (factor.getD 0.7) 0 1) 3) * e3)) := by
    refine reports_map (by simp; omega) ?_ ?_
    · rintro i ⟨x, y, z, u⟩ hi hk
      rw [zip4_getElem?] at hi
      have := r6'.at_nan hi.2.2.2 (by omega)
      nanp
    · rintro i ⟨x, y, z, u⟩ hi hi'
      rw [zip4_getElem?] at hi
      have hx := r3'.at hi.1 (by omega)
      have hy := r4'.at hi.2.1 (by omega)
      have hz := r5'.at hi.2.2.1 (by omega)
      have hu := r6'.at hi.2.2.2 (by omega)
      have hh := is_add (is_add (is_add (is_mul (is_neg h3) hu)
        (is_mul (is_add (is_mul (is_lit 3) h2) (is_mul (is_lit 3) h3)) hz))
        (is_mul (is_sub (is_sub (is_mul (is_neg (is_lit 3)) hF) (is_mul (is_lit 6) h2)) (is_mul (is_lit 3) h3)) hy))
        (is_mul (is_add (is_add (is_add is_one (is_mul (is_lit 3) hF)) (is_mul (is_lit 3) h2)) h3) hx)
      simp only [ema6, ema5, ema4, ema3, ema2, ema1, hk, show 2 * k = k + k by omega, show 3 * k = k + k + k by omega,
        show 4 * k = k + k + k + k by omega, show 5 * k = k + k + k + k + k by omega]
      refine FP.Is.congr hh ?_
      simp only [OfNat.ofNat]
  have := key.pad (k * 2)
  rw [show k * 2 + (data.length - (k + k)) = data.length by omega, show k * 2 + 4 * k = 6 * k by omega] at this
  refine this.congr fun i h1 _ => ?_
  beta_reduce
  rw [show k + k + (i - k * 2) = i by omega]

/-- C67: `zlma` is the exponential average of `2 * x i - x (i - (w - 1) / 2)`. -/
theorem zlma_reports (data : List XF) (w : ℕ) (hw : 1 ≤ w) (hn : (w - 1) / 2 + w ≤ data.length) (hd : Fins data) :
    Reports data.length ((w - 1) / 2 + (w - 1)) (ewmaFrom ((w - 1) / 2) w fun i =>
      2 * bar (vals data) i - bar (vals data) (i - (w - 1) / 2)) (zlma data w) := by
  generalize hL : (w - 1) / 2 = L at *
  have hs : sliceFrom data L = some (data.drop L) := sliceFrom_of_le (by omega)
  have r : Reports data.length L (fun i => 2 * bar (vals data) i - bar (vals data) (i - L))
      (some (nans L ++ (data.zip (data.drop L)).map fun (prev, curr) => 2 * curr - prev)) := by
    refine reports_nans (by simp; omega) fun i hi => ?_
    simp only [List.length_map, List.length_zip, List.length_drop] at hi
    have e1 := getElem?_of_lt (show i < data.length by omega)
    have e2 := getElem?_of_lt (show L + i < data.length by omega)
    refine ⟨_, by rw [List.getElem?_map, (List.getElem?_zip_eq_some (z := (_, _))).2 ⟨e1, by rw [List.getElem?_drop]; exact e2⟩]; rfl, ?_⟩
    rw [show L + i - L = i by omega]
    exact is_sub (is_mul (is_lit 2) (is_bar hd e2)) (is_bar hd e1)
  obtain ⟨m, -, e, r', -⟩ := ewma_after r hw hn
  rw [List.drop_append, List.drop_eq_nil_of_le (by simp), List.nil_append] at e
  simp only [nans_length, Nat.sub_self, List.drop_zero] at e
  simp only [zlma, usub_of_le hw, hL, hs, e, Option.bind_eq_bind, Option.bind_some]
  exact r'

theorem adaptive_succ {k i : ℕ} {g x : ℕ → ℝ} (hk : 1 ≤ k) :
    adaptive k g x (k + i) = g (k + i) * (x (k + i) - adaptive k g x (k + i - 1)) + adaptive k g x (k + i - 1) := by
  obtain ⟨j, hj⟩ : ∃ j, k + i = j + 1 := ⟨k + i - 1, by omega⟩
  rw [hj, adaptive, if_neg (by omega)]
  rfl

theorem adaptive_start {k : ℕ} {g x : ℕ → ℝ} : adaptive k g x (k - 1) = 0 := by
  cases h : k - 1 with
  | zero => rfl
  | succ j => rw [adaptive, if_pos (by omega)]

theorem scanS_adaptive {α : Type} {f : XF → α → XF} {l : List α} {k : ℕ} {g x : ℕ → ℝ} (hk : 1 ≤ k)
    (hstep : ∀ i a s u, l[i]? = some a → s ⇓ u → f s a ⇓ g (k + i) * (x (k + i) - u) + u) (i : ℕ) (y : XF)
    (hy : (scanS f 0 l)[i]? = some y) : y ⇓ adaptive k g x (k + i) := by
  refine scan_idx (I := fun i s => s ⇓ adaptive k g x (k + i - 1)) (P := fun i y => y ⇓ adaptive k g x (k + i)) ?_ ?_ i y hy
  · intro i s a ha hs
    have := hstep i a s _ ha hs
    rw [← adaptive_succ hk] at this
    exact ⟨this, this⟩
  · exact is_zero.congr adaptive_start.symm

/-- C67: `vma` is the adaptive average with gain `2 / (w + 1)` times the absolute momentum oscillator over 9 changes, provided the
price never stands still for 9 bars. It starts from 0 at bar 9 and is reported from bar `max w 9` on. -/
theorem vma_reports (data : List XF) (w : ℕ) (hn : max w 9 ≤ data.length) (hd : Fins data)
    (hm : ∀ i, 9 ≤ i → i < data.length →
      (rises (recent (vals data) 10 i)).sum + (falls (recent (vals data) 10 i)).sum ≠ 0) :
    Reports data.length (max w 9) (adaptive 9 (fun i => 2 / ((w : ℝ) + 1) *
      |((rises (recent (vals data) 10 i)).sum - (falls (recent (vals data) 10 i)).sum) /
        ((rises (recent (vals data) 10 i)).sum + (falls (recent (vals data) 10 i)).sum)|) (bar (vals data))) (vma data w) := by
  obtain ⟨c, ec, lc⟩ := cmoRaw_length data 9
  simp only [vma, ec, Option.bind_eq_bind, Option.bind_some]
  refine reports_nans (by simp [lc]; omega) fun i hi => ?_
  simp only [List.length_drop, scanS_length, List.length_zip, lc] at hi
  have hlt : max w 9 - 9 + i < (scanS (fun (state : XF) (x : XF × XF) =>
    2 / flt (w + 1) * fabs x.1 * (x.2 - state) + state) 0 (c.zip (data.drop 9))).length := by simp [lc]; omega
  refine ⟨_, by rw [List.getElem?_drop]; exact getElem?_of_lt hlt, ?_⟩
  have := scanS_adaptive (k := 9) (g := fun i => 2 / ((w : ℝ) + 1) *
      |((rises (recent (vals data) 10 i)).sum - (falls (recent (vals data) 10 i)).sum) /
        ((rises (recent (vals data) 10 i)).sum + (falls (recent (vals data) 10 i)).sum)|) (x := bar (vals data))
    (by norm_num) (fun i a s u ha hs => ?_) (max w 9 - 9 + i) _ (getElem?_of_lt hlt)
  · rw [show max w 9 + i = 9 + (max w 9 - 9 + i) by omega]
    exact this
  · obtain ⟨v, d⟩ := a
    obtain ⟨h1, h2⟩ := List.getElem?_zip_eq_some.1 ha
    rw [List.getElem?_drop] at h2
    have hlen := (List.getElem?_eq_some_iff.1 h2).1
    obtain ⟨p, q, e, hp, hq⟩ := cmoRaw_is data 9 hd (by omega) c ec i (by omega)
    cases e.symm.trans h1
    have hne := hm (9 + i) (by omega) hlen
    rw [show i + 9 = 9 + i by omega] at hp hq
    have hg : (2 / flt (w + 1) : XF) ⇓ 2 / ((w : ℝ) + 1) :=
      (is_div (is_lit 2) (is_flt (w + 1)) (by push_cast; positivity)).congr (by push_cast; rfl)
    exact is_add (is_mul (is_mul hg (is_abs (is_div hp hq hne))) (is_sub (is_bar hd h2) hs)) hs

/-- C67: `vidya` is the adaptive average with gain `2 / (w + 1)` times the deviation of the last 5 values over its mean over 20 bars,
provided that mean is not 0. It starts from 0 at bar 23. -/
theorem vidya_reports (data : List XF) (w : ℕ) (hn : 23 ≤ data.length) (hd : Fins data)
    (hm : ∀ i, 23 ≤ i → i < data.length → mean (lastOf (fun j => stdDev (recent (vals data) 5 j)) 20 i) ≠ 0) :
    Reports data.length 23 (adaptive 23 (fun i => 2 / ((w : ℝ) + 1) * (stdDev (recent (vals data) 5 i) /
      mean (lastOf (fun j => stdDev (recent (vals data) 5 j)) 20 i))) (bar (vals data))) (vidya data w) := by
  obtain ⟨items, e, l, h⟩ := vidya_items data w hn hd
  rw [e]
  refine reports_nans (by simp [l]; omega) fun i hi => ?_
  have hlt := hi
  refine ⟨_, getElem?_of_lt hlt, ?_⟩
  refine scanS_adaptive (by norm_num) (fun i a s u ha hs => ?_) i _ (getElem?_of_lt hlt)
  have hil := (List.getElem?_eq_some_iff.1 ha).1
  obtain ⟨s20, s5, d, e', h5, h20, hdd⟩ := h i (by omega)
  cases e'.symm.trans ha
  have e20 : (List.range 20).map (fun j => stdDev (recent (vals data) 5 (i + 4 + j))) =
      lastOf (fun j => stdDev (recent (vals data) 5 j)) 20 (23 + i) := by
    rw [lastOf]; refine List.map_congr_left fun j _ => ?_
    congr 2; omega
  rw [e20] at h20
  rw [show i + 23 = 23 + i by omega] at h5 hdd
  have hg : (2 / flt (w + 1) : XF) ⇓ 2 / ((w : ℝ) + 1) :=
    (is_div (is_lit 2) (is_flt (w + 1)) (by push_cast; positivity)).congr (by push_cast; rfl)
  exact is_add (is_mul (is_mul hg (is_div h5 h20 (hm (23 + i) (by omega) (by omega)))) (is_sub (is_bar hd hdd) hs)) hs

/-- C67: `kama` is the adaptive average whose gain is the square of the efficiency ratio scaled to the fast and slow factors, provided
the price never stands still for a window. It starts from 0 at bar `w - 1`. -/
theorem kama_reports (data : List XF) (w : ℕ) (short long : Option ℕ) (hw : 2 ≤ w) (hn : w ≤ data.length + 1) (hd : Fins data)
    (hm : ∀ i, w ≤ i + 1 → i < data.length → ((changes (recent (vals data) w i)).map fun c => |c|).sum ≠ 0) :
    Reports data.length (w - 1) (adaptive (w - 1) (fun i => (efficiency (recent (vals data) w i) *
      (2 / (((short.getD 2 : ℕ) : ℝ) + 1) - 2 / (((long.getD 30 : ℕ) : ℝ) + 1)) + 2 / (((long.getD 30 : ℕ) : ℝ) + 1)) ^ 2)
      (bar (vals data))) (kama data w short long) := by
  have hg : ∀ w : ℕ, (2 / flt (w + 1) : XF) ⇓ 2 / ((w : ℝ) + 1) := fun w =>
    (is_div (is_lit 2) (is_flt (w + 1)) (by push_cast; positivity)).congr (by push_cast; rfl)
  set G : ℕ → ℝ := fun i => (efficiency (recent (vals data) w i) *
      (2 / (((short.getD 2 : ℕ) : ℝ) + 1) - 2 / (((long.getD 30 : ℕ) : ℝ) + 1)) + 2 / (((long.getD 30 : ℕ) : ℝ) + 1)) ^ 2 with hG
  obtain ⟨o, eo, ho⟩ := scanM_idx_some (f := fun (state : XF) x => do
      let er ← effRatio x
      let alpha := powi (er * (2 / flt (short.getD 2 + 1) - 2 / flt (long.getD 30 + 1)) + 2 / flt (long.getD 30 + 1)) 2
      let last ← x[x.length - 1]?
      let state := alpha * (last - state) + state
      some (state, state)) (s := (0 : XF)) (l := windowsOf w data)
    (I := fun i s => s ⇓ adaptive (w - 1) G (bar (vals data)) (w - 1 + i - 1))
    (P := fun i s => s ⇓ adaptive (w - 1) G (bar (vals data)) (w - 1 + i)) (by
      intro i s x hx hs
      have hil := (List.getElem?_eq_some_iff.1 hx).1
      simp only [windowsOf_length] at hil
      have hx' : x = recent data w (w - 1 + i) := by
        have := windowsOf_recent (l := data) (w := w) (i := w - 1 + i) (by omega) (by omega) (by omega)
        rw [show w - 1 + i - (w - 1) = i by omega, hx] at this
        exact Option.some.inj this
      have hlx : x.length = w := by rw [hx']; exact recent_length (by omega) (by omega)
      have hfx : Fins x := by rw [hx']; exact hd.recent _ _
      have hvx : vals x = recent (vals data) w (w - 1 + i) := by rw [hx', recent_vals]
      have e0 := getElem?_of_lt (show 0 < x.length by omega)
      have e1 := getElem?_of_lt (show x.length - 1 < x.length by omega)
      have hsum := foldl_add_is (t := fun p : XF × XF => fabs (p.1 - p.2)) (v := fun p => |p.1.val - p.2.val|) (l := pairs x)
        is_zero (fun p hp => by
          have := mem_pairs hp
          exact is_abs (is_sub (hfx _ this.1).is (hfx _ this.2).is))
      have hsum' : ((pairs x).foldl (fun acc p => acc + fabs (p.1 - p.2)) 0 : XF) ⇓
          ((changes (recent (vals data) w (w - 1 + i))).map fun c => |c|).sum := by
        refine hsum.congr ?_
        rw [zero_add, ← hvx, changes, pairs_vals]
        simp only [List.map_map]
        congr 1
        refine List.map_congr_left fun p _ => ?_
        simp [abs_sub_comm]
      have h0 := is_bar hfx e0
      have h1 := is_bar hfx e1
      have her := is_div (is_abs (is_sub h1 h0)) hsum' (hm (w - 1 + i) (by omega) (by omega))
      have hlast : x[x.length - 1] ⇓ bar (vals data) (w - 1 + i) := by
        refine is_bar hd ?_
        rw [← e1, hlx, hx', recent, List.getElem?_take_of_lt (by omega), List.getElem?_drop]
        congr 1; omega
      refine ⟨_, _, by simp only [effRatio, e0, e1, Option.bind_eq_bind, Option.bind_some]; rfl, ?_⟩
      have key := is_add (is_mul (is_powi 2 (is_add (is_mul her (is_sub (hg (short.getD 2)) (hg (long.getD 30)))) (hg (long.getD 30))))
        (is_sub hlast hs)) hs
      have : adaptive (w - 1) G (bar (vals data)) (w - 1 + i) = _ := adaptive_succ (by omega)
      rw [show w - 1 + (i + 1) - 1 = w - 1 + i by omega, this]
      rw [← hvx] at key
      have hl' : (vals x).length = x.length := by simp
      simp only [hG, efficiency, ← hvx, hl']
      exact ⟨key, key⟩) (is_zero.congr adaptive_start.symm)
  have lo := scanM_length eo
  simp only [windowsOf_length] at lo
  simp only [kama, usub_of_le (show 1 ≤ w by omega), windows_eq data (show 1 ≤ w by omega), Option.bind_eq_bind, Option.bind_some]
  simp only [Option.bind_eq_bind] at eo
  rw [eo]
  show Reports _ _ _ (some _)
  refine reports_nans (by omega) fun i hi => ⟨_, getElem?_of_lt hi, ho i _ (getElem?_of_lt hi)⟩

/-! ## The hypotheses are met -/

/-- Averages 1.5, 2.5 and 3.5, second averages 2 and 3, third 2.5: 10.5 - 9 + 2.5. -/
example : ∃ out y, tema ([1, 2, 3, 4].map (fin : ℝ → XF)) 2 = some out ∧ out[3]? = some y ∧ y ⇓ 4 := by
  obtain ⟨out, e, -, -, h⟩ := tema_reports ([1, 2, 3, 4].map (fin : ℝ → XF)) 2 (by decide) (by simp) (fins_map_fin _)
  obtain ⟨y, ey, hy⟩ := h 3 (by decide) (by simp)
  refine ⟨out, y, e, ey, hy.congr ?_⟩
  rw [vals_map_fin]
  norm_num [ewmaFrom, lastOf, mean, bar, List.range_succ]

/-- Three of the prices 1, 2, 3, 4, 5, corrected for the lag, are 3 + 1, 4 + 1, 5 + 1. -/
example : ∃ out y, zlma ([1, 2, 3, 4, 5].map (fin : ℝ → XF)) 3 = some out ∧ out[4]? = some y ∧ y ⇓ 5 := by
  obtain ⟨out, e, -, -, h⟩ := zlma_reports ([1, 2, 3, 4, 5].map (fin : ℝ → XF)) 3 (by decide) (by simp) (fins_map_fin _)
  obtain ⟨y, ey, hy⟩ := h 4 (by simp) (by simp)
  refine ⟨out, y, e, ey, (hy.congr ?_)⟩
  rw [vals_map_fin]
  norm_num [ewmaFrom, lastOf, mean, bar, List.range_succ]

/-- With window 1 `t3` is the series itself, whatever the factor. -/
example (x : ℝ) : ∃ out y, t3 [(fin 7 : XF), fin x] 1 none = some out ∧ out[1]? = some y ∧ y ⇓ x := by
  obtain ⟨out, e, -, -, h⟩ := t3_reports [(fin 7 : XF), fin x] 1 none 0.7 (by decide) (by simp) (is_sci 7 true 1) (by simp [Fins])
  obtain ⟨y, ey, hy⟩ := h 1 (by decide) (by simp)
  refine ⟨out, y, e, ey, (hy.congr ?_)⟩
  norm_num [ewmaFrom, lastOf, mean, bar, vals, List.range_succ]
  ring

/-- A steady rise has efficiency 1, so the fast factor 2 / 3 is used: (2 / 3)² of the way from 0 to 2, then of the way to 3. -/
example : ∃ out y, kama ([1, 2, 3].map (fin : ℝ → XF)) 2 none none = some out ∧ out[2]? = some y ∧ y ⇓ 148 / 81 := by
  have h1 : recent ([1, 2, 3] : List ℝ) 2 1 = [1, 2] := rfl
  have h2 : recent ([1, 2, 3] : List ℝ) 2 2 = [2, 3] := rfl
  obtain ⟨out, e, -, -, h⟩ := kama_reports ([1, 2, 3].map (fin : ℝ → XF)) 2 none none (by decide) (by simp) (fins_map_fin _)
    (by
      rw [vals_map_fin]
      intro i hi hin
      simp only [List.length_map, List.length_cons, List.length_nil] at hin
      match i, hi, hin with
      | 1, _, _ => rw [h1]; norm_num [changes, pairs]
      | 2, _, _ => rw [h2]; norm_num [changes, pairs])
  obtain ⟨y, ey, hy⟩ := h 2 (by decide) (by simp)
  refine ⟨out, y, e, ey, (hy.congr ?_)⟩
  rw [vals_map_fin]
  norm_num [adaptive, efficiency, h1, h2, bar, changes, pairs]

/-- 23 zeros and a one: only the last window of five varies. -/
example : ∀ i, 23 ≤ i → i < 24 →
    mean (lastOf (fun j => stdDev (recent (List.replicate 23 (0 : ℝ) ++ [1]) 5 j)) 20 i) ≠ 0 := by
  intro i h1 h2
  obtain rfl : i = 23 := by omega
  have t : recent (List.replicate 23 (0 : ℝ) ++ [1]) 5 23 = [0, 0, 0, 0, 1] := by simp [recent, List.replicate]
  have v : stdDev [0, 0, 0, 0, (1 : ℝ)] = 0.4 := by
    rw [stdDev, show moment 2 [0, 0, 0, 0, (1 : ℝ)] = 0.4 ^ 2 by simp [moment, mean]; norm_num]
    exact Real.sqrt_sq (by norm_num)
  have hs := List.single_le_sum (l := lastOf (fun j => stdDev (recent (List.replicate 23 (0 : ℝ) ++ [1]) 5 j)) 20 23) (by
    intro x hx
    obtain ⟨j, -, rfl⟩ := List.mem_map.1 hx
    exact Real.sqrt_nonneg _) 0.4 (List.mem_map.2 ⟨19, by simp, by rw [← v, ← t]⟩)
  rw [mean]
  refine (div_pos (by linarith) (by simp [lastOf])).ne'

end Traquer.Smooth
