import Verif.Props.MomentumFormulas
/-!
# C68: oscillators built from several steps; C59: the Fisher transform
-/

namespace Traquer.Momentum
open FP FloatLit
open Traquer.Trend (is_bar)
open Traquer.Smooth (ewma_next f64Max f64Max_ge ema1 foldl_max_seed foldl_min_seed)

/-! ## fisher -/

/-- The Fisher transform: the position of the price (`pos`, one value per bar, from -1/2 to 1/2) is smoothed and clamped to 0.999999, then
transformed and smoothed again. Both smoothed values start from 0. The result after `j` bars is the second component. -/
noncomputable def fisherState (pos : ℕ → ℝ) : ℕ → ℝ × ℝ
  | 0 => (0, 0)
  | j + 1 =>
    let t := max (-0.999999) (min (0.66 * pos j + 0.67 * (fisherState pos j).1) 0.999999)
    (t, Real.log ((1 + t) / (1 - t)) / 2 + (fisherState pos j).2 / 2)

theorem fisherState_bound (pos : ℕ → ℝ) (j : ℕ) :
    |(fisherState pos j).1| ≤ 0.999999 ∧ |(fisherState pos j).2| ≤ Real.log 1999999 := by
  induction j with
  | zero => simp only [fisherState, abs_zero]; exact ⟨by norm_num, Real.log_nonneg (by norm_num)⟩
  | succ j ih =>
    simp only [fisherState]
    set t := max (-0.999999) (min (0.66 * pos j + 0.67 * (fisherState pos j).1) 0.999999) with ht
    have t1 : -0.999999 ≤ t := le_max_left _ _
    have t2 : t ≤ 0.999999 := max_le (by norm_num) (min_le_right _ _)
    refine ⟨abs_le.2 ⟨t1, t2⟩, ?_⟩
    have hp : 0 < 1 - t := by linarith
    have hq : 0 < 1 + t := by linarith
    have l1 : Real.log ((1 + t) / (1 - t)) ≤ Real.log 1999999 := by
      refine Real.log_le_log (by positivity) ?_
      rw [div_le_iff₀ hp]; linarith
    have l2 : -Real.log 1999999 ≤ Real.log ((1 + t) / (1 - t)) := by
      rw [← Real.log_inv]
      refine Real.log_le_log (by norm_num) ?_
      rw [le_div_iff₀ hp]
      norm_num
      linarith
    obtain ⟨b1, b2⟩ := abs_le.1 ih.2
    exact abs_le.2 ⟨by linarith, by linarith⟩

/-- The position of the last value of a window in the range of the window, the range being at least 1e-6. -/
noncomputable def windowPos (v : ℕ → ℝ) (w i : ℕ) : ℝ :=
  (v i - minOf (lastOf v w i)) / max (maxOf (lastOf v w i) - minOf (lastOf v w i)) 0.000001 - 0.5

/-- The middle of bar `i`. -/
noncomputable def middle (high low : List ℝ) (i : ℕ) : ℝ := (bar high i + bar low i) / 2

/-- What the code computes for any finite data: the search for the maximum starts from 0, that for the minimum from the largest number. -/
theorem fisher_seeded (high low : List XF) (w : ℕ) (hl : low.length = high.length) (hw : 1 ≤ w) (hn : w ≤ high.length + 1) (fh : Fins high)
    (fl : Fins low) : Reports high.length (w - 1) (fun i => (fisherState (fun j =>
      let win := lastOf (middle (vals high) (vals low)) w (j + (w - 1))
      (middle (vals high) (vals low) (j + (w - 1)) - win.foldl min f64Max) /
        max (win.foldl max 0 - win.foldl min f64Max) 0.000001 - 0.5) (i + 1 - (w - 1))).2) (fisher high low w) := by
  have r := reports_zip2 (f := fun (h, l) => (h + l) / 2) (g := middle (vals high) (vals low)) hl
    fun i x y hx hy => is_div (is_add (is_bar fh hx) (is_bar fl hy)) (is_lit 2) (by norm_num)
  set hl2 : List XF := (high.zip low).map fun (h, l) => (h + l) / 2 with eh
  set pos : ℕ → ℝ := fun j =>
      let win := lastOf (middle (vals high) (vals low)) w (j + (w - 1))
      (middle (vals high) (vals low) (j + (w - 1)) - win.foldl min f64Max) /
        max (win.foldl max 0 - win.foldl min f64Max) 0.000001 - 0.5 with ep
  have lh := r.length
  obtain ⟨o, eo, ho⟩ := scanM_idx_some (f := fisherStep w) (s := ((0, 0) : XF × XF)) (l := windowsOf w hl2)
    (I := fun j s => s.1 ⇓ (fisherState pos j).1 ∧ s.2 ⇓ (fisherState pos j).2) (P := fun j y => y ⇓ (fisherState pos (j + 1)).2)
    (by
      rintro j ⟨t, z⟩ win hx ⟨i1, i2⟩
      obtain ⟨rfl, hj⟩ := windowsOf_at hw hx
      rw [lh] at hj
      obtain ⟨lf, lv⟩ := r.recent (w := w) (i := j + w - 1) (by omega) (by omega)
      have ll := recent_length (l := hl2) (w := w) (i := j + w - 1) (by omega) (by omega)
      generalize recent hl2 w (j + w - 1) = win at lf lv ll
      have e := getElem?_of_lt (show w - 1 < win.length by omega)
      set last := win[w - 1]'(by omega)
      have hla : last ⇓ middle (vals high) (vals low) (j + (w - 1)) := by
        refine (lf.getElem? e).congr ?_
        rw [lv, lastOf, List.getElem?_map, List.getElem?_range (by omega)]
        simp only [Option.map_some, Option.getD_some]
        congr 1
        omega
      have hmx := foldl_fmax_is lf is_zero
      have hmn := foldl_fmin_is lf (is_maxValue.congr (show _ = f64Max from rfl))
      rw [lv, show j + w - 1 = j + (w - 1) by omega] at hmx hmn
      have mpos : (0 : ℝ) < max ((lastOf (middle (vals high) (vals low)) w (j + (w - 1))).foldl max 0 -
          (lastOf (middle (vals high) (vals low)) w (j + (w - 1))).foldl min f64Max) 0.000001 := lt_max_of_lt_right (by norm_num)
      have tr := is_clampLit (is_add (is_mul (is_sci 66 true 2) (is_sub (is_div (is_sub hla hmn) (is_fmax (is_sub hmx hmn) (is_sci 1 true 6))
        (by simpa using mpos.ne')) (is_sci 5 true 1))) (is_mul (is_sci 67 true 2) i1)) (is_neg (is_sci 999999 true 6)) (is_sci 999999 true 6)
        (by norm_num)
      have tr' := tr.congr (show _ = (fisherState pos (j + 1)).1 by simp only [fisherState, ep])
      have b := (fisherState_bound pos (j + 1)).1
      obtain ⟨b1, b2⟩ := abs_le.1 b
      have n1 : 0 < 1 + (fisherState pos (j + 1)).1 := by linarith
      have n2 : 0 < 1 - (fisherState pos (j + 1)).1 := by linarith
      have res := is_add (is_mul (is_sci 5 true 1) (is_ln (is_div (is_add is_one tr') (is_sub is_one tr') n2.ne') (div_pos n1 n2)))
        (is_mul (is_sci 5 true 1) i2)
      have res' := res.congr (show _ = (fisherState pos (j + 1)).2 by
        simp only [fisherState, ep]
        ring)
      exact ⟨_, _, by simp only [fisherStep, e, Option.bind_eq_bind, Option.bind_some]; rfl, ⟨tr', res'⟩, res'⟩)
    ⟨is_zero, is_zero⟩
  run_model [fisher, ← eh, eo]
  have lo := scanM_length eo
  simp only [windowsOf_length] at lo
  refine reportsP_nans (P := fun i y => y ⇓ _) (by omega) fun i y hy => ?_
  have := ho i y hy
  show y ⇓ (fisherState pos (w - 1 + i + 1 - (w - 1))).2
  rwa [show w - 1 + i + 1 - (w - 1) = i + 1 by omega]

/-- C59: for finite data `fisher` never yields NaN or infinity after its warm-up and is bounded by ln 1999999. -/
theorem fisher_bounded (high low : List XF) (w : ℕ) (hl : low.length = high.length) (hw : 1 ≤ w) (hn : w ≤ high.length + 1) (fh : Fins high)
    (fl : Fins low) : ReportsP high.length (w - 1) (fun _ y => ∃ r, y ⇓ r ∧ |r| ≤ Real.log 1999999) (fisher high low w) :=
  (fisher_seeded high low w hl hw hn fh fl).toP fun _ _ _ _ h => ⟨_, h, (fisherState_bound _ _).2⟩

/-- C59: for prices between 0 and the largest number, `fisher` is the Fisher transform of the position of the middle of the bar in its window. -/
theorem fisher_reports (high low : List XF) (w : ℕ) (hl : low.length = high.length) (hw : 1 ≤ w) (hn : w ≤ high.length + 1) (fh : Fins high)
    (fl : Fins low) (hb : ∀ i, i < high.length → 0 ≤ middle (vals high) (vals low) i ∧ middle (vals high) (vals low) i ≤ f64Max) :
    Reports high.length (w - 1) (fun i =>
      (fisherState (fun j => windowPos (middle (vals high) (vals low)) w (j + (w - 1))) (i + 1 - (w - 1))).2) (fisher high low w) := by
  refine (fisher_seeded high low w hl hw hn fh fl).congr fun i h1 h2 => ?_
  have key : ∀ (p q : ℕ → ℝ) (m : ℕ), (∀ j, j < m → p j = q j) → fisherState p m = fisherState q m := by
    intro p q m h
    induction m with
    | zero => rfl
    | succ m ih =>
      have := ih fun j hj => h j (by omega)
      simp only [fisherState, this, h m (by omega)]
  rw [key _ _ _ fun j hj => ?_]
  simp only [windowPos]
  have ne : lastOf (middle (vals high) (vals low)) w (j + (w - 1)) ≠ [] := by
    intro h
    have := congrArg List.length h
    simp [lastOf] at this
    omega
  have mem : ∀ x ∈ lastOf (middle (vals high) (vals low)) w (j + (w - 1)), 0 ≤ x ∧ x ≤ f64Max := by
    intro x hx
    obtain ⟨t, ht, rfl⟩ := List.mem_map.1 hx
    have := List.mem_range.1 ht
    exact hb _ (by omega)
  rw [foldl_max_seed ne fun x hx => (mem x hx).1, foldl_min_seed ne fun x hx => (mem x hx).2]

/-! ## ultimate -/

/-- The buying pressure of bar `i`. -/
noncomputable def buyingAt (low close : List ℝ) (i : ℕ) : ℝ := bar close i - min (bar low i) (bar close (i - 1))

/-- The true range of bar `i` as the distance between the true high and the true low. -/
noncomputable def trueSpan (high low close : List ℝ) (i : ℕ) : ℝ := max (bar high i) (bar close (i - 1)) - min (bar low i) (bar close (i - 1))

theorem sumPair_snd (w : List (XF × XF)) : sumPair w = (fsum (w.map Prod.fst), fsum (w.map Prod.snd)) := by
  rw [sumPair_fst]

/-- C68: `ultimate` combines the shares of buying pressure over three windows with the weights 4, 2 and 1. -/
theorem ultimate_reports (high low close : List XF) (w1 w2 w3 : ℕ) (hl : low.length = high.length) (hc : close.length = high.length)
    (h1 : w1 ≤ w3) (h2 : w2 ≤ w3) (hw : 1 ≤ w3) (hn : w3 ≤ high.length) (fh : Fins high) (fl : Fins low) (fc : Fins close)
    (h0 : ∀ w ∈ [w1, w2, w3], ∀ i, w3 ≤ i → i < high.length → (lastOf (trueSpan (vals high) (vals low) (vals close)) w i).sum ≠ 0) :
    Reports high.length w3 (fun i =>
      let share := fun w => (lastOf (buyingAt (vals low) (vals close)) w i).sum / (lastOf (trueSpan (vals high) (vals low) (vals close)) w i).sum
      100 * (4 * share w1 + 2 * share w2 + share w3) / 7) (ultimate high low close w1 w2 w3) := by
  have hlow : 1 ≤ low.length := by omega
  have hv : bpTr high low close = some ((zip4 (high.drop 1) (low.drop 1) (close.take (close.length - 1)) (close.drop 1)).map
      fun (h, l, prevc, c) => (c - fmin l prevc, fmax h prevc - fmin l prevc)) := by
    run_model [bpTr]
  set v : List (XF × XF) := (zip4 (high.drop 1) (low.drop 1) (close.take (close.length - 1)) (close.drop 1)).map
      fun (h, l, prevc, c) => (c - fmin l prevc, fmax h prevc - fmin l prevc) with ev
  have lv : v.length = high.length - 1 := by simp [ev]; omega
  have r1 : Reports high.length 1 (buyingAt (vals low) (vals close)) (some (nans 1 ++ v.map Prod.fst)) := by
    refine reportsP_nans (P := fun i y => y ⇓ _) (by simp; omega) fun i y hy => ?_
    rw [List.getElem?_map] at hy
    obtain ⟨p, e, rfl⟩ := Option.map_eq_some_iff.1 hy
    rw [ev, List.getElem?_map] at e
    obtain ⟨⟨h, l, pc, c⟩, e', rfl⟩ := Option.map_eq_some_iff.1 e
    obtain ⟨e1, e2, e3, e4⟩ := zip4_getElem?.1 e'
    have hi := (List.getElem?_eq_some_iff.1 e4).1
    rw [List.length_drop] at hi
    rw [List.getElem?_take_of_lt (by omega)] at e3
    rw [List.getElem?_drop] at e1 e2 e4
    rw [buyingAt, show 1 + i - 1 = i by omega]
    exact is_sub (is_bar fc e4) (is_fmin (is_bar fl e2) (is_bar fc e3))
  have r2 : Reports high.length 1 (trueSpan (vals high) (vals low) (vals close)) (some (nans 1 ++ v.map Prod.snd)) := by
    refine reportsP_nans (P := fun i y => y ⇓ _) (by simp; omega) fun i y hy => ?_
    rw [List.getElem?_map] at hy
    obtain ⟨p, e, rfl⟩ := Option.map_eq_some_iff.1 hy
    rw [ev, List.getElem?_map] at e
    obtain ⟨⟨h, l, pc, c⟩, e', rfl⟩ := Option.map_eq_some_iff.1 e
    obtain ⟨e1, e2, e3, e4⟩ := zip4_getElem?.1 e'
    have hi := (List.getElem?_eq_some_iff.1 e4).1
    rw [List.length_drop] at hi
    rw [List.getElem?_take_of_lt (by omega)] at e3
    rw [List.getElem?_drop] at e1 e2 e4
    rw [trueSpan, show 1 + i - 1 = i by omega]
    exact is_sub (is_fmax (is_bar fh e1) (is_bar fc e3)) (is_fmin (is_bar fl e2) (is_bar fc e3))
  -- the sum of the last `w` entries of a window of `w3`
  have part : ∀ {f : XF × XF → XF} {u : ℕ → ℝ}, Reports high.length 1 u (some (nans 1 ++ v.map f)) → ∀ w, w ≤ w3 → ∀ i, i + w3 ≤ v.length →
      fsum (((recent v w3 (i + w3 - 1)).drop (w3 - w)).map f) ⇓ (lastOf u w (i + w3)).sum := by
    intro f u hu w hw' i hi
    obtain ⟨g1, g2⟩ := hu.recent (w := w) (i := i + w3) (by omega) (by omega)
    have : ((recent v w3 (i + w3 - 1)).drop (w3 - w)).map f = recent (nans 1 ++ v.map f) w (i + w3) := by
      apply List.ext_getElem?
      intro t
      simp only [recent]
      rw [List.map_drop, List.map_take, List.map_drop, List.getElem?_drop, List.getElem?_take, List.getElem?_take, List.getElem?_drop,
        List.getElem?_drop, List.getElem?_append_right (by simp; omega), nans_length]
      by_cases ht : t < w
      · rw [if_pos (by omega), if_pos ht]
        congr 1
        omega
      · rw [if_neg (by omega), if_neg ht]
    rw [this, ← g2]
    exact g1.fsum
  run_model [ultimate, hv]
  have mem : ∀ i w, (windowsOf w3 v)[i]? = some w → w = recent v w3 (i + w3 - 1) ∧ i + w3 ≤ v.length := fun i w h => windowsOf_at hw h
  rw [mapP_eq_map (g := fun w => 100 * ((sumPair (w.drop (w3 - w1))).1 / (sumPair (w.drop (w3 - w1))).2 * 4 +
    (sumPair (w.drop (w3 - w2))).1 / (sumPair (w.drop (w3 - w2))).2 * 2 + (sumPair w).1 / (sumPair w).2) / (4 + 2 + 1 : XF)) fun w _ => rfl]
  simp only [Option.bind_some]
  refine reportsP_nans (P := fun i y => y ⇓ _) (by simp; omega) fun i y hy => ?_
  rw [List.getElem?_map] at hy
  obtain ⟨w, e, rfl⟩ := Option.map_eq_some_iff.1 hy
  obtain ⟨rfl, hi⟩ := mem i w e
  have s3 := part r1 w3 le_rfl i hi
  have t3 := part r2 w3 le_rfl i hi
  rw [Nat.sub_self, List.drop_zero] at s3 t3
  simp only [sumPair_snd]
  rw [Nat.add_comm w3 i]
  have q1 := is_div (part r1 w1 h1 i hi) (part r2 w1 h1 i hi) (h0 w1 (by simp) _ (by omega) (by omega))
  have q2 := is_div (part r1 w2 h2 i hi) (part r2 w2 h2 i hi) (h0 w2 (by simp) _ (by omega) (by omega))
  have q3 := is_div s3 t3 (h0 w3 (by simp) _ (by omega) (by omega))
  refine (is_div (is_mul (is_lit 100) (is_add (is_add (is_mul q1 (is_lit 4)) (is_mul q2 (is_lit 2))) q3))
    (is_add (is_add (is_lit 4) (is_lit 2)) is_one) (by norm_num)).congr ?_
  norm_num
  ring

/-! ## tii -/

/-- The deviation of a series from its moving average, 0 while there is no average. -/
noncomputable def deviation (x : ℕ → ℝ) (w i : ℕ) : ℝ := if w ≤ i + 1 then x i - mean (lastOf x w i) else 0

/-- C68: `tii` is the share of the positive deviations from the moving average over half the window. -/
theorem tii_reports (data : List XF) (w : ℕ) (hw : 1 ≤ w) (hn : w ≤ data.length + 1) (hd : Fins data) :
    ReportsP data.length ((w + 1) / 2 - 1) (fun i =>
      let up := (lastOf (fun j => max (deviation (bar (vals data)) w j) 0) ((w + 1) / 2) i).sum
      let down := (lastOf (fun j => max (-deviation (bar (vals data)) w j) 0) ((w + 1) / 2) i).sum
      QuotIs (100 * up) (up + down)) (tii data w) := by
  have hw2 : 1 ≤ (w + 1) / 2 := by omega
  obtain ⟨m, em, rm, lm⟩ := (hd.reports.sma hw hn).some
  set devs : List (XF × XF) := (m.zip data).map fun (avg, actual) =>
    let dev := actual - avg
    (fmax dev 0, fabs (fmin dev 0)) with ed
  have ld : devs.length = data.length := by simp [ed]; omega
  have dev : ∀ i p, devs[i]? = some p → p.1 ⇓ max (deviation (bar (vals data)) w i) 0 ∧ p.2 ⇓ max (-deviation (bar (vals data)) w i) 0 := by
    intro i p hp
    rw [ed, List.getElem?_map] at hp
    obtain ⟨⟨a, x⟩, e, rfl⟩ := Option.map_eq_some_iff.1 hp
    obtain ⟨e1, e2⟩ := List.getElem?_zip_eq_some.1 e
    have hi := (List.getElem?_eq_some_iff.1 e2).1
    by_cases hk : w ≤ i + 1
    · obtain ⟨a', ea, ha⟩ := rm.get (i := i) (by omega) hi
      rw [e1] at ea
      cases ea
      have hs := is_sub (is_bar hd e2) ha
      simp only [deviation, if_pos hk]
      refine ⟨is_fmax hs is_zero, (is_abs (is_fmin hs is_zero)).congr ?_⟩
      change |min (bar (vals data) i - mean (lastOf (bar (vals data)) w i)) 0| = _
      rw [abs_of_nonpos (min_le_right _ _), ← max_neg_neg, neg_zero]
    · have := rm.get_nan (i := i) (by omega) hi
      rw [e1] at this
      cases this
      simp only [deviation, if_neg hk]
      have en : x - (FP.nan : XF) = FP.nan := by
        show x + -FP.nan = FP.nan
        rw [show (-FP.nan : XF) = FP.nan from rfl, FP.add_nan]
      rw [en]
      exact ⟨is_zero.congr (by simp), (is_abs is_zero).congr (by simp)⟩
  have r1 := reports_map (l := devs) (f := Prod.fst) (k := 0) (n := data.length) (v := fun j => max (deviation (bar (vals data)) w j) 0) ld
    (fun i _ _ hi => by omega) fun i p hp _ => (dev i p hp).1
  have r2 := reports_map (l := devs) (f := Prod.snd) (k := 0) (n := data.length) (v := fun j => max (-deviation (bar (vals data)) w j) 0) ld
    (fun i _ _ hi => by omega) fun i p hp _ => (dev i p hp).2
  simp only [tii, em, divCeil_two, usub_of_le hw2, windows_eq _ hw2, Option.bind_eq_bind, Option.bind_some, ← ed]
  refine reportsP_nans (by simp; omega) fun i y hy => ?_
  rw [List.getElem?_map] at hy
  obtain ⟨win, e, rfl⟩ := Option.map_eq_some_iff.1 hy
  obtain ⟨rfl, hi⟩ := windowsOf_at hw2 e
  obtain ⟨g1, g2⟩ := r1.recent (w := (w + 1) / 2) (i := i + (w + 1) / 2 - 1) (by omega) (by omega)
  obtain ⟨g3, g4⟩ := r2.recent (w := (w + 1) / 2) (i := i + (w + 1) / 2 - 1) (by omega) (by omega)
  rw [recent_map _ _ _] at g1 g2 g3 g4
  simp only [sumPair_snd]
  have s1 := g1.fsum
  have s2 := g3.fsum
  rw [g2, show i + (w + 1) / 2 - 1 = (w + 1) / 2 - 1 + i by omega] at s1
  rw [g4, show i + (w + 1) / 2 - 1 = (w + 1) / 2 - 1 + i by omega] at s2
  rw [show i + (w + 1) / 2 - 1 = (w + 1) / 2 - 1 + i by omega]
  exact quotIs (is_mul (is_lit 100) s1) (is_add s1 s2)

/-! ## stc -/

/-- The position of the last value of a window between the lowest and the highest value of the window, in percent. -/
noncomputable def percentK (v : ℕ → ℝ) (w i : ℕ) : ℝ :=
  100 * (v i - minOf (lastOf v w i)) / (maxOf (lastOf v w i) - minOf (lastOf v w i))

theorem stcRaw_values {n k w : ℕ} {v : ℕ → ℝ} {m : List XF} (hm : Reports n k v (some (nans k ++ m))) (hw : 1 ≤ w) (hn : k + w + 1 ≤ n)
    (h0 : ∀ i, k + (w - 1) ≤ i → i < n → maxOf (lastOf v w i) ≠ minOf (lastOf v w i)) :
    ∃ m', stcRaw m w 2 = some m' ∧ m'.length = n - (k + (w - 1)) ∧
      Reports n (k + (w - 1) + 1) (wilderFrom (k + (w - 1)) 2 (percentK v w)) (some (nans (k + (w - 1) + 1) ++ m'.drop 1)) := by
  have lm := hm.length
  simp only [List.length_append, nans_length] at lm
  have key : ∀ l : List XF, l.length = w → Fins l → ∀ i, k + (w - 1) ≤ i → i < n → vals l = lastOf v w i → ∃ y,
      (do let last ← l[l.length - 1]?
          some (100 * (last - Volatility.foldMin l) / (Volatility.foldMax l - Volatility.foldMin l))) = some y ∧ y ⇓ percentK v w i := by
    intro l ll lf i hi hin lv
    have ne : l ≠ [] := by rintro rfl; simp at ll; omega
    have e := getElem?_of_lt (show l.length - 1 < l.length by omega)
    have hla : l[l.length - 1]'(by omega) ⇓ v i := by
      refine (lf.getElem? e).congr ?_
      rw [lv, lastOf, List.getElem?_map, List.getElem?_range (by omega)]
      simp only [Option.map_some, Option.getD_some]
      congr 1
      omega
    refine ⟨_, by rw [e]; rfl, ?_⟩
    have h1 := foldMax_is lf ne
    have h2 := foldMin_is lf ne
    rw [lv] at h1 h2
    exact is_div (is_mul (is_lit 100) (is_sub hla h2)) (is_sub h1 h2) (sub_ne_zero.2 (h0 i hi hin))
  have part : ∀ i l, (windowsOf w m)[i]? = some l → l.length = w ∧ Fins l ∧ k + (w - 1) + i < n ∧ vals l = lastOf v w (k + (w - 1) + i) := by
    intro i l hl
    obtain ⟨rfl, hi⟩ := windowsOf_at hw hl
    obtain ⟨g1, g2⟩ := hm.recent (w := w) (i := k + (w - 1) + i) (by omega) (by omega)
    have e : recent (nans k ++ m) w (k + (w - 1) + i) = recent m w (i + w - 1) := by
      show ((nans k ++ m).drop _).take w = (m.drop _).take w
      rw [List.drop_append, List.drop_eq_nil_of_le (by simp; omega), List.nil_append, nans_length]
      congr 2
      omega
    rw [e] at g1 g2
    exact ⟨recent_length (by omega) (by omega), g1, by omega, g2⟩
  obtain ⟨r, er⟩ : ∃ r, mapP (fun (l : List XF) => do
      let last ← l[l.length - 1]?
      some (100 * (last - Volatility.foldMin l) / (Volatility.foldMax l - Volatility.foldMin l))) (windowsOf w m) = some r := by
    refine mapP_isSome fun l hl => ?_
    obtain ⟨i, hi⟩ := List.mem_iff_getElem?.1 hl
    obtain ⟨p1, p2, p3, p4⟩ := part i l hi
    obtain ⟨y, ey, -⟩ := key l p1 p2 _ (by omega) p3 p4
    rw [ey]; rfl
  have lr : r.length = n - (k + (w - 1)) := by
    have := mapP_length er
    rw [this, windowsOf_length]; omega
  have rr : Reports n (k + (w - 1)) (percentK v w) (some (nans (k + (w - 1)) ++ r)) := by
    refine reportsP_nans (P := fun i y => y ⇓ _) (by omega) fun i y hy => ?_
    rw [mapP_getElem? er] at hy
    obtain ⟨l, hl, e⟩ := Option.bind_eq_some_iff.1 hy
    obtain ⟨p1, p2, p3, p4⟩ := part i l hl
    obtain ⟨y', ey, hy'⟩ := key l p1 p2 _ (by omega) p3 p4
    rw [ey] at e
    cases e
    exact hy'
  obtain ⟨m', -, e', r', l'⟩ := wilder_after rr (w := 2) (by decide) (by omega)
  rw [List.drop_left' (by simp)] at e'
  refine ⟨m', ?_, l', ?_⟩
  · unfold stcRaw
    rw [windows_eq _ hw]
    simp only [Option.bind_eq_bind, Option.bind_some] at er ⊢
    rw [er]
    exact e'
  · have t := (r'.tail (k + (w - 1) + 1) (by omega)).pad (k + (w - 1) + 1)
    rw [show List.drop (k + (w - 1) + 1) (nans (k + (w - 1)) ++ m') = m'.drop 1 by
      rw [List.drop_append, List.drop_eq_nil_of_le (by simp), List.nil_append, nans_length]; congr 1; omega] at t
    refine (t.cast (by omega) (by omega)).congr fun i h1 h2 => ?_
    congr 1
    omega

/-- C68: `stc` is the position of the MACD in its window, smoothed, then again its position in the window, smoothed. -/
theorem stc_reports (close : List XF) (w short long : ℕ) (hw : 1 ≤ w) (hs : 1 ≤ short) (hsl : short ≤ long)
    (hn : long + 2 * w + 1 ≤ close.length + 1) (hd : Fins close) :
    let line := fun i => ema1 short (bar (vals close)) i - ema1 long (bar (vals close)) i
    let first := wilderFrom (long - 1 + (w - 1)) 2 (percentK line w)
    (∀ i, long - 1 + (w - 1) ≤ i → i < close.length → maxOf (lastOf line w i) ≠ minOf (lastOf line w i)) →
    (∀ i, long - 1 + (w - 1) + 1 + (w - 1) ≤ i → i < close.length → maxOf (lastOf first w i) ≠ minOf (lastOf first w i)) →
    Reports close.length (long - 1 + 2 * (w - 1) + 2) (wilderFrom (long - 1 + 2 * (w - 1) + 1) 2 (percentK first w))
      (stc close w short long) := by
  intro line first h1 h2
  obtain ⟨m, em, rm, lm⟩ := (macd_reports close short long hs (by omega) (by omega) hd).some
  rw [show max short long - 1 = long - 1 by omega] at rm
  have t := (rm.tail (long - 1) (by omega)).pad (long - 1)
  have t' : Reports close.length (long - 1) line (some (nans (long - 1) ++ m.drop (long - 1))) :=
    (t.cast (by omega) (by omega)).congr fun i h1 h2 => by
      rw [show long - 1 + (i - (long - 1)) = i by omega]
  obtain ⟨s1, e1, l1, r1⟩ := stcRaw_values t' hw (by omega) h1
  obtain ⟨s2, e2, l2, r2⟩ := stcRaw_values r1 hw (by omega) h2
  simp only [stc, usub_of_le (show 1 ≤ long by omega), usub_of_le hw, em, e1, e2, Option.bind_eq_bind, Option.bind_some]
  rw [show long - 1 + (w - 1) + 1 + (w - 1) = long - 1 + 2 * (w - 1) + 1 by omega] at r2
  rw [show long - 1 + (w - 1) * 2 + 2 = long - 1 + 2 * (w - 1) + 1 + 1 by omega]
  exact r2

/-! ## kdj -/

/-- C68: the three lines of `kdj`. -/
theorem kdj_reports (high low close : List XF) (w s : ℕ) (kf df : Option XF) {a b : ℝ} (hk : kf.getD 3 ⇓ a) (hd : df.getD 2 ⇓ b) (hw : 1 ≤ w)
    (hs' : 1 ≤ s) (hn : w - 1 + 2 * (s - 1) ≤ high.length) (hh : Fins high) (hl : Fins low) (hc : Fins close) (ll : low.length = high.length)
    (lc : close.length = high.length)
    (hne : ∀ i, w ≤ i + 1 → i < high.length → maxOf (recent (vals high) w i) ≠ minOf (recent (vals low) w i)) :
    let k := fun i => mean (lastOf (rawK (vals high) (vals low) (vals close) w) s i)
    let d := fun i => mean (lastOf k s i)
    Items high.length (w - 1 + 2 * (s - 1)) (fun i y => y.1 ⇓ k i ∧ y.2.1 ⇓ d i ∧ y.2.2 ⇓ a * k i - b * d i) (kdj high low close w s kf df) := by
  intro k d
  obtain ⟨out, e, r1, r2⟩ := stoch_reports high low close w s hw hs' hn hh hl hc ll lc hne
  have lo := r1.length
  simp only [List.length_map] at lo
  refine ⟨_, by run_model [kdj, e]; rfl, by simpa using lo, fun i y hi hy => ?_⟩
  rw [List.getElem?_map] at hy
  obtain ⟨⟨x, z⟩, ep, rfl⟩ := Option.map_eq_some_iff.1 hy
  have hin := (List.getElem?_eq_some_iff.1 ep).1
  have hx := r1.at (i := i) (x := x) (by rw [List.getElem?_map, ep]; rfl) (by omega)
  have hz := r2.at (i := i) (x := z) (by rw [List.getElem?_map, ep]; rfl) hi
  exact ⟨hx, hz, is_sub (is_mul hk hx) (is_mul hd hz)⟩

/-! ## Concrete runs -/

example : ReportsP 4 1 (fun _ y => ∃ r, y ⇓ r ∧ |r| ≤ Real.log 1999999) (fisher hi4 lo4 2) :=
  fisher_bounded hi4 lo4 2 rfl (by decide) (by simp) (fins_map_fin _) (fins_map_fin _)

/-- The highest of two prices: position 1/2. -/
example : ValueAt (fisher hi4 lo4 2) 1 (Real.log (1.33 / 0.67) / 2) :=
  (fisher_reports hi4 lo4 2 rfl (by decide) (by simp) (fins_map_fin _) (fins_map_fin _) (by
    simp only [vals_map_fin, List.length_map]
    intro i h
    have := f64Max_ge
    simp only [List.length_cons, List.length_nil] at h
    interval_cases i <;> norm_num [middle, bar] <;> linarith)).value 1 (by decide) (by simp) (by
    simp only [vals_map_fin]
    norm_num [fisherState, windowPos, middle, lastOf, bar, List.range_succ, maxOf, minOf])

/-- For negative prices the transform is not that of the position in the window: the maximum of the window is taken to be at least 0. Here
the last price is the highest of the window, which at position 1/2 would give `log (1.33 / 0.67) / 2`. -/
theorem fisher_negative_prices : ValueAt (fisher ([-2, -1].map fin) ([-2, -1].map fin) 2) 1 0 ∧ Real.log (1.33 / 0.67) / 2 ≠ 0 := by
  refine ⟨(fisher_seeded ([-2, -1].map fin) ([-2, -1].map fin) 2 rfl (by decide) (by simp) (fins_map_fin _) (fins_map_fin _)).value 1
    (by decide) (by simp) ?_, ?_⟩
  · have h : ∀ m : ℝ, 1000 ≤ m → min m (-2) = -2 := fun m hm => min_eq_right (by linarith)
    simp only [vals_map_fin]
    norm_num [fisherState, middle, lastOf, bar, List.range_succ, h _ f64Max_ge]
  · have : 0 < Real.log (1.33 / 0.67) := Real.log_pos (by norm_num)
    positivity

example : ValueAt (ultimate hi4 lo4 cl4 1 1 2) 2 (100 * (4 * 0 + 2 * 0 + 3 / 5) / 7) :=
  (ultimate_reports hi4 lo4 cl4 1 1 2 rfl rfl (by decide) (by decide) (by decide) (by simp) (fins_map_fin _) (fins_map_fin _) (fins_map_fin _) (by
    simp only [vals_map_fin, List.length_map, List.mem_cons, List.not_mem_nil, or_false]
    rintro w hw i h1 h2
    simp only [List.length_cons, List.length_nil] at h2
    rcases hw with rfl | rfl | rfl <;> interval_cases i <;> norm_num [lastOf, trueSpan, bar, List.range_succ])).value 2 (by decide) (by simp) (by
    simp only [vals_map_fin]
    norm_num [lastOf, trueSpan, buyingAt, bar, List.range_succ])

example : ValueAt (tii cl4 2) 1 100 :=
  (tii_reports cl4 2 (by decide) (by simp) (fins_map_fin _)).quot 1 (by decide) (by simp)
    (by simp only [vals_map_fin]; norm_num [lastOf, deviation, bar, List.range_succ, mean])
    (by simp only [vals_map_fin]; norm_num [lastOf, deviation, bar, List.range_succ, mean])

example : ValueAt (stc ([0, 2, 2, 4, 4, 6].map fin) 2 1 2) 5 50 :=
  (stc_reports ([0, 2, 2, 4, 4, 6].map fin) 2 1 2 (by decide) (by decide) (by decide) (by simp) (fins_map_fin _) (by
    simp only [vals_map_fin, List.length_map]
    intro i h1 h2
    simp only [List.length_cons, List.length_nil] at h2
    interval_cases i <;> norm_num [ema1, ewmaFrom, lastOf, bar, List.range_succ, mean, maxOf, minOf]) (by
    simp only [vals_map_fin, List.length_map]
    intro i h1 h2
    simp only [List.length_cons, List.length_nil] at h2
    interval_cases i <;> norm_num [percentK, wilderFrom, ema1, ewmaFrom, lastOf, bar, List.range_succ, mean, maxOf, minOf])).value 5 (by decide)
    (by simp) (by
    simp only [vals_map_fin]
    norm_num [percentK, wilderFrom, ema1, ewmaFrom, lastOf, bar, List.range_succ, mean, maxOf, minOf])

example :=
  kdj_reports hi4 lo4 cl4 1 2 none none (is_lit 3) (is_lit 2) (by decide) (by decide) (by simp) (fins_map_fin _) (fins_map_fin _) (fins_map_fin _)
    rfl rfl (by
    simp only [vals_map_fin, List.length_map]
    intro i h1 h2
    simp only [List.length_cons, List.length_nil] at h2
    interval_cases i <;> norm_num [recent, maxOf, minOf])

end Traquer.Momentum
