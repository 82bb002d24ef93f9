import Verif.Props.VolatilityFormulas
import Verif.Props.Recursive
/-!
# C71: the trend indicators compute their published formulas; C60: decay and ulcer
-/

namespace Traquer
open FP FloatLit
open Traquer.Trend (is_bar)

theorem items_pad {α : Type} {n k : ℕ} {P : ℕ → α → Prop} {r : List α} (d : α) (hn : k + r.length = n)
    (h : ∀ i y, r[i]? = some y → P (k + i) y) : Items n k P (some (List.replicate k d ++ r)) := by
  refine ⟨_, rfl, by simp; omega, fun i y hi hy => ?_⟩
  rw [List.getElem?_append_right (by simpa using hi), List.length_replicate] at hy
  have := h _ _ hy
  rwa [show k + (i - k) = i by omega] at this

/-- The average true range starts at bar `w`. -/
theorem atr_values {high low close : List XF} {w : ℕ} (hl : low.length = high.length) (hc : close.length = high.length)
    (hw : 1 ≤ w) (hn : w + 1 ≤ high.length) (fh : Fins high) (fl : Fins low) (fc : Fins close) :
    Reports high.length w (wilderFrom 1 w (trAt (vals high) (vals low) (vals close))) (Volatility.atr high low close w) := by
  obtain ⟨t, et, lt, rt⟩ := trueRange_values hl hc (by omega) fh fl fc
  obtain ⟨m, -, em, rm, lm⟩ := wilder_after rt hw (by omega)
  rw [List.drop_left' (by simp)] at em
  run_model [Volatility.atr, et, em]
  exact rm.cast rfl (by omega)

/-- The sum of the last `w` values. -/
noncomputable def windowSum (l : List ℝ) (w i : ℕ) : ℝ := (recent l w i).sum

theorem windowSum_is {l : List XF} (hf : Fins l) (w i : ℕ) : fsum (recent l w i) ⇓ windowSum (vals l) w i := by
  rw [windowSum, ← recent_vals]
  exact (hf.recent w i).fsum

end Traquer

namespace Traquer.Trend
open FP FloatLit
open Traquer.Volatility (foldMax foldMin trueRange atr)

/-- C71: `shinohara`'s weak ratio is `100 * (ΣH - ΣC) / (ΣC - ΣL)` over the window; the strong ratio compares with the closes of the window
one bar earlier and starts one bar later. -/
theorem shinohara_reports (high low close : List XF) (w : ℕ) (hl : low.length = high.length) (hc : close.length = high.length)
    (hw : 1 ≤ w) (hn : w ≤ high.length) (fh : Fins high) (fl : Fins low) (fc : Fins close) : Items high.length (w - 1) (fun i y =>
      QuotIs (100 * (windowSum (vals high) w i - windowSum (vals close) w i)) (windowSum (vals close) w i - windowSum (vals low) w i) y.2 ∧
      (w ≤ i → QuotIs (100 * (windowSum (vals high) w i - windowSum (vals close) w (i - 1)))
        (windowSum (vals close) w (i - 1) - windowSum (vals low) w i) y.1) ∧ (i < w → y.1 = FP.nan)) (shinohara high low close w) := by
  refine ⟨_, by run_model [shinohara]; rfl, by simp [hl, hc]; omega, ?_⟩
  rintro i ⟨s, k⟩ hi hy
  obtain ⟨h1, h2⟩ := List.getElem?_zip_eq_some.1 hy
  refine ⟨?_, fun hw' => ?_, fun hw' => ?_⟩
  · rw [List.getElem?_append_right (by simpa using hi), nans_length, List.getElem?_map] at h2
    obtain ⟨⟨h, l, c⟩, e, rfl⟩ := Option.map_eq_some_iff.1 h2
    rw [zip3_getElem?] at e
    simp only [List.getElem?_map, Option.map_eq_some_iff] at e
    obtain ⟨⟨_, e1, rfl⟩, ⟨_, e2, rfl⟩, ⟨_, e3, rfl⟩⟩ := e
    obtain ⟨rfl, -⟩ := windowsOf_at hw e1
    obtain ⟨rfl, -⟩ := windowsOf_at hw e2
    obtain ⟨rfl, -⟩ := windowsOf_at hw e3
    rw [show i - (w - 1) + w - 1 = i by omega]
    exact quotIs (is_mul (is_lit 100) (is_sub (windowSum_is fh w i) (windowSum_is fc w i))) (is_sub (windowSum_is fc w i) (windowSum_is fl w i))
  · rw [List.getElem?_append_right (by simpa using hw'), nans_length, List.getElem?_map] at h1
    obtain ⟨⟨h, l, c⟩, e, rfl⟩ := Option.map_eq_some_iff.1 h1
    rw [zip3_getElem?] at e
    obtain ⟨e1, e2, e3⟩ := e
    rw [List.getElem?_take_of_lt (by by_contra hh; rw [List.getElem?_eq_none (by rw [List.length_take]; omega)] at e3; cases e3)] at e3
    simp only [List.getElem?_map, List.getElem?_drop, Option.map_eq_some_iff] at e1 e2 e3
    obtain ⟨_, e1, rfl⟩ := e1
    obtain ⟨_, e2, rfl⟩ := e2
    obtain ⟨_, e3, rfl⟩ := e3
    obtain ⟨rfl, -⟩ := windowsOf_at hw e1
    obtain ⟨rfl, -⟩ := windowsOf_at hw e2
    obtain ⟨rfl, -⟩ := windowsOf_at hw e3
    rw [show 1 + (i - w) + w - 1 = i by omega, show i - w + w - 1 = i - 1 by omega]
    exact quotIs (is_mul (is_lit 100) (is_sub (windowSum_is fh w i) (windowSum_is fc w _))) (is_sub (windowSum_is fc w _) (windowSum_is fl w i))
  · rw [List.getElem?_append_left (by simpa using hw'), nans, List.getElem?_replicate, if_pos hw'] at h1
    exact (Option.some.inj h1).symm

/-- Sums of triples, component by component. -/
theorem reduce3_is {l : List (XF × XF × XF)} (hl : l ≠ []) (h1 : Fins (l.map (·.1))) (h2 : Fins (l.map (·.2.1)))
    (h3 : Fins (l.map (·.2.2))) : ∃ p n t, reduce3 l = some (p, n, t) ∧ p ⇓ (vals (l.map (·.1))).sum ∧
      n ⇓ (vals (l.map (·.2.1))).sum ∧ t ⇓ (vals (l.map (·.2.2))).sum := by
  obtain ⟨x, xs, rfl⟩ := List.exists_cons_of_ne_nil hl
  have key : ∀ (xs : List (XF × XF × XF)) (a : XF × XF × XF) (u v z : ℝ), a.1 ⇓ u → a.2.1 ⇓ v → a.2.2 ⇓ z →
      Fins (xs.map (·.1)) → Fins (xs.map (·.2.1)) → Fins (xs.map (·.2.2)) → ∃ p n t,
      xs.foldl (fun acc p => (acc.1 + p.1, acc.2.1 + p.2.1, acc.2.2 + p.2.2)) a = (p, n, t) ∧
      p ⇓ u + (vals (xs.map (·.1))).sum ∧ n ⇓ v + (vals (xs.map (·.2.1))).sum ∧ t ⇓ z + (vals (xs.map (·.2.2))).sum := by
    intro xs
    induction xs with
    | nil => intro a u v z ha hb hc _ _ _; exact ⟨_, _, _, rfl, ha.congr (by simp), hb.congr (by simp), hc.congr (by simp)⟩
    | cons y ys ih =>
      intro a u v z ha hb hc f1 f2 f3
      simp only [List.map_cons] at f1 f2 f3
      have y1 := f1 y.1 (List.mem_cons_self ..)
      have y2 := f2 y.2.1 (List.mem_cons_self ..)
      have y3 := f3 y.2.2 (List.mem_cons_self ..)
      obtain ⟨p, n, t, e, q1, q2, q3⟩ := ih (a.1 + y.1, a.2.1 + y.2.1, a.2.2 + y.2.2) _ _ _ (is_add ha y1.is) (is_add hb y2.is) (is_add hc y3.is)
        (fun b hb => f1 b (List.mem_cons_of_mem _ hb)) (fun b hb => f2 b (List.mem_cons_of_mem _ hb)) (fun b hb => f3 b (List.mem_cons_of_mem _ hb))
      refine ⟨p, n, t, e, q1.congr ?_, q2.congr ?_, q3.congr ?_⟩ <;> simp [add_assoc]
  simp only [List.map_cons] at h1 h2 h3
  obtain ⟨p, n, t, e, q1, q2, q3⟩ := key xs x _ _ _ (h1 x.1 (List.mem_cons_self ..)).is (h2 x.2.1 (List.mem_cons_self ..)).is
    (h3 x.2.2 (List.mem_cons_self ..)).is (fun b hb => h1 b (List.mem_cons_of_mem _ hb)) (fun b hb => h2 b (List.mem_cons_of_mem _ hb))
    (fun b hb => h3 b (List.mem_cons_of_mem _ hb))
  exact ⟨p, n, t, by rw [reduce3, e], q1.congr (by simp), q2.congr (by simp), q3.congr (by simp)⟩

/-- The positive and negative vortex movement of bar `i`. -/
noncomputable def vmPlus (high low : List ℝ) (i : ℕ) : ℝ := |bar high i - bar low (i - 1)|
/-- The positive and negative vortex movement of bar `i`. -/
noncomputable def vmMinus (high low : List ℝ) (i : ℕ) : ℝ := |bar low i - bar high (i - 1)|

/-- C71: `vortex` is the ratio of the vortex movements to the true ranges, summed over the window. -/
theorem vortex_reports (high low close : List XF) (w : ℕ) (hl : low.length = high.length) (hc : close.length = high.length)
    (hw : 1 ≤ w) (hn : w ≤ high.length) (fh : Fins high) (fl : Fins low) (fc : Fins close) : Items high.length w (fun i y =>
      QuotIs (lastOf (vmPlus (vals high) (vals low)) w i).sum (lastOf (trAt (vals high) (vals low) (vals close)) w i).sum y.1 ∧
      QuotIs (lastOf (vmMinus (vals high) (vals low)) w i).sum (lastOf (trAt (vals high) (vals low) (vals close)) w i).sum y.2)
      (vortex high low close w) := by
  obtain ⟨v, ev, lv⟩ := dmBars_yields high low close hl hc (by omega)
  have el : ∀ i b, v[i]? = some b → (vortexTerm b).1 ⇓ vmPlus (vals high) (vals low) (1 + i) ∧
      (vortexTerm b).2.1 ⇓ vmMinus (vals high) (vals low) (1 + i) ∧ (vortexTerm b).2.2 ⇓ trAt (vals high) (vals low) (vals close) (1 + i) := by
    run_at ev [dmBars]
    cases ev
    rintro i ⟨ph, h, pl, l, pc⟩ hb
    have hi := (List.getElem?_eq_some_iff.1 hb).1
    simp [hl, hc] at hi
    rw [zip5_getElem?] at hb
    obtain ⟨e1, e2, e3, e4, e5⟩ := hb
    rw [List.getElem?_take_of_lt (by omega)] at e1 e3 e5
    rw [List.getElem?_drop] at e2 e4
    have b1 := is_bar fh e1
    have b2 := is_bar fh e2
    have b3 := is_bar fl e3
    have b4 := is_bar fl e4
    have b5 := is_bar fc e5
    rw [vmPlus, vmMinus, trAt, trueRangeOf, show 1 + i - 1 = i by omega]
    exact ⟨is_abs (is_sub b2 b3), is_abs (is_sub b4 b1),
      (is_fmax (is_fmax (is_sub b2 b4) (is_abs (is_sub b2 b5))) (is_abs (is_sub b4 b5))).congr (max_assoc _ _ _)⟩
  have rep : ∀ (g : XF × XF × XF → XF) (f : ℕ → ℝ), (∀ i b, v[i]? = some b → g (vortexTerm b) ⇓ f (1 + i)) →
      Reports high.length 1 f (some (nans 1 ++ (v.map vortexTerm).map g)) := by
    intro g f hg
    refine reports_nans (by simp; omega) fun i hi => ⟨_, getElem?_of_lt hi, ?_⟩
    rw [List.getElem_map, List.getElem_map]
    exact hg i _ (getElem?_of_lt (by simpa using hi))
  have r1 := rep (·.1) _ fun i b hb => (el i b hb).1
  have r2 := rep (·.2.1) _ fun i b hb => (el i b hb).2.1
  have r3 := rep (·.2.2) _ fun i b hb => (el i b hb).2.2
  set z := v.map vortexTerm with hz
  have lz : z.length = high.length - 1 := by simp [hz, lv]
  have win : ∀ (g : XF × XF × XF → XF) (f : ℕ → ℝ) (i : ℕ), Reports high.length 1 f (some (nans 1 ++ z.map g)) → i + w ≤ z.length →
      Fins ((recent z w (i + w - 1)).map g) ∧ vals ((recent z w (i + w - 1)).map g) = lastOf f w (w + i) := by
    intro g f i hr hi
    have := hr.recent (w := w) (i := w + i) (by omega) (by omega)
    have e : recent (nans 1 ++ z.map g) w (w + i) = (recent z w (i + w - 1)).map g := by
      rw [← recent_map, show w + i = 1 + (i + w - 1) by omega, ← recent_drop _ _ _ _ (by omega), List.drop_left' (by simp)]
    rwa [e] at this
  run_model [vortex, ev]
  have tot : ∀ x ∈ windowsOf w z, ∃ p n t, reduce3 x = some (p, n, t) := by
    intro x hx
    have := windowsOf_mem_length hx
    cases x with
    | nil => simp at this; omega
    | cons y ys => exact ⟨_, _, _, rfl⟩
  obtain ⟨r, er⟩ := mapP_isSome (f := fun x => (reduce3 x).bind fun p => some (p.1 / p.2.2, p.2.1 / p.2.2)) (l := windowsOf w z) fun x hx => by
    obtain ⟨p, n, t, e⟩ := tot x hx
    simp [e]
  have lr := mapP_length er
  simp only [windowsOf_length] at lr
  erw [er]
  refine items_pad _ (by omega) fun i y hy => ?_
  rw [mapP_getElem? er] at hy
  obtain ⟨x, hx, hy⟩ := Option.bind_eq_some_iff.1 hy
  obtain ⟨rfl, hi⟩ := windowsOf_at hw hx
  obtain ⟨f1, v1⟩ := win _ _ i r1 hi
  obtain ⟨f2, v2⟩ := win _ _ i r2 hi
  obtain ⟨f3, v3⟩ := win _ _ i r3 hi
  have hne : recent z w (i + w - 1) ≠ [] := List.ne_nil_of_length_pos (by rw [recent_length (by omega) (by omega)]; omega)
  obtain ⟨p, n, t, e, q1, q2, q3⟩ := reduce3_is hne f1 f2 f3
  rw [e] at hy
  cases hy
  rw [v1] at q1
  rw [v2] at q2
  rw [v3] at q3
  exact ⟨quotIs q1 q3, quotIs q2 q3⟩

/-- The drawdown of bar `i` in percent of the highest of the last `w` values. -/
noncomputable def drawdown (x : List ℝ) (w i : ℕ) : ℝ := 100 * (bar x i - maxOf (recent x w i)) / maxOf (recent x w i)

/-- C71/C60: `ulcer` is the root mean square, over the window, of the drawdowns from the highest value of each bar's own window. -/
theorem ulcer_reports (data : List XF) (w : ℕ) (hw : 1 ≤ w) (hn : 2 * (w - 1) ≤ data.length) (hd : Fins data)
    (h0 : ∀ i, w ≤ i + 1 → i < data.length → maxOf (recent (vals data) w i) ≠ 0) : Reports data.length (2 * (w - 1))
      (fun i => √(mean (lastOf (fun j => drawdown (vals data) w j ^ 2) w i))) (ulcer data w) := by
  set sq : List XF := (((windowsOf w data).map foldMax).zip (data.drop (w - 1))).map fun (high, c) => powi (100 * (c - high) / high) 2 with hsq
  have r1 : Reports (data.length - (w - 1)) 0 (fun i => drawdown (vals data) w (w - 1 + i) ^ 2) (some sq) := by
    refine reports_map (by simp; omega) (fun i b _ hi => by omega) ?_
    rintro i ⟨h, c⟩ hi -
    obtain ⟨h1, h2⟩ := List.getElem?_zip_eq_some.1 hi
    rw [List.getElem?_map] at h1
    obtain ⟨x, hx, rfl⟩ := Option.map_eq_some_iff.1 h1
    obtain ⟨rfl, li⟩ := windowsOf_at hw hx
    rw [List.getElem?_drop] at h2
    have hm := maxOf_recent hd (w := w) (i := i + w - 1) hw (by omega) (by omega)
    rw [show i + w - 1 = w - 1 + i by omega] at hm ⊢
    exact is_powi 2 (is_div (is_mul (is_lit 100) (is_sub (is_bar hd h2) hm)) hm (h0 _ (by omega) (by omega)))
  obtain ⟨m, em, rm, lm⟩ := (r1.sma hw (by omega)).some
  simp only [Nat.zero_add] at rm
  run_model [ulcer]
  erw [em]
  have r2 : Reports (data.length - (w - 1)) (w - 1) (fun i => √(mean (lastOf (fun i => drawdown (vals data) w (w - 1 + i) ^ 2) w i)))
      (some (m.map sqrt)) := by
    refine reports_map lm (fun i b hb hi => ?_) fun i b hb hi => ?_
    · have := rm.at_nan hb hi
      nanp
    · exact is_sqrt (rm.at hb hi) (mean_nonneg (by
        intro x hx
        obtain ⟨y, -, rfl⟩ := List.mem_map.1 hx
        positivity))
  refine ((r2.pad (w - 1)).cast (by omega) (by omega)).congr fun i h1 h2 => ?_
  congr 2
  refine lastOf_congr fun j hj => ?_
  rw [show w - 1 + (i - (w - 1) + 1 - w + j) = i + 1 - w + j by omega]

/-- C60: `ulcer` is never negative, and 0 at a bar if each of the last `w` bars was the highest of its own window. -/
theorem ulcer_nonneg (data : List XF) (w : ℕ) (hw : 1 ≤ w) (hn : 2 * (w - 1) ≤ data.length) (hd : Fins data)
    (h0 : ∀ i, w ≤ i + 1 → i < data.length → maxOf (recent (vals data) w i) ≠ 0) : ReportsP data.length (2 * (w - 1))
      (fun i y => ∃ r, y ⇓ r ∧ 0 ≤ r ∧ ((∀ j, i < w + j → j ≤ i → bar (vals data) j = maxOf (recent (vals data) w j)) → r = 0))
      (ulcer data w) := by
  refine (ulcer_reports data w hw hn hd h0).toP fun i y h1 h2 hy => ⟨_, hy, Real.sqrt_nonneg _, fun h => ?_⟩
  rw [Real.sqrt_eq_zero']
  have : lastOf (fun j => drawdown (vals data) w j ^ 2) w i = List.replicate w 0 := by
    rw [lastOf, List.eq_replicate_iff]
    refine ⟨by simp, fun b hb => ?_⟩
    obtain ⟨j, hj, rfl⟩ := List.mem_map.1 hb
    have := List.mem_range.1 hj
    rw [drawdown, h _ (by omega) (by omega)]
    simp
  rw [this, mean]
  simp

/-! ## rwi -/

/-- The mean of the true ranges of the `d` bars before bar `i`. -/
noncomputable def meanBefore (tr : ℕ → ℝ) (i d : ℕ) : ℝ := ((List.range d).map fun e => tr (i - 1 - e)).sum / d

/-- The random walk index of the highs at bar `i`: the largest, over the lags `d = 1 .. w - 1`, of the distance from the low `d` bars ago
in units of the mean true range of those bars times `√d`, and at least 0. -/
noncomputable def rwiHigh (high low : List ℝ) (tr : ℕ → ℝ) (w i : ℕ) : ℝ :=
  ((List.range (w - 1)).map fun e => (bar high i - bar low (i - (e + 1))) / (meanBefore tr i (e + 1) * √(e + 1 : ℕ))).foldl max 0

/-- The random walk index of the lows. -/
noncomputable def rwiLow (high low : List ℝ) (tr : ℕ → ℝ) (w i : ℕ) : ℝ :=
  ((List.range (w - 1)).map fun e => (bar high (i - (e + 1)) - bar low i) / (meanBefore tr i (e + 1) * √(e + 1 : ℕ))).foldl max 0

theorem foldl_range_succ (f : ℕ → ℝ) (m : ℕ) : ((List.range (m + 1)).map f).foldl max 0 = max (((List.range m).map f).foldl max 0) (f m) := by
  rw [List.range_succ, List.map_append, List.foldl_append]
  rfl

/-- C71: `rwi` is the random walk index of the highs and of the lows, if no true range is 0. -/
theorem rwi_reports (high low close : List XF) (w : ℕ) (hl : low.length = high.length) (hc : close.length = high.length)
    (hw : 1 ≤ w) (hn : w ≤ high.length) (fh : Fins high) (fl : Fins low) (fc : Fins close)
    (h0 : ∀ i, 1 ≤ i → i < high.length → trAt (vals high) (vals low) (vals close) i ≠ 0) : Items high.length w (fun i y =>
      y.1 ⇓ rwiHigh (vals high) (vals low) (trAt (vals high) (vals low) (vals close)) w i ∧
      y.2 ⇓ rwiLow (vals high) (vals low) (trAt (vals high) (vals low) (vals close)) w i) (rwi high low close w) := by
  obtain ⟨t, et, lt, rt⟩ := trueRange_values hl hc (by omega) fh fl fc
  set T := trAt (vals high) (vals low) (vals close) with hT
  have Tpos : ∀ i, 1 ≤ i → i < high.length → 0 < T i := fun i h1 h2 =>
    lt_of_le_of_ne (le_trans (abs_nonneg _) ((le_max_left _ _).trans (le_max_right _ _))) (Ne.symm (h0 i h1 h2))
  run_model [rwi, et]
  have key : ∀ i, i + w ≤ high.length - 1 → ∃ a b s, (List.range' 2 (w - 1)).foldlM (rwiStep w (recent (high.drop 1) w (i + w - 1))
      (recent (low.drop 1) w (i + w - 1)) (recent t w (i + w - 1))) ((0 : XF), (0 : XF), (0 : XF)) = some (a, b, s) ∧
      a ⇓ rwiHigh (vals high) (vals low) T w (w + i) ∧ b ⇓ rwiLow (vals high) (vals low) T w (w + i) := by
    intro i hi
    have e0 : ∀ {α : Type} (l : List α), recent (l.drop 1) w (i + w - 1) = recent l w (w + i) := fun l => by
      rw [recent_drop _ _ _ _ (by omega), show 1 + (i + w - 1) = w + i by omega]
    have e1 : recent t w (i + w - 1) = recent (nans 1 ++ t) w (w + i) := by
      rw [show w + i = 1 + (i + w - 1) by omega, ← recent_drop _ _ _ _ (by omega), List.drop_left' (by simp)]
    rw [e0, e0, e1]
    have get : ∀ {l : List XF} (j : ℕ), j < w → w + i < l.length → ∃ x, (recent l w (w + i))[j]? = some x ∧ l[i + 1 + j]? = some x := by
      intro l j hj hlen
      have := getElem?_of_lt (show i + 1 + j < l.length by omega)
      refine ⟨_, ?_, this⟩
      show ((l.drop (w + i + 1 - w)).take w)[j]? = _
      rw [List.getElem?_take_of_lt hj, List.getElem?_drop, show w + i + 1 - w + j = i + 1 + j by omega, this]
    have step : ∀ m, m ≤ w - 1 → ∃ a b s, (List.range' 2 m).foldlM (rwiStep w (recent high w (w + i)) (recent low w (w + i))
        (recent (nans 1 ++ t) w (w + i))) ((0 : XF), (0 : XF), (0 : XF)) = some (a, b, s) ∧
        a ⇓ rwiHigh (vals high) (vals low) T (m + 1) (w + i) ∧ b ⇓ rwiLow (vals high) (vals low) T (m + 1) (w + i) ∧
        s ⇓ ((List.range m).map fun e => T (w + i - 1 - e)).sum := by
      intro m
      induction m with
      | zero => intro _; exact ⟨0, 0, 0, rfl, by simpa [rwiHigh] using is_zero, by simpa [rwiLow] using is_zero, by simpa using is_zero⟩
      | succ m ih =>
        intro hm
        obtain ⟨a, b, s, e, ha, hb, hs⟩ := ih (by omega)
        obtain ⟨x1, g1, g1'⟩ := get (l := nans 1 ++ t) (w - (2 + m)) (by omega) (by simp; omega)
        obtain ⟨x2, g2, g2'⟩ := get (l := high) (w - 1) (by omega) (by omega)
        obtain ⟨x3, g3, g3'⟩ := get (l := low) (w - (2 + m)) (by omega) (by omega)
        obtain ⟨x4, g4, g4'⟩ := get (l := high) (w - (2 + m)) (by omega) (by omega)
        obtain ⟨x5, g5, g5'⟩ := get (l := low) (w - 1) (by omega) (by omega)
        have i1 := rt.at g1' (by omega)
        have i2 := is_bar fh g2'
        have i3 := is_bar fl g3'
        have i4 := is_bar fh g4'
        have i5 := is_bar fl g5'
        rw [show i + 1 + (w - (2 + m)) = w + i - (m + 1) by omega] at i1 i3 i4
        rw [show i + 1 + (w - 1) = w + i by omega] at i2 i5
        have hs' := is_add hs i1
        have hsum : ((List.range m).map fun e => T (w + i - 1 - e)).sum + T (w + i - (m + 1)) =
            ((List.range (m + 1)).map fun e => T (w + i - 1 - e)).sum := by
          rw [List.range_succ, List.map_append, List.sum_append]
          simp only [List.map_cons, List.map_nil, List.sum_singleton]
          rw [show w + i - (m + 1) = w + i - 1 - m by omega]
        rw [hsum] at hs'
        have spos : 0 < ((List.range (m + 1)).map fun e => T (w + i - 1 - e)).sum := by
          rw [← hsum]
          refine add_pos_of_nonneg_of_pos (List.sum_nonneg ?_) (Tpos _ (by omega) (by omega))
          intro x hx
          obtain ⟨e, he, rfl⟩ := List.mem_map.1 hx
          have := List.mem_range.1 he
          exact (Tpos _ (by omega) (by omega)).le
        have hk : (flt (2 + m - 1) : XF) ⇓ ((m + 1 : ℕ) : ℝ) := by
          rw [show 2 + m - 1 = m + 1 by omega]; exact is_flt _
        have kpos : (0 : ℝ) < ((m + 1 : ℕ) : ℝ) := by positivity
        have hden := is_mul (is_div hs' hk kpos.ne') (is_sqrt hk kpos.le)
        have dpos : ((List.range (m + 1)).map fun e => T (w + i - 1 - e)).sum / ((m + 1 : ℕ) : ℝ) * √((m + 1 : ℕ) : ℝ) ≠ 0 := by
          have := Real.sqrt_pos.2 kpos
          positivity
        refine ⟨_, _, _, ?_, is_fmax ha (is_div (is_sub i2 i3) hden dpos) |>.congr ?_, is_fmax hb (is_div (is_sub i4 i5) hden dpos) |>.congr ?_, hs'⟩
        · rw [List.range'_1_concat, List.foldlM_append, e]
          simp only [Option.bind_eq_bind, Option.bind_some, List.foldlM_cons, List.foldlM_nil, rwiStep, usub_of_le (show 2 + m ≤ w by omega), g1, g2,
            g3, g4, g5]
          rfl
        · rw [rwiHigh, rwiHigh, show m + 1 + 1 - 1 = m + 1 by omega, show m + 1 - 1 = m by omega, foldl_range_succ]
          simp only [meanBefore]
        · rw [rwiLow, rwiLow, show m + 1 + 1 - 1 = m + 1 by omega, show m + 1 - 1 = m by omega, foldl_range_succ]
          simp only [meanBefore]
    obtain ⟨a, b, s, e, ha, hb, -⟩ := step (w - 1) le_rfl
    rw [show w - 1 + 1 = w by omega] at ha hb
    exact ⟨a, b, s, e, ha, hb⟩
  have items : ∀ j p, (zip3 (windowsOf w (high.drop 1)) (windowsOf w (low.drop 1)) (windowsOf w t))[j]? = some p →
      j + w ≤ high.length - 1 ∧ p = (recent (high.drop 1) w (j + w - 1), recent (low.drop 1) w (j + w - 1), recent t w (j + w - 1)) := by
    rintro j ⟨a, b, c⟩ hp
    rw [zip3_getElem?] at hp
    obtain ⟨rfl, l1⟩ := windowsOf_at hw hp.1
    obtain ⟨rfl, -⟩ := windowsOf_at hw hp.2.1
    obtain ⟨rfl, -⟩ := windowsOf_at hw hp.2.2
    exact ⟨by simpa using l1, rfl⟩
  set g : List XF × List XF × List XF → Option (XF × XF) := fun x =>
    ((List.range' 2 (w - 1)).foldlM (rwiStep w x.1 x.2.1 x.2.2) ((0 : XF), (0 : XF), (0 : XF))).bind fun r => some (r.1, r.2.1)
  obtain ⟨r, er⟩ := mapP_isSome (f := g) (l := zip3 (windowsOf w (high.drop 1)) (windowsOf w (low.drop 1)) (windowsOf w t)) (by
    intro p hp
    obtain ⟨j, hj⟩ := List.mem_iff_getElem?.1 hp
    obtain ⟨hj', rfl⟩ := items j p hj
    obtain ⟨a, b, s, e, -⟩ := key j hj'
    simp only [g, e, Option.bind_some, Option.isSome_some])
  have lr := mapP_length er
  simp [hl, lt] at lr
  erw [er]
  refine items_pad _ (by omega) fun i y hy => ?_
  rw [mapP_getElem? er] at hy
  obtain ⟨x, hx, hy⟩ := Option.bind_eq_some_iff.1 hy
  obtain ⟨hi, rfl⟩ := items i x hx
  obtain ⟨a, b, s, e, ha, hb⟩ := key i hi
  simp only [g, e, Option.bind_some] at hy
  cases hy
  exact ⟨ha, hb⟩

/-- C71: `dpo` is the price half a window and one bar ago minus the moving average of the current bar, whatever average is chosen. -/
theorem dpo_reports (data : List XF) (w : ℕ) (mode : Option Smooth.MaMode) {v : ℕ → ℝ} (hw : 3 ≤ w) (hn : w ≤ data.length) (hd : Fins data)
    (hm : Reports data.length (w - 1) v (Smooth.ma data w (mode.getD .SMA))) : Reports data.length (w - 1)
      (fun i => bar (vals data) (i - (w / 2 + 1)) - v i) (dpo data w mode) := by
  obtain ⟨m, em, rm, lm⟩ := hm.some
  run_model [dpo, em]
  refine reports_nans (by simp; omega) fun i hi => ⟨_, getElem?_of_lt hi, ?_⟩
  rw [List.getElem_map]
  have e := getElem?_of_lt (show i < ((data.drop (w - (w / 2 + 1) - 1)).zip (m.drop (w - 1))).length by simpa using hi)
  obtain ⟨⟨x, y⟩, ex⟩ : ∃ p, p = ((data.drop (w - (w / 2 + 1) - 1)).zip (m.drop (w - 1)))[i]'(by simpa using hi) := ⟨_, rfl⟩
  rw [← ex] at e ⊢
  obtain ⟨h1, h2⟩ := List.getElem?_zip_eq_some.1 e
  rw [List.getElem?_drop] at h1 h2
  have := is_bar hd h1
  rw [show w - (w / 2 + 1) - 1 + i = w - 1 + i - (w / 2 + 1) by omega] at this
  exact is_sub this (rm.at h2 (by omega))

/-- The upper chandelier line of bar `i`: the highest high minus `c` average true ranges. -/
noncomputable def exitLong (high low close : List ℝ) (w : ℕ) (c : ℝ) (i : ℕ) : ℝ :=
  maxOf (recent high w i) - c * wilderFrom 1 w (trAt high low close) i

/-- The lower chandelier line of bar `i`: the lowest low plus `c` average true ranges. -/
noncomputable def exitShort (high low close : List ℝ) (w : ℕ) (c : ℝ) (i : ℕ) : ℝ :=
  minOf (recent low w i) + c * wilderFrom 1 w (trAt high low close) i

/-- C71: `chandelier` is the highest high minus, and the lowest low plus, a multiple of the average true range (default 3). -/
theorem chandelier_reports (high low close : List XF) (w : ℕ) (mult : Option XF) {c : ℝ} (hl : low.length = high.length)
    (hc : close.length = high.length) (hw : 1 ≤ w) (hn : w + 1 ≤ high.length) (fh : Fins high) (fl : Fins low) (fc : Fins close)
    (hm : mult.getD 3 ⇓ c) : Items high.length w (fun i y => y.1 ⇓ exitLong (vals high) (vals low) (vals close) w c i ∧
      y.2 ⇓ exitShort (vals high) (vals low) (vals close) w c i) (chandelier high low close w mult) := by
  obtain ⟨a, ea, ra, la⟩ := (atr_values hl hc hw hn fh fl fc).some
  run_model [chandelier, ea]
  refine items_pad _ (by simp [hl, la]; omega) fun i y hy => ?_
  rw [List.getElem?_map] at hy
  obtain ⟨⟨h, l, t⟩, e, rfl⟩ := Option.map_eq_some_iff.1 hy
  rw [zip3_getElem?] at e
  simp only [List.getElem?_drop] at e
  obtain ⟨e1, e2, e3⟩ := e
  obtain ⟨rfl, l1⟩ := windowsOf_at hw e1
  obtain ⟨rfl, l2⟩ := windowsOf_at hw e2
  rw [show 1 + i + w - 1 = w + i by omega]
  have ht := is_mul hm (ra.at e3 (by omega))
  exact ⟨is_sub (maxOf_recent fh hw (by omega) (by omega)) ht, is_add (minOf_recent fl hw (by omega) (by omega)) ht⟩

/-- C71: `cks` is the highest of the last `v` upper chandelier lines and the lowest of the last `v` lower ones. The highest is taken
together with 0: a line below 0 is reported as 0. -/
theorem cks_reports (high low close : List XF) (w v : ℕ) (mult : Option XF) {c : ℝ} (hl : low.length = high.length)
    (hc : close.length = high.length) (hw : 1 ≤ w) (hv : 1 ≤ v) (hn : w + v ≤ high.length) (fh : Fins high) (fl : Fins low) (fc : Fins close)
    (hm : mult.getD 1 ⇓ c) : Items high.length (w + (v - 1)) (fun i y =>
      y.1 ⇓ (lastOf (exitLong (vals high) (vals low) (vals close) w c) v i).foldl max 0 ∧
      y.2 ⇓ (lastOf (exitShort (vals high) (vals low) (vals close) w c) v i).foldl min Smooth.f64Max) (cks high low close w v mult) := by
  obtain ⟨a, ea, ra, la⟩ := (atr_values hl hc hw (by omega) fh fl fc).some
  run_model [cks, ea]
  set pre : List (XF × XF) := (zip3 (windowsOf w (high.drop 1)) (windowsOf w (low.drop 1)) (a.drop w)).map fun x =>
    (foldMax x.1 - mult.getD 1 * x.2.2, foldMin x.2.1 + mult.getD 1 * x.2.2) with hpre
  have lp : pre.length = high.length - w := by simp [hpre, hl, la]; omega
  have el : ∀ i p, pre[i]? = some p → p.1 ⇓ exitLong (vals high) (vals low) (vals close) w c (w + i) ∧
      p.2 ⇓ exitShort (vals high) (vals low) (vals close) w c (w + i) := by
    intro i p hp
    rw [hpre, List.getElem?_map] at hp
    obtain ⟨⟨h, l, t⟩, e, rfl⟩ := Option.map_eq_some_iff.1 hp
    rw [zip3_getElem?] at e
    simp only [List.getElem?_drop] at e
    obtain ⟨e1, e2, e3⟩ := e
    obtain ⟨rfl, l1⟩ := windowsOf_at hw e1
    obtain ⟨rfl, l2⟩ := windowsOf_at hw e2
    simp only [List.length_drop] at l1 l2
    rw [recent_drop _ _ _ _ (by omega), recent_drop _ _ _ _ (by omega), show 1 + (i + w - 1) = w + i by omega]
    have ht := is_mul hm (ra.at e3 (by omega))
    exact ⟨is_sub (maxOf_recent fh hw (by omega) (by omega)) ht, is_add (minOf_recent fl hw (by omega) (by omega)) ht⟩
  have r1 : Reports high.length w (exitLong (vals high) (vals low) (vals close) w c) (some (nans w ++ pre.map (·.1))) :=
    reports_nans (by simp; omega) fun i hi => ⟨_, getElem?_of_lt hi, by
      rw [List.getElem_map]; exact (el i _ (getElem?_of_lt (by simpa using hi))).1⟩
  have r2 : Reports high.length w (exitShort (vals high) (vals low) (vals close) w c) (some (nans w ++ pre.map (·.2))) :=
    reports_nans (by simp; omega) fun i hi => ⟨_, getElem?_of_lt hi, by
      rw [List.getElem_map]; exact (el i _ (getElem?_of_lt (by simpa using hi))).2⟩
  refine items_pad _ (by simp; omega) fun i y hy => ?_
  rw [List.getElem?_map] at hy
  obtain ⟨x, hx, rfl⟩ := Option.map_eq_some_iff.1 hy
  obtain ⟨rfl, li⟩ := windowsOf_at hv hx
  have split : ∀ (l : List (XF × XF)) (s : XF × XF), l.foldl (fun (st x : XF × XF) => (fmax st.1 x.1, fmin st.2 x.2)) s =
      ((l.map (·.1)).foldl fmax s.1, (l.map (·.2)).foldl fmin s.2) := by
    intro l
    induction l with
    | nil => intro s; rfl
    | cons x l ih => intro s; simp [ih]
  rw [split]
  have win : ∀ (g : XF × XF → XF) (f : ℕ → ℝ), Reports high.length w f (some (nans w ++ pre.map g)) →
      Fins ((recent pre v (i + v - 1)).map g) ∧ vals ((recent pre v (i + v - 1)).map g) = lastOf f v (w + (v - 1) + i) := by
    intro g f hr
    have := hr.recent (w := v) (i := w + (v - 1) + i) (by omega) (by omega)
    have e : recent (nans w ++ pre.map g) v (w + (v - 1) + i) = (recent pre v (i + v - 1)).map g := by
      rw [← recent_map, show w + (v - 1) + i = w + (i + v - 1) by omega, ← recent_drop _ _ _ _ (by omega), List.drop_left' (by simp)]
    rwa [e] at this
  obtain ⟨f1, v1⟩ := win _ _ r1
  obtain ⟨f2, v2⟩ := win _ _ r2
  rw [← v1, ← v2]
  exact ⟨foldl_fmax_is f1 is_zero, foldl_fmin_is f2 (is_maxValue.congr rfl)⟩

/-! ## decay -/

/-- The decaying maximum at bar `i`: the largest value so far, each lowered by `1 / w` per bar since, and at least 0. -/
noncomputable def decayOf (x : List ℝ) (w i : ℕ) : ℝ := ((List.range (i + 1)).map fun j => bar x j - ((i - j : ℕ) : ℝ) / w).foldl max 0

theorem foldl_max_sub (l : List ℝ) (s c : ℝ) : l.foldl max s - c = (l.map fun y => y - c).foldl max (s - c) := by
  induction l generalizing s with
  | nil => rfl
  | cons y l ih => simp [ih, max_sub_sub_right]

theorem decayOf_succ (x : List ℝ) (w i : ℕ) : decayOf x w (i + 1) = max (max (decayOf x w i - 1 / w) (bar x (i + 1))) 0 := by
  have seed : ∀ (l : List ℝ) (a b : ℝ), max (l.foldl max a) b = l.foldl max (max a b) := by
    intro l
    induction l with
    | nil => intros; rfl
    | cons y l ih => intro a b; simp only [List.foldl_cons, ih, max_right_comm]
  rw [decayOf, decayOf, foldl_max_sub, max_right_comm, seed, List.range_succ (n := i + 1), List.map_append, List.foldl_append]
  simp only [List.map_cons, List.map_nil, List.foldl_cons, List.foldl_nil, Nat.sub_self, Nat.cast_zero, zero_div, sub_zero]
  congr 1
  rw [max_eq_right (show (0 : ℝ) - 1 / w ≤ 0 by
    have : (0 : ℝ) ≤ 1 / w := by positivity
    linarith), List.map_map]
  congr 1
  refine List.map_congr_left fun j hj => ?_
  have := List.mem_range.1 hj
  simp only [Function.comp]
  rw [show i + 1 - j = i - j + 1 by omega]
  push_cast
  ring

/-- C71/C60: `decay` is the decaying maximum. -/
theorem decay_reports (data : List XF) (w : ℕ) (hw : 1 ≤ w) (hd : Fins data) :
    Reports data.length 0 (decayOf (vals data) w) (some (decay data w)) := by
  have wr : (w : ℝ) ≠ 0 := by positivity
  refine ⟨_, rfl, by simp, fun i hi => by omega, fun i _ hin => ?_⟩
  refine ⟨_, getElem?_of_lt (by simpa using hin), ?_⟩
  have := scan_idx (f := fun (state x : XF) => (fmax (fmax (state - 1 / flt w) x) 0, fmax (fmax (state - 1 / flt w) x) 0))
    (I := fun i s => if i = 0 then s ⇓ 0 else s ⇓ decayOf (vals data) w (i - 1)) (P := fun i y => y ⇓ decayOf (vals data) w i) (l := data) (by
      intro i s x hx hs
      have q := is_bar hd hx
      have : fmax (fmax (s - 1 / flt w) x) 0 ⇓ decayOf (vals data) w i := by
        cases i with
        | zero =>
          rw [if_pos rfl] at hs
          refine (is_fmax (is_fmax (is_sub hs (is_div is_one (is_flt w) wr)) q) is_zero).congr ?_
          have h0 : (0 : ℝ) - 1 / w ≤ 0 := by
            have : (0 : ℝ) ≤ 1 / w := by positivity
            linarith
          rw [max_right_comm, max_eq_right h0]
          simp [decayOf]
        | succ i =>
          rw [if_neg (by omega)] at hs
          refine (is_fmax (is_fmax (is_sub hs (is_div is_one (is_flt w) wr)) q) is_zero).congr ?_
          rw [decayOf_succ]
          rfl
      exact ⟨by rw [if_neg (by omega)]; exact this, this⟩) (s := (0 : XF)) (by simpa using is_zero) i ((decay data w)[i]'(by simpa using hin)) (by
        have := getElem?_of_lt (show i < (decay data w).length by simpa using hin)
        exact this)
  exact this

/-- C60: `decay` is never below the input, never negative, and falls by at most `1 / w` per bar. -/
theorem decay_bounds (data : List XF) (w : ℕ) (hw : 1 ≤ w) (hd : Fins data) : ∃ v : ℕ → ℝ, Reports data.length 0 v (some (decay data w)) ∧
    (∀ i, 0 ≤ v i ∧ bar (vals data) i ≤ v i) ∧ ∀ i, v i - 1 / w ≤ v (i + 1) := by
  refine ⟨_, decay_reports data w hw hd, fun i => ?_, fun i => ?_⟩
  · cases i with
    | zero => simp [decayOf]
    | succ i =>
      rw [decayOf_succ]
      exact ⟨le_max_right _ _, (le_max_right _ _).trans (le_max_left _ _)⟩
  · rw [decayOf_succ]
    exact (le_max_left _ _).trans (le_max_left _ _)

/-! ## ichimoku -/

/-- The middle of the range of the last `w` bars. -/
noncomputable def midOf (high low : List ℝ) (w i : ℕ) : ℝ := (maxOf (recent high w i) + minOf (recent low w i)) / 2

theorem midLine_values (high low : List XF) (w p : ℕ) (hl : low.length = high.length) (hw : 1 ≤ w)
    (fh : Fins high) (fl : Fins low) : Reports (p + (high.length + 1 - w)) p (fun i => midOf (vals high) (vals low) w (i - p + (w - 1)))
      (midLine high low w p) := by
  run_model [midLine]
  refine reports_nans (by simp [hl]) fun i hi => ⟨_, getElem?_of_lt hi, ?_⟩
  rw [List.getElem_map]
  have e := getElem?_of_lt (show i < ((windowsOf w high).zip (windowsOf w low)).length by simpa using hi)
  obtain ⟨⟨x, y⟩, ex⟩ : ∃ p, p = ((windowsOf w high).zip (windowsOf w low))[i]'(by simpa using hi) := ⟨_, rfl⟩
  rw [← ex] at e ⊢
  obtain ⟨h1, h2⟩ := List.getElem?_zip_eq_some.1 e
  obtain ⟨rfl, l1⟩ := windowsOf_at hw h1
  obtain ⟨rfl, l2⟩ := windowsOf_at hw h2
  rw [show p + i - p + (w - 1) = i + w - 1 by omega]
  exact is_div (is_add (maxOf_recent fh hw (by omega) (by omega)) (minOf_recent fl hw (by omega) (by omega))) (is_lit 2) (by norm_num)

/-- `y` is the number `a` if the condition holds, otherwise NaN. -/
def Given (c : Prop) (a : ℝ) (y : XF) : Prop := (c → y ⇓ a) ∧ (¬ c → y = FP.nan)

/-- C71: `ichimoku`'s lines: the conversion and base line are the middle of the range of their windows; the leading lines are their mean,
and the middle of the range of the leading window, shifted `bw` bars into the future; the lagging line is the close `gw` bars later. -/
theorem ichimoku_reports (high low close : List XF) (cw bw lw gw : ℕ) (hl : low.length = high.length) (hc : close.length = high.length)
    (h1 : 1 ≤ cw) (h2 : 1 ≤ bw) (h3 : 1 ≤ lw) (n1 : cw ≤ high.length + 1) (n2 : bw ≤ high.length + 1) (n3 : lw ≤ high.length + 1)
    (n4 : gw ≤ high.length) (fh : Fins high) (fl : Fins low) (fc : Fins close) : Items (high.length + bw) 0 (fun i y =>
      Given (cw - 1 ≤ i ∧ i < high.length) (midOf (vals high) (vals low) cw i) y.1 ∧
      Given (bw - 1 ≤ i ∧ i < high.length) (midOf (vals high) (vals low) bw i) y.2.1 ∧
      Given (bw + (cw - 1) ≤ i ∧ bw + (bw - 1) ≤ i)
        ((midOf (vals high) (vals low) cw (i - bw) + midOf (vals high) (vals low) bw (i - bw)) / 2) y.2.2.1 ∧
      Given (bw + (lw - 1) ≤ i) (midOf (vals high) (vals low) lw (i - bw)) y.2.2.2.1 ∧
      Given (i + gw < high.length) (bar (vals close) (i + gw)) y.2.2.2.2) (ichimoku high low close cw bw lw gw) := by
  obtain ⟨c, ec, rc, lc⟩ := (midLine_values high low cw (cw - 1) hl h1 fh fl).some
  obtain ⟨b, eb, rb, lb⟩ := (midLine_values high low bw (bw - 1) hl h2 fh fl).some
  obtain ⟨d, ed, rd, ld⟩ := (midLine_values high low lw (lw - 1 + bw) hl h3 fh fl).some
  have lc' : c.length = high.length := by omega
  have lb' : b.length = high.length := by omega
  have ld' : d.length = high.length + bw := by omega
  refine ⟨_, by run_model [ichimoku, ec, eb, ed]; rfl, by simp; omega, ?_⟩
  rintro i ⟨y1, y2, y3, y4, y5⟩ - hy
  rw [zip5_getElem?] at hy
  obtain ⟨e1, e2, e3, e4, e5⟩ := hy
  have tail : ∀ {l : List XF} {y : XF}, (l ++ nans bw)[i]? = some y → ¬ i < l.length → y = FP.nan := by
    intro l y hy hi
    rw [List.getElem?_append_right (by omega), nans, List.getElem?_replicate] at hy
    split at hy
    · exact (Option.some.inj hy).symm
    · cases hy
  refine ⟨⟨fun h => ?_, fun h => ?_⟩, ⟨fun h => ?_, fun h => ?_⟩, ?_, ⟨fun h => ?_, fun h => ?_⟩, ⟨fun h => ?_, fun h => ?_⟩⟩
  · rw [List.getElem?_append_left (by omega)] at e1
    have := rc.at e1 h.1
    rwa [show i - (cw - 1) + (cw - 1) = i by omega] at this
  · by_cases hi : i < high.length
    · rw [List.getElem?_append_left (by omega)] at e1
      exact isNaN_iff.1 (rc.at_nan e1 (by omega))
    · exact tail e1 (by omega)
  · rw [List.getElem?_append_left (by omega)] at e2
    have := rb.at e2 h.1
    rwa [show i - (bw - 1) + (bw - 1) = i by omega] at this
  · by_cases hi : i < high.length
    · rw [List.getElem?_append_left (by omega)] at e2
      exact isNaN_iff.1 (rb.at_nan e2 (by omega))
    · exact tail e2 (by omega)
  · by_cases hi : i < bw
    · rw [List.getElem?_append_left (by simpa using hi), nans, List.getElem?_replicate, if_pos hi] at e3
      exact ⟨fun h => by omega, fun _ => (Option.some.inj e3).symm⟩
    · rw [List.getElem?_append_right (by simp; omega), nans_length, List.getElem?_map] at e3
      obtain ⟨⟨x, z⟩, ex, rfl⟩ := Option.map_eq_some_iff.1 e3
      obtain ⟨g1, g2⟩ := List.getElem?_zip_eq_some.1 ex
      refine ⟨fun h => ?_, fun h => ?_⟩
      · have q1 := rc.at g1 (by omega)
        have q2 := rb.at g2 (by omega)
        rw [show i - bw - (cw - 1) + (cw - 1) = i - bw by omega] at q1
        rw [show i - bw - (bw - 1) + (bw - 1) = i - bw by omega] at q2
        exact is_div (is_add q1 q2) (is_lit 2) (by norm_num)
      · rw [← isNaN_iff]
        by_cases hc : i - bw < cw - 1
        · have := rc.at_nan g1 hc
          nanp
        · have := rb.at_nan g2 (by omega)
          nanp
  · have := rd.at e4 (by omega)
    rwa [show i - (lw - 1 + bw) + (lw - 1) = i - bw by omega] at this
  · exact isNaN_iff.1 (rd.at_nan e4 (by omega))
  · rw [List.getElem?_append_left (by simp; omega), List.getElem?_drop] at e5
    rw [Nat.add_comm i gw]
    exact is_bar fc e5
  · rw [List.getElem?_append_right (by simp; omega), nans, List.getElem?_replicate] at e5
    split at e5
    · exact (Option.some.inj e5).symm
    · cases e5

/-! ## Concrete cases -/

section
open Traquer.Momentum (hi4 lo4 cl4)

theorem tr4_ne (i : ℕ) (h1 : 1 ≤ i) (h2 : i < hi4.length) : trAt (vals hi4) (vals lo4) (vals cl4) i ≠ 0 := by
  simp only [vals_map_fin, List.length_map] at h2 ⊢
  rcases i with _ | _ | _ | _ | i
  · omega
  · norm_num [trAt, trueRangeOf, bar]
  · norm_num [trAt, trueRangeOf, bar]
  · norm_num [trAt, trueRangeOf, bar]
  · simp at h2; omega

example := shinohara_reports hi4 lo4 cl4 2 rfl rfl (by decide) (by simp) (fins_map_fin _) (fins_map_fin _) (fins_map_fin _)
example := vortex_reports hi4 lo4 cl4 2 rfl rfl (by decide) (by simp) (fins_map_fin _) (fins_map_fin _) (fins_map_fin _)
example := rwi_reports hi4 lo4 cl4 2 rfl rfl (by decide) (by simp) (fins_map_fin _) (fins_map_fin _) (fins_map_fin _) tr4_ne
/-- The random walk index of the last bar over two bars: 6 is 3 above the low before, whose true range was 2. -/
example : rwiHigh [3, 5, 4, 6] [1, 2, 3, 3] (trAt [3, 5, 4, 6] [1, 2, 3, 3] [2, 5, 3, 4]) 2 3 = 3 / 2 := by
  norm_num [rwiHigh, meanBefore, trAt, trueRangeOf, bar, List.range_succ]

theorem max4_ne (i : ℕ) (h1 : 2 ≤ i + 1) (h2 : i < cl4.length) : maxOf (recent (vals cl4) 2 i) ≠ 0 := by
  simp only [vals_map_fin, List.length_map] at h2 ⊢
  rcases i with _ | _ | _ | _ | i
  · omega
  · norm_num [recent, maxOf]
  · norm_num [recent, maxOf]
  · norm_num [recent, maxOf]
  · simp at h2; omega

example : ValueAt (ulcer cl4 2) 2 √800 := (ulcer_reports cl4 2 (by decide) (by simp) (fins_map_fin _) max4_ne).value 2 (by decide) (by simp) (by
  simp only [vals_map_fin]
  norm_num [mean, lastOf, drawdown, recent, maxOf, bar, List.range_succ])
example := ulcer_nonneg cl4 2 (by decide) (by simp) (fins_map_fin _) max4_ne

example : ValueAt (dpo cl4 3 none) 3 1 := (dpo_reports cl4 3 none (by decide) (by simp) (fins_map_fin _)
  (Smooth.sma_reports cl4 3 (by decide) (by simp) (fins_map_fin _))).value 3 (by decide) (by simp) (by
  simp only [vals_map_fin]
  norm_num [mean, recent, bar])

example := chandelier_reports hi4 lo4 cl4 2 none rfl rfl (by decide) (by simp) (fins_map_fin _) (fins_map_fin _) (fins_map_fin _) (is_lit 3)
example := cks_reports hi4 lo4 cl4 2 2 none rfl rfl (by decide) (by decide) (by simp) (fins_map_fin _) (fins_map_fin _) (fins_map_fin _) is_one
/-- A line below 0 is reported as 0 by `cks`: the stop of a falling market is not the highest stop. -/
example : ([-3, -5] : List ℝ).foldl max 0 = 0 ∧ maxOf [-3, -5] = -3 := by norm_num [maxOf]

example : ValueAt (some (decay cl4 2)) 3 4 := (decay_reports cl4 2 (by decide) (fins_map_fin _)).value 3 (by decide) (by simp) (by
  simp only [vals_map_fin]
  norm_num [decayOf, bar, List.range_succ])
example : ValueAt (some (decay cl4 2)) 2 (9 / 2) := (decay_reports cl4 2 (by decide) (fins_map_fin _)).value 2 (by decide) (by simp) (by
  simp only [vals_map_fin]
  norm_num [decayOf, bar, List.range_succ])
example := decay_bounds cl4 2 (by decide) (fins_map_fin _)

example := ichimoku_reports hi4 lo4 cl4 1 2 3 1 rfl rfl (by decide) (by decide) (by decide) (by simp) (by simp) (by simp) (by simp)
  (fins_map_fin _) (fins_map_fin _) (fins_map_fin _)

end

end Traquer.Trend
