import Verif.Props.ErrorBands
import Verif.Lemmas.RelativeMul
import Verif.Props.ErrorDispersion
import Verif.Props.TrendFormulas
import Verif.Props.Oscillators2

/-! C74, rounding errors of the lines drawn over a price chart: `donchian`, `ichimoku`, `chandelier`, `cks`, `alligator`, `gator` and `dpo` in
binary64. -/

namespace Traquer
open FP FloatLit

variable {M : ℝ}

theorem bounded_fins {l : List F64} (h : Bounded M l) : Fins l := fun x hx => let ⟨_, hr, _⟩ := h x hx; hr.1

/-- The highest value of a window. -/
theorem high_near {l : List F64} (h : Bounded M l) {w i : ℕ} (hw : 1 ≤ w) (h1 : w ≤ i + 1) (h2 : i < l.length) :
    Nearly M (Volatility.foldMax (recent l w i)) (maxOf (recent (vals l) w i)) 1 0 := by
  have hne := recent_ne_nil hw h1 h2
  have i1 := foldMax_is ((bounded_fins h).recent w i) hne
  rw [recent_vals] at i1
  have hm := maxOf_mem (l := recent (vals l) w i) (recent_ne_nil hw h1 (by simpa using h2))
  rw [← recent_vals] at hm
  obtain ⟨x, hx, e⟩ := List.mem_map.1 hm
  obtain ⟨r, hr, br⟩ := h.recent w i x hx
  rw [recent_vals] at e
  exact .exact i1 (by rw [← e, hr.2]; linarith)

/-- The lowest value of a window. -/
theorem low_near {l : List F64} (h : Bounded M l) {w i : ℕ} (hw : 1 ≤ w) (h1 : w ≤ i + 1) (h2 : i < l.length) :
    Nearly M (Volatility.foldMin (recent l w i)) (minOf (recent (vals l) w i)) 1 0 := by
  have hne := recent_ne_nil hw h1 h2
  have i1 := foldMin_is ((bounded_fins h).recent w i) hne
  rw [recent_vals] at i1
  have hm := minOf_mem (l := recent (vals l) w i) (recent_ne_nil hw h1 (by simpa using h2))
  rw [← recent_vals] at hm
  obtain ⟨x, hx, e⟩ := List.mem_map.1 hm
  obtain ⟨r, hr, br⟩ := h.recent w i x hx
  rw [recent_vals] at e
  exact .exact i1 (by rw [← e, hr.2]; linarith)

/-- The middle of the range of a window. -/
theorem mid_near (hS : Sized M) {high low : List F64} (bh : Bounded M high) (bl : Bounded M low) (hl : low.length = high.length) {w i : ℕ} (hw : 1 ≤ w)
    (h1 : w ≤ i + 1) (h2 : i < high.length) :
    Nearly M ((Volatility.foldMax (recent high w i) + Volatility.foldMin (recent low w i)) / 2) (Trend.midOf (vals high) (vals low) w i) 1 5 :=
  (((high_near bh hw h1 h2).add hS (low_near bl hw h1 (by omega)) (by norm_num) (by norm_num)).div hS (isLit 2 (by norm_num)) (by norm_num)
    (by norm_num) (by norm_num)).mono hS (by norm_num) (by norm_num)

end Traquer

namespace Traquer.Volatility
open FP FloatLit

/-- C74: donchian's bands are the highest high and the lowest low themselves, and its middle is within 5 units of their midpoint. -/
theorem donchian_error {M : ℝ} (high low : List F64) (w : ℕ) (hl : low.length = high.length) (hw : 1 ≤ w) (hn : w ≤ high.length + 1)
    (hM : tiny64 ≤ M) (hB : M ≤ 2 ^ 800) (bh : Bounded M high) (bl : Bounded M low) :
    Items high.length (w - 1) (fun i p => (p.1 ⇓ maxOf (recent (vals high) w i)) ∧
      Approx p.2.1 ((maxOf (recent (vals high) w i) + minOf (recent (vals low) w i)) / 2) (5 * unit64 * M) ∧
      p.2.2 ⇓ minOf (recent (vals low) w i)) (donchian high low w) := by
  run_model [donchian]
  refine items_windows2_map hw hl hn fun i h1 h2 => ?_
  have i1 := foldMax_is ((bounded_fins bh).recent w i) (recent_ne_nil hw h1 h2)
  have i2 := foldMin_is ((bounded_fins bl).recent w i) (recent_ne_nil hw h1 (by omega))
  rw [recent_vals] at i1 i2
  exact ⟨i1, (mid_near (Smooth.sized_of hM hB) bh bl hl hw h1 h2).approx, i2⟩

/-- How many units the standard deviation of `w` values can be off. -/
noncomputable def sdUnits (w : ℕ) : ℝ := Real.sqrt (15 * (w + 7) * 2 ^ 53) + 4

theorem sdUnits_eq (w : ℕ) : Real.sqrt (15 * (w + 7) * unit64) + 4 * unit64 = sdUnits w * unit64 := by
  have : 15 * ((w : ℝ) + 7) * unit64 = 15 * (w + 7) * 2 ^ 53 * unit64 ^ 2 := by
    have := unit64_eq
    linear_combination (-(15 * ((w : ℝ) + 7)) * unit64) * this
  rw [this, Real.sqrt_mul (by positivity), Real.sqrt_sq unit64_pos.le, sdUnits]
  ring

theorem sdUnits_le {w : ℕ} (h32 : w < 2 ^ 32) : sdUnits w ≤ 2 ^ 45 := by
  have w1 : (w : ℝ) < 2 ^ 32 := by exact_mod_cast h32
  have : Real.sqrt (15 * (w + 7) * 2 ^ 53) ≤ 2 ^ 45 - 4 := Real.sqrt_le_iff.2 ⟨by norm_num, by norm_num; linarith⟩
  unfold sdUnits
  linarith

/-- C74: Bollinger bands around the exponential average, with at most 100 deviations `q`: the standard deviation is off by the square root
of a rounding error. -/
theorem bbands_error {M : ℝ} (data : List F64) (w : ℕ) (dev : Option F64) {q : ℝ} (hq : dev.getD 2 ⇓ q) (q3 : |q| ≤ 100) (hw : 1 ≤ w)
    (h32 : w < 2 ^ 32) (hn : w ≤ data.length) (hM : tiny64 ≤ M) (hM2 : tiny64 ≤ M ^ 2) (hB : M ≤ 2 ^ 400) (hd : Bounded M data) :
    Items data.length (w - 1) (fun i p => ∃ m s, m = ewmaFrom 0 w (bar (vals data)) i ∧ s = stdDev (recent (vals data) w i) ∧
      Approx p.1 (m + s * q) ((10 * w + 15 + |q| * (sdUnits w + 4)) * unit64 * M) ∧ Approx p.2.1 m (10 * (w + 1) * unit64 * M) ∧
      Approx p.2.2 (m - s * q) ((10 * w + 15 + |q| * (sdUnits w + 4)) * unit64 * M)) (bbands data w dev none) := by
  have hB8 : M ≤ 2 ^ 800 := hB.trans (pow_le_pow_right₀ (by norm_num) (by norm_num))
  have hS := Smooth.sized_of hM hB8
  have w1 : (w : ℝ) < 2 ^ 32 := by exact_mod_cast h32
  have M0 := hS.nonneg
  have top : (2 : ℝ) ^ 900 ≤ max64 := le_trans (pow_le_pow_right₀ (by norm_num) (by norm_num)) max64_ge
  have r1 : 12 * w * M ≤ max64 := by
    refine le_trans ?_ top
    calc 12 * w * M ≤ 2 ^ 40 * 2 ^ 400 := mul_le_mul (by linarith) hB M0 (by norm_num)
      _ ≤ 2 ^ 900 := by rw [← pow_add]; exact pow_le_pow_right₀ (by norm_num) (by norm_num)
  have r2 : 40 * w * M ^ 2 ≤ max64 := by
    refine le_trans ?_ top
    calc 40 * w * M ^ 2 ≤ 2 ^ 40 * (2 ^ 400) ^ 2 := mul_le_mul (by linarith) (pow_le_pow_left₀ M0 hB 2) (sq_nonneg _) (by norm_num)
      _ ≤ 2 ^ 900 := by rw [← pow_mul, ← pow_add]; exact pow_le_pow_right₀ (by norm_num) (by norm_num)
  have key := std_dev_error data w hw (by omega) (by omega) hM r1 hd hM2 r2
  obtain ⟨sd, es, ls, -, rs⟩ := key
  obtain ⟨m, em, rm⟩ := Smooth.ewma_near data w hw h32 hn hM hB8 hd
  have lm := rm.length
  have em' : Smooth.ma data w ((none : Option Smooth.MaMode).getD .EWMA) = some m := em
  refine ⟨_, by run_model [bbands, std_dev, em', es]; rfl, by simp; omega, fun i p hi hp => ?_⟩
  rw [List.getElem?_map] at hp
  obtain ⟨⟨x, y⟩, hz, rfl⟩ := Option.map_eq_some_iff.1 hp
  obtain ⟨z1, z2⟩ := List.getElem?_zip_eq_some.1 hz
  have i1 := rm.at' z1 hi
  rw [List.getElem?_map] at z2
  obtain ⟨z, ez, rfl⟩ := Option.map_eq_some_iff.1 z2
  have hin : i < sd.length := (List.getElem?_eq_some_iff.1 ez).1
  obtain ⟨z', hz', az⟩ := rs i hi (by omega)
  obtain rfl : z = z' := by rw [ez] at hz'; exact Option.some.inj hz'
  have hlen : (recent (vals data) w i).length = w := recent_length (by omega) (by simp; omega)
  have bd : |stdDev (recent (vals data) w i)| ≤ 2 * M := by
    have wi : ∀ r ∈ recent (vals data) w i, -M ≤ r ∧ r ≤ M := fun r hr => by
      rw [← recent_vals] at hr
      obtain ⟨x, hx, rfl⟩ := List.mem_map.1 hr
      obtain ⟨a, ha, ba⟩ := hd.recent w i x hx
      rw [ha.2]
      exact abs_le.1 ba
    have hne : recent (vals data) w i ≠ [] := List.ne_nil_of_length_pos (by omega)
    have mw := within_mean (lo := -M) (hi := M) wi hne
    rw [stdDev, abs_of_nonneg (Real.sqrt_nonneg _)]
    refine Real.sqrt_le_iff.2 ⟨by linarith, ?_⟩
    rw [moment]
    refine (within_mean (lo := 0) (hi := (2 * M) ^ 2) (fun y hy => ?_) (by rw [← List.length_pos_iff]; simp; omega)).2
    obtain ⟨r, hr, rfl⟩ := List.mem_map.1 hy
    have := wi r hr
    exact ⟨sq_nonneg _, sq_le_sq' (by linarith) (by linarith)⟩
  have ns : Nearly M z (stdDev (recent (vals data) w i)) 2 (sdUnits w) := ⟨by rw [← sdUnits_eq]; exact az, bd⟩
  have q0 := abs_nonneg q
  have sl := sdUnits_le h32
  have s0 : 0 ≤ sdUnits w := by unfold sdUnits; positivity
  have q4 : |q| * sdUnits w ≤ 100 * 2 ^ 45 := mul_le_mul q3 sl s0 (by norm_num)
  clear top r1 r2 hB hB8 hM2
  have i2 := Nearly.mulr hS ns hq (by linarith) (by linarith)
  refine ⟨_, _, rfl, rfl, ?_, i1.approx, ?_⟩
  · exact ((i1.add hS i2 (by linarith) (by linarith)).mono hS le_rfl (by linarith)).approx
  · exact ((i1.sub hS i2 (by linarith) (by linarith)).mono hS le_rfl (by linarith)).approx

end Traquer.Volatility

namespace Traquer.Trend
open FP FloatLit Volatility

variable {M : ℝ}

/-- The two chandelier lines of one bar. -/
theorem exit_near (high low close : List F64) (w : ℕ) {q : F64} {c : ℝ} (hq : q ⇓ c) (c3 : |c| ≤ 1000) (hl : low.length = high.length)
    (hc : close.length = high.length) (hM : tiny64 ≤ M) (hB : M ≤ 2 ^ 800) (bh : Bounded M high) (bl : Bounded M low) (bc : Bounded M close)
    (hw : 1 ≤ w) (h32 : w < 2 ^ 32) (hn : w + 1 ≤ high.length) : ∃ a, atr high low close w = some a ∧ a.length = high.length ∧
    ∀ i t, w ≤ i → a[i]? = some t →
      Nearly M (foldMax (recent high w i) - q * t) (exitLong (vals high) (vals low) (vals close) w c i) (1 + 2 * |c|) ((21 * w + 8) * |c| + 5) ∧
      Nearly M (foldMin (recent low w i) + q * t) (exitShort (vals high) (vals low) (vals close) w c i) (1 + 2 * |c|) ((21 * w + 8) * |c| + 5) := by
  have hS := Smooth.sized_of hM hB
  have w1 : (w : ℝ) < 2 ^ 32 := by exact_mod_cast h32
  have q0 := abs_nonneg c
  have q4 : |c| * (21 * w + 4) ≤ 1000 * (21 * w + 4) := mul_le_mul_of_nonneg_right c3 (by positivity)
  obtain ⟨a, ea, la, ra⟩ := atr_near high low close w hl hc hM hB bh bl bc hw h32 hn
  refine ⟨a, ea, la, fun i t hi ht => ?_⟩
  have hin : i < a.length := (List.getElem?_eq_some_iff.1 ht).1
  have i2 := Nearly.smul hS hq (ra.at' ht hi) (by linarith) (by linarith)
  have n1 := high_near bh hw (show w ≤ i + 1 by omega) (by omega)
  have n2 := low_near bl hw (show w ≤ i + 1 by omega) (by omega)
  exact ⟨(n1.sub hS i2 (by linarith) (by linarith)).mono hS (by linarith) (by linarith),
    (n2.add hS i2 (by linarith) (by linarith)).mono hS (by linarith) (by linarith)⟩

/-- C74: the chandelier exits with a multiplier `c` of at most 1000 in size. -/
theorem chandelier_error (high low close : List F64) (w : ℕ) (mult : Option F64) {c : ℝ} (hm : mult.getD 3 ⇓ c) (c3 : |c| ≤ 1000)
    (hl : low.length = high.length) (hc : close.length = high.length) (hM : tiny64 ≤ M) (hB : M ≤ 2 ^ 800) (bh : Bounded M high)
    (bl : Bounded M low) (bc : Bounded M close) (hw : 1 ≤ w) (h32 : w < 2 ^ 32) (hn : w + 1 ≤ high.length) :
    Items high.length w (fun i y => Approx y.1 (exitLong (vals high) (vals low) (vals close) w c i) (((21 * w + 8) * |c| + 5) * unit64 * M) ∧
      Approx y.2 (exitShort (vals high) (vals low) (vals close) w c i) (((21 * w + 8) * |c| + 5) * unit64 * M)) (chandelier high low close w mult) := by
  obtain ⟨a, ea, la, ra⟩ := exit_near high low close w hm c3 hl hc hM hB bh bl bc hw h32 hn
  run_model [chandelier, ea]
  refine items_pad _ (by simp [hl, la]; omega) fun i y hy => ?_
  rw [List.getElem?_map] at hy
  obtain ⟨⟨h, l, t⟩, e, rfl⟩ := Option.map_eq_some_iff.1 hy
  rw [zip3_getElem?] at e
  simp only [List.getElem?_drop] at e
  obtain ⟨e1, e2, e3⟩ := e
  obtain ⟨rfl, l1⟩ := windowsOf_at hw e1
  obtain ⟨rfl, l2⟩ := windowsOf_at hw e2
  rw [show 1 + i + w - 1 = w + i by omega]
  obtain ⟨n1, n2⟩ := ra _ _ (by omega) e3
  exact ⟨n1.approx, n2.approx⟩

theorem max64_eq : Smooth.f64Max = max64 := by
  unfold max64 Smooth.f64Max
  rw [show (1023 : ℤ) = 52 + 971 by norm_num, zpow_add₀ two_ne_zero, show ((2 : ℝ) ^ (971 : ℤ)) = 2 ^ 971 from zpow_natCast _ 971]
  generalize (2 : ℝ) ^ 971 = t
  norm_num
  ring

theorem max_is64 : (maxValue : F64) ⇓ Smooth.f64Max := by
  have h : Rounds (maxValue : F64) Smooth.f64Max := ⟨false, rfl⟩
  rw [max64_eq] at h ⊢
  have := rounds64 h (abs_of_nonneg (mul_nonneg (by norm_num) (pow_nonneg zero_le_two _))).le
  rwa [rnd64_max] at this

theorem foldl_fmax_approx {e : ℝ} : ∀ {l : List F64} {v : List ℝ}, List.Forall₂ (fun x a => Approx x a e) l v → ∀ {s : F64} {t : ℝ}, Approx s t e →
    Approx (l.foldl fmax s) (v.foldl max t) e
  | _, _, .nil, _, _, h => h
  | _, _, .cons ⟨r, hr, er⟩ hl, _, _, ⟨q, hq, eq⟩ =>
    foldl_fmax_approx hl ⟨max q r, is_fmax hq hr, (abs_max_sub_max_le_max _ _ _ _).trans (max_le eq er)⟩

theorem foldl_fmin_approx {e : ℝ} : ∀ {l : List F64} {v : List ℝ}, List.Forall₂ (fun x a => Approx x a e) l v → ∀ {s : F64} {t : ℝ}, Approx s t e →
    Approx (l.foldl fmin s) (v.foldl min t) e
  | _, _, .nil, _, _, h => h
  | _, _, .cons ⟨r, hr, er⟩ hl, _, _, ⟨q, hq, eq⟩ =>
    foldl_fmin_approx hl ⟨min q r, is_fmin hq hr, (abs_min_sub_min_le_max _ _ _ _).trans (max_le eq er)⟩

/-- C74: the Chande-Kroll stops, with a multiplier `c` of at most 1000 in size, are within the same distance as the chandelier lines they are
the extremes of. -/
theorem cks_error (high low close : List F64) (w v : ℕ) (mult : Option F64) {c : ℝ} (hm : mult.getD 1 ⇓ c) (c3 : |c| ≤ 1000)
    (hl : low.length = high.length) (hc : close.length = high.length) (hM : tiny64 ≤ M) (hB : M ≤ 2 ^ 800) (bh : Bounded M high)
    (bl : Bounded M low) (bc : Bounded M close) (hw : 1 ≤ w) (h32 : w < 2 ^ 32) (hv : 1 ≤ v) (hn : w + v ≤ high.length) :
    Items high.length (w + (v - 1)) (fun i y =>
      Approx y.1 ((lastOf (exitLong (vals high) (vals low) (vals close) w c) v i).foldl max 0) (((21 * w + 8) * |c| + 5) * unit64 * M) ∧
      Approx y.2 ((lastOf (exitShort (vals high) (vals low) (vals close) w c) v i).foldl min Smooth.f64Max)
        (((21 * w + 8) * |c| + 5) * unit64 * M)) (cks high low close w v mult) := by
  have hS := Smooth.sized_of hM hB
  have e0 : 0 ≤ ((21 * w + 8) * |c| + 5) * unit64 * M := by
    have := abs_nonneg c
    exact mul_nonneg (mul_nonneg (by positivity) unit64_pos.le) hS.nonneg
  obtain ⟨a, ea, la, ra⟩ := exit_near high low close w hm c3 hl hc hM hB bh bl bc hw h32 (by omega)
  run_model [cks, ea]
  set pre : List (F64 × F64) := (zip3 (windowsOf w (high.drop 1)) (windowsOf w (low.drop 1)) (a.drop w)).map fun x =>
    (foldMax x.1 - mult.getD 1 * x.2.2, foldMin x.2.1 + mult.getD 1 * x.2.2) with hpre
  have lp : pre.length = high.length - w := by simp [hpre, hl, la]; omega
  have el : ∀ i p, pre[i]? = some p →
      Approx p.1 (exitLong (vals high) (vals low) (vals close) w c (w + i)) (((21 * w + 8) * |c| + 5) * unit64 * M) ∧
      Approx p.2 (exitShort (vals high) (vals low) (vals close) w c (w + i)) (((21 * w + 8) * |c| + 5) * unit64 * M) := by
    intro i p hp
    rw [hpre, List.getElem?_map] at hp
    obtain ⟨⟨h, l, t⟩, e, rfl⟩ := Option.map_eq_some_iff.1 hp
    rw [zip3_getElem?] at e
    simp only [List.getElem?_drop] at e
    obtain ⟨e1, e2, e3⟩ := e
    obtain ⟨rfl, l1⟩ := windowsOf_at hw e1
    obtain ⟨rfl, l2⟩ := windowsOf_at hw e2
    simp only [List.length_drop] at l1 l2
    rw [recent_drop _ _ _ _ (by omega), recent_drop _ _ _ _ (by omega), show 1 + (i + w - 1) = w + i by omega]
    obtain ⟨n1, n2⟩ := ra _ _ (by omega) e3
    exact ⟨n1.approx, n2.approx⟩
  refine items_pad _ (by simp; omega) fun i y hy => ?_
  rw [List.getElem?_map] at hy
  obtain ⟨x, hx, rfl⟩ := Option.map_eq_some_iff.1 hy
  obtain ⟨rfl, li⟩ := windowsOf_at hv hx
  have split : ∀ (l : List (F64 × F64)) (s : F64 × F64), l.foldl (fun (st x : F64 × F64) => (fmax st.1 x.1, fmin st.2 x.2)) s =
      ((l.map (·.1)).foldl fmax s.1, (l.map (·.2)).foldl fmin s.2) := by
    intro l
    induction l with
    | nil => intro s; rfl
    | cons x l ih => intro s; simp [ih]
  rw [split]
  have hr : (recent pre v (i + v - 1)).length = v := recent_length (by omega) (by omega)
  have win : ∀ (g : F64 × F64 → F64) (f : ℕ → ℝ) (e : ℝ), (∀ i p, pre[i]? = some p → Approx (g p) (f (w + i)) e) →
      List.Forall₂ (fun x a => Approx x a e) ((recent pre v (i + v - 1)).map g) (lastOf f v (w + (v - 1) + i)) := by
    intro g f e h
    refine List.forall₂_iff_get.2 ⟨by simp [hr, lastOf], fun j h1 h2 => ?_⟩
    simp only [List.length_map, hr] at h1
    have := h (i + j) (pre[i + j]'(by omega)) (getElem?_of_lt (by omega))
    simp only [List.get_eq_getElem, List.getElem_map, recent, lastOf, List.getElem_take, List.getElem_drop, List.getElem_range]
    rw [show w + (v - 1) + i + 1 - v + j = w + (i + j) by omega]
    simp only [show i + v - 1 + 1 - v + j = i + j by omega]
    exact this
  exact ⟨foldl_fmax_approx (win _ _ _ fun i p hp => (el i p hp).1) ⟨0, isZero, by rw [sub_zero, abs_zero]; exact e0⟩,
    foldl_fmin_approx (win _ _ _ fun i p hp => (el i p hp).2) ⟨_, max_is64, by rw [sub_self, abs_zero]; exact e0⟩⟩

/-- C74: `dpo` with the simple average, within `w + 9` units. -/
theorem dpo_error (data : List F64) (w : ℕ) (hw : 3 ≤ w) (h32 : w < 2 ^ 32) (hn : w ≤ data.length) (hM : tiny64 ≤ M) (hB : M ≤ 2 ^ 800)
    (hd : Bounded M data) : ReportsP data.length (w - 1)
      (fun i y => Approx y (bar (vals data) (i - (w / 2 + 1)) - mean (lastOf (bar (vals data)) w i)) ((w + 9) * unit64 * M)) (dpo data w none) := by
  have hS := Smooth.sized_of hM hB
  have w1 : (w : ℝ) < 2 ^ 32 := by exact_mod_cast h32
  obtain ⟨m, em, rm⟩ := Smooth.sma_near data w (by omega) h32 (by omega) hM hB hd
  have lm := rm.length
  have em' : Smooth.ma data w ((none : Option Smooth.MaMode).getD .SMA) = some m := em
  run_model [dpo, em']
  refine reportsP_after_nans (by simp; omega) fun i hi => ⟨_, getElem?_of_lt hi, ?_⟩
  rw [List.getElem_map]
  have e := getElem?_of_lt (show i < ((data.drop (w - (w / 2 + 1) - 1)).zip (m.drop (w - 1))).length by simpa using hi)
  obtain ⟨⟨x, y⟩, ex⟩ : ∃ p, p = ((data.drop (w - (w / 2 + 1) - 1)).zip (m.drop (w - 1)))[i]'(by simpa using hi) := ⟨_, rfl⟩
  rw [← ex] at e ⊢
  obtain ⟨h1, h2⟩ := List.getElem?_zip_eq_some.1 e
  rw [List.getElem?_drop] at h1 h2
  have := near_bar hd h1
  rw [show w - (w / 2 + 1) - 1 + i = w - 1 + i - (w / 2 + 1) by omega] at this
  exact ((this.sub hS (rm.at' h2 (by omega)) (by linarith) (by norm_num)).mono hS le_rfl (by linarith)).approx

/-- A line of middles, after `p` NaNs. -/
theorem midLine_near (high low : List F64) (w p : ℕ) (hl : low.length = high.length) (hw : 1 ≤ w) (hM : tiny64 ≤ M) (hB : M ≤ 2 ^ 800)
    (bh : Bounded M high) (bl : Bounded M low) : ∃ m, midLine high low w p = some m ∧
      NearS M (p + (high.length + 1 - w)) p (fun i => midOf (vals high) (vals low) w (i - p + (w - 1))) 1 5 m := by
  refine ⟨_, by run_model [midLine]; rfl, reportsP_after_nans (by simp [hl]) fun i hi => ⟨_, getElem?_of_lt hi, ?_⟩⟩
  rw [List.getElem_map]
  have e := getElem?_of_lt (show i < ((windowsOf w high).zip (windowsOf w low)).length by simpa using hi)
  obtain ⟨⟨x, y⟩, ex⟩ : ∃ p, p = ((windowsOf w high).zip (windowsOf w low))[i]'(by simpa using hi) := ⟨_, rfl⟩
  rw [← ex] at e ⊢
  obtain ⟨h1, h2⟩ := List.getElem?_zip_eq_some.1 e
  obtain ⟨rfl, l1⟩ := windowsOf_at hw h1
  obtain ⟨rfl, l2⟩ := windowsOf_at hw h2
  beta_reduce
  rw [show p + i - p + (w - 1) = i + w - 1 by omega]
  exact mid_near (Smooth.sized_of hM hB) bh bl hl hw (by omega) (by omega)

/-- `y` is within `e` of `a` if the condition holds, otherwise NaN. -/
def GivenNear (c : Prop) (a e : ℝ) (y : F64) : Prop := (c → Approx y a e) ∧ (¬ c → y = FP.nan)

/-- C74: `ichimoku`'s lines: the conversion, base and second leading line are within 5 units of the middle of the range of their windows, the
first leading line within 10 units of the mean of two middles, and the lagging line is the close itself. -/
theorem ichimoku_error (high low close : List F64) (cw bw lw gw : ℕ) (hl : low.length = high.length) (hc : close.length = high.length)
    (h1 : 1 ≤ cw) (h2 : 1 ≤ bw) (h3 : 1 ≤ lw) (n1 : cw ≤ high.length + 1) (n2 : bw ≤ high.length + 1) (n3 : lw ≤ high.length + 1)
    (n4 : gw ≤ high.length) (hM : tiny64 ≤ M) (hB : M ≤ 2 ^ 800) (bh : Bounded M high) (bl : Bounded M low) (bc : Bounded M close) :
    Items (high.length + bw) 0 (fun i y =>
      GivenNear (cw - 1 ≤ i ∧ i < high.length) (midOf (vals high) (vals low) cw i) (5 * unit64 * M) y.1 ∧
      GivenNear (bw - 1 ≤ i ∧ i < high.length) (midOf (vals high) (vals low) bw i) (5 * unit64 * M) y.2.1 ∧
      GivenNear (bw + (cw - 1) ≤ i ∧ bw + (bw - 1) ≤ i)
        ((midOf (vals high) (vals low) cw (i - bw) + midOf (vals high) (vals low) bw (i - bw)) / 2) (10 * unit64 * M) y.2.2.1 ∧
      GivenNear (bw + (lw - 1) ≤ i) (midOf (vals high) (vals low) lw (i - bw)) (5 * unit64 * M) y.2.2.2.1 ∧
      GivenNear (i + gw < high.length) (bar (vals close) (i + gw)) 0 y.2.2.2.2) (ichimoku high low close cw bw lw gw) := by
  have hS := Smooth.sized_of hM hB
  obtain ⟨c, ec, rc⟩ := midLine_near high low cw (cw - 1) hl h1 hM hB bh bl
  obtain ⟨b, eb, rb⟩ := midLine_near high low bw (bw - 1) hl h2 hM hB bh bl
  obtain ⟨d, ed, rd⟩ := midLine_near high low lw (lw - 1 + bw) hl h3 hM hB bh bl
  have lc := rc.length
  have lb := rb.length
  have ld := rd.length
  have lc' : c.length = high.length := by omega
  have lb' : b.length = high.length := by omega
  have ld' : d.length = high.length + bw := by omega
  refine ⟨_, by run_model [ichimoku, ec, eb, ed]; rfl, by simp; omega, ?_⟩
  rintro i ⟨y1, y2, y3, y4, y5⟩ - hy
  rw [zip5_getElem?] at hy
  obtain ⟨e1, e2, e3, e4, e5⟩ := hy
  have tail : ∀ {l : List F64} {y : F64}, (l ++ nans bw)[i]? = some y → ¬ i < l.length → y = FP.nan := by
    intro l y hy hi
    rw [List.getElem?_append_right (by omega), nans, List.getElem?_replicate] at hy
    split at hy
    · exact (Option.some.inj hy).symm
    · cases hy
  refine ⟨⟨fun h => ?_, fun h => ?_⟩, ⟨fun h => ?_, fun h => ?_⟩, ?_, ⟨fun h => ?_, fun h => ?_⟩, ⟨fun h => ?_, fun h => ?_⟩⟩
  · rw [List.getElem?_append_left (by omega)] at e1
    have := (rc.at' e1 h.1).approx
    rwa [show i - (cw - 1) + (cw - 1) = i by omega] at this
  · by_cases hi : i < high.length
    · rw [List.getElem?_append_left (by omega)] at e1
      exact rc.at_nan e1 (by omega)
    · exact tail e1 (by omega)
  · rw [List.getElem?_append_left (by omega)] at e2
    have := (rb.at' e2 h.1).approx
    rwa [show i - (bw - 1) + (bw - 1) = i by omega] at this
  · by_cases hi : i < high.length
    · rw [List.getElem?_append_left (by omega)] at e2
      exact rb.at_nan e2 (by omega)
    · exact tail e2 (by omega)
  · by_cases hi : i < bw
    · rw [List.getElem?_append_left (by simpa using hi), nans, List.getElem?_replicate, if_pos hi] at e3
      exact ⟨fun h => by omega, fun _ => (Option.some.inj e3).symm⟩
    · rw [List.getElem?_append_right (by simp; omega), nans_length, List.getElem?_map] at e3
      obtain ⟨⟨x, z⟩, ex, rfl⟩ := Option.map_eq_some_iff.1 e3
      obtain ⟨g1, g2⟩ := List.getElem?_zip_eq_some.1 ex
      refine ⟨fun h => ?_, fun h => ?_⟩
      · have q1 := rc.at' g1 (by omega)
        have q2 := rb.at' g2 (by omega)
        rw [show i - bw - (cw - 1) + (cw - 1) = i - bw by omega] at q1
        rw [show i - bw - (bw - 1) + (bw - 1) = i - bw by omega] at q2
        exact (((q1.add hS q2 (by norm_num) (by norm_num)).div hS (isLit 2 (by norm_num)) (by norm_num) (by norm_num) (by norm_num)).mono hS le_rfl
          (by norm_num)).approx
      · rw [← isNaN_iff]
        by_cases hc : i - bw < cw - 1
        · have : Traquer.isNaN x = true := isNaN_iff.2 (rc.at_nan g1 hc)
          nanp
        · have : Traquer.isNaN z = true := isNaN_iff.2 (rb.at_nan g2 (by omega))
          nanp
  · have := (rd.at' e4 (by omega)).approx
    rwa [show i - (lw - 1 + bw) + (lw - 1) = i - bw by omega] at this
  · exact rd.at_nan e4 (by omega)
  · rw [List.getElem?_append_left (by simp; omega), List.getElem?_drop] at e5
    rw [Nat.add_comm i gw]
    have := (near_bar bc e5).approx
    simpa using this
  · rw [List.getElem?_append_right (by simp; omega), nans, List.getElem?_replicate] at e5
    split at e5
    · exact (Option.some.inj e5).symm
    · cases e5

/-! ## alligator -/

theorem alligatorLine_near (data : List F64) (w off mo : ℕ) (hw : 1 ≤ w) (h32 : w < 2 ^ 32) (hn : w ≤ data.length) (ho : off ≤ mo)
    (hM : tiny64 ≤ M) (hB : M ≤ 2 ^ 800) (hd : Bounded M data) :
    ∃ m, alligatorLine data w off mo = some m ∧ m.length = data.length + mo ∧
      ∀ i y, m[i]? = some y → (off + (w - 1) ≤ i ∧ i < off + data.length → Nearly M y (wilderFrom 0 w (bar (vals data)) (i - off)) 1 (14 * w)) ∧
        (¬ (off + (w - 1) ≤ i ∧ i < off + data.length) → y = FP.nan) := by
  have hS := Smooth.sized_of hM hB
  have w1 : (w : ℝ) < 2 ^ 32 := by exact_mod_cast h32
  obtain ⟨m, -, em, rm, lm⟩ := (NearS.ofBounded hd).wilder hS (by norm_num) (by norm_num) hw (by omega) (by omega) (by linarith)
  rw [List.drop_zero] at em
  simp only [nans, List.replicate_zero, List.nil_append, Nat.zero_add, Nat.sub_zero] at rm lm
  refine ⟨nans off ++ m ++ nans (mo - off), by simp only [alligatorLine, em, usub_of_le ho, Option.bind_eq_bind, Option.bind_some],
    by simp; omega, ?_⟩
  intro i y hy
  by_cases h1 : i < off + data.length
  · rw [List.getElem?_append_left (by simp; omega)] at hy
    by_cases h0 : i < off
    · rw [List.getElem?_append_left (by simpa using h0), nans, List.getElem?_replicate, if_pos h0] at hy
      exact ⟨fun h => by omega, fun _ => (Option.some.inj hy).symm⟩
    · rw [List.getElem?_append_right (by simp; omega), nans_length] at hy
      exact ⟨fun h => (rm.at' hy (by omega)).mono hS le_rfl (by linarith), fun h => rm.at_nan hy (by omega)⟩
  · refine ⟨fun h => by omega, fun _ => ?_⟩
    rw [List.getElem?_append_right (by simp; omega), nans, List.getElem?_replicate] at hy
    split at hy
    · exact (Option.some.inj hy).symm
    · cases hy

section
variable (data : List F64) (jw jo tw tf lw lo : ℕ) (h1 : 1 ≤ jw) (h2 : 1 ≤ tw) (h3 : 1 ≤ lw) (b1 : jw < 2 ^ 32) (b2 : tw < 2 ^ 32) (b3 : lw < 2 ^ 32)
  (n1 : jw ≤ data.length) (n2 : tw ≤ data.length) (n3 : lw ≤ data.length) (hM : tiny64 ≤ M) (hB : M ≤ 2 ^ 800) (hd : Bounded M data)
include h1 h2 h3 b1 b2 b3 n1 n2 n3 hM hB hd

/-- C74: each line of `alligator` is within 14 units per bar of its window of the exact Wilder average, shifted into the future. -/
theorem alligator_error :
    Items (data.length + max (max jo tf) lo) 0 (fun i y =>
      GivenNear (jo + (jw - 1) ≤ i ∧ i < jo + data.length) (wilderFrom 0 jw (bar (vals data)) (i - jo)) (14 * jw * unit64 * M) y.1 ∧
      GivenNear (tf + (tw - 1) ≤ i ∧ i < tf + data.length) (wilderFrom 0 tw (bar (vals data)) (i - tf)) (14 * tw * unit64 * M) y.2.1 ∧
      GivenNear (lo + (lw - 1) ≤ i ∧ i < lo + data.length) (wilderFrom 0 lw (bar (vals data)) (i - lo)) (14 * lw * unit64 * M) y.2.2)
      (alligator data jw jo tw tf lw lo) := by
  obtain ⟨m1, e1, l1, r1⟩ := alligatorLine_near data jw jo (max (max jo tf) lo) h1 b1 n1 (by omega) hM hB hd
  obtain ⟨m2, e2, l2, r2⟩ := alligatorLine_near data tw tf (max (max jo tf) lo) h2 b2 n2 (by omega) hM hB hd
  obtain ⟨m3, e3, l3, r3⟩ := alligatorLine_near data lw lo (max (max jo tf) lo) h3 b3 n3 (by omega) hM hB hd
  simp only [alligator, e1, e2, e3, Option.bind_eq_bind, Option.bind_some]
  refine ⟨_, rfl, by simp; omega, ?_⟩
  rintro i ⟨x, y, z⟩ - hi
  rw [zip3_getElem?] at hi
  have g1 := r1 i x hi.1
  have g2 := r2 i y hi.2.1
  have g3 := r3 i z hi.2.2
  exact ⟨⟨fun h => (g1.1 h).approx, g1.2⟩, ⟨fun h => (g2.1 h).approx, g2.2⟩, ⟨fun h => (g3.1 h).approx, g3.2⟩⟩

/-- C74: the two lines of `gator` are within 14 units per bar of the two windows, and 4 more, of the exact distances of the shifted averages. -/
theorem gator_error :
    Items (data.length + max (max jo tf) lo) 0 (fun i y =>
      GivenNear ((jo + (jw - 1) ≤ i ∧ i < jo + data.length) ∧ (tf + (tw - 1) ≤ i ∧ i < tf + data.length))
        |wilderFrom 0 jw (bar (vals data)) (i - jo) - wilderFrom 0 tw (bar (vals data)) (i - tf)| ((14 * jw + 14 * tw + 4) * unit64 * M) y.1 ∧
      GivenNear ((tf + (tw - 1) ≤ i ∧ i < tf + data.length) ∧ (lo + (lw - 1) ≤ i ∧ i < lo + data.length))
        |wilderFrom 0 tw (bar (vals data)) (i - tf) - wilderFrom 0 lw (bar (vals data)) (i - lo)| ((14 * tw + 14 * lw + 4) * unit64 * M) y.2)
      (Momentum.gator data jw jo tw tf lw lo) := by
  have hS := Smooth.sized_of hM hB
  have w1 : (jw : ℝ) < 2 ^ 32 := by exact_mod_cast b1
  have w2 : (tw : ℝ) < 2 ^ 32 := by exact_mod_cast b2
  have w3 : (lw : ℝ) < 2 ^ 32 := by exact_mod_cast b3
  obtain ⟨m1, e1, l1, r1⟩ := alligatorLine_near data jw jo (max (max jo tf) lo) h1 b1 n1 (by omega) hM hB hd
  obtain ⟨m2, e2, l2, r2⟩ := alligatorLine_near data tw tf (max (max jo tf) lo) h2 b2 n2 (by omega) hM hB hd
  obtain ⟨m3, e3, l3, r3⟩ := alligatorLine_near data lw lo (max (max jo tf) lo) h3 b3 n3 (by omega) hM hB hd
  simp only [Momentum.gator, alligator, e1, e2, e3, Option.bind_eq_bind, Option.bind_some]
  refine ⟨_, rfl, by simp; omega, fun i y hi hy => ?_⟩
  rw [List.getElem?_map] at hy
  obtain ⟨⟨a, b, c⟩, hz, rfl⟩ := Option.map_eq_some_iff.1 hy
  rw [zip3_getElem?] at hz
  have g1 := r1 i a hz.1
  have g2 := r2 i b hz.2.1
  have g3 := r3 i c hz.2.2
  have dist : ∀ {p q : Prop} {x y : F64} {s t k j : ℝ}, k + j ≤ 2 ^ 53 → ((p → Nearly M x s 1 k) ∧ (¬ p → x = FP.nan)) →
      ((q → Nearly M y t 1 j) ∧ (¬ q → y = FP.nan)) → GivenNear (p ∧ q) |s - t| ((k + j + 4) * unit64 * M) (fabs (x - y)) := by
    intro p q x y s t k j hkj hx hy
    refine ⟨fun h => (((hx.1 h.1).sub hS (hy.1 h.2) hkj (by norm_num)).fabs.mono hS le_rfl (by linarith)).approx, fun h => ?_⟩
    rw [← isNaN_iff]
    by_cases hp : p
    · have : Traquer.isNaN y = true := isNaN_iff.2 (hy.2 fun hq => h ⟨hp, hq⟩)
      nanp
    · have : Traquer.isNaN x = true := isNaN_iff.2 (hx.2 hp)
      nanp
  exact ⟨dist (by linarith) g1 g2, dist (by linarith) g2 g3⟩

end

/-! ## Concrete cases -/

section Examples
local notation "exH" => ([2, 6, 5, 9] : List F64)
local notation "exL" => ([1, 4, 2, 6] : List F64)
local notation "exC" => ([1, 5, 3, 7] : List F64)
private theorem exM : tiny64 ≤ 9 := bands_example.2.2.2.1
private theorem exB : (9 : ℝ) ≤ 2 ^ 800 := bands_example.2.2.2.2
private theorem exh : Bounded 9 exH := bands_example.1
private theorem exl : Bounded 9 exL := bands_example.2.1
private theorem exc : Bounded 9 exC := bands_example.2.2.1

example := donchian_error exH exL 2 rfl (by norm_num) (by simp) exM exB exh exl
example := bbands_error (M := 9) exC 2 none (isLit 2 (by norm_num)) (by norm_num) (by norm_num) (by norm_num) (by simp) exM
  (exM.trans (by norm_num)) (le_trans (by norm_num) (pow_le_pow_right₀ (by norm_num) (show 4 ≤ 400 by norm_num))) exc
example := chandelier_error exH exL exC 2 none (isLit 3 (by norm_num)) (by norm_num) rfl rfl exM exB exh exl exc (by norm_num) (by norm_num) (by simp)
example := cks_error exH exL exC 2 2 none isOne (by norm_num) rfl rfl exM exB exh exl exc (by norm_num) (by norm_num) (by norm_num) (by simp)
example := dpo_error exC 3 (by norm_num) (by norm_num) (by simp) exM exB exc
example := ichimoku_error exH exL exC 2 3 4 1 rfl rfl (by norm_num) (by norm_num) (by norm_num) (by simp) (by simp) (by simp) (by simp) exM exB exh exl exc
example := alligator_error exC 3 2 2 1 1 1 (by norm_num) (by norm_num) (by norm_num) (by norm_num) (by norm_num) (by norm_num) (by simp) (by simp)
  (by simp) exM exB exc
example := gator_error exC 3 2 2 1 1 1 (by norm_num) (by norm_num) (by norm_num) (by norm_num) (by norm_num) (by norm_num) (by simp) (by simp)
  (by simp) exM exB exc
end Examples

end Traquer.Trend
