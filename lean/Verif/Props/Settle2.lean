import Verif.Props.Settle
/-!
# C104, continued: adaptive averages, oscillators, statistics and bands
-/

namespace Traquer
open FP FloatLit Filter Topology

variable {s : ℕ → ℝ} {c : ℝ} {w : ℕ}

theorem recent_upTo {n i : ℕ} (h1 : w ≤ i + 1) (h2 : i < n) : recent (vals (upTo s n)) w i = lastOf s w i := by
  rw [← lastOf_bar h1 (by simpa using h2)]
  exact lastOf_congr fun j h1 => bar_upTo (by omega)

theorem adaptive_congr {k n : ℕ} {g g' x x' : ℕ → ℝ} (hg : ∀ i, k ≤ i → i < n → g i = g' i) (hx : ∀ i, i < n → x i = x' i) :
    ∀ i, i < n → adaptive k g x i = adaptive k g' x' i := by
  intro i
  induction i with
  | zero => intro _; rfl
  | succ i ih =>
    intro hi
    rw [adaptive, adaptive]
    split
    · rfl
    · rw [ih (by omega), hg _ (by omega) hi, hx _ hi]

theorem efficiency_mem {l : List ℝ} (hl : l ≠ []) : 0 ≤ efficiency l ∧ efficiency l ≤ 1 := by
  have hp := List.length_pos_iff.2 hl
  have h0 : 0 ≤ ((changes l).map fun c => |c|).sum := List.sum_nonneg (by simp only [List.mem_map]; rintro _ ⟨x, -, rfl⟩; positivity)
  refine ⟨div_nonneg (abs_nonneg _) h0, div_le_one_of_le₀ ?_ h0⟩
  have := Smooth.pairs_sum_ge l (l.head hl) hl
  rw [sub_self, abs_zero, zero_add] at this
  have g1 : bar l (l.length - 1) = l.getLast hl := by simp [bar, List.getLast_eq_getElem, hp]
  have g0 : bar l 0 = l.head hl := by simp [bar, List.head_eq_getElem, hp]
  rw [g1, g0, changes, List.map_map]
  refine this.trans (le_of_eq ?_)
  congr 1
  refine List.map_congr_left fun p _ => ?_
  exact abs_sub_comm _ _

namespace Smooth

/-- C104: Kaufman's average, unless the price stands still for a whole window (C26). -/
theorem kama_settles (short long : Option ℕ) (hw : 2 ≤ w) (h1 : 1 ≤ short.getD 2) (h2 : 1 ≤ long.getD 30)
    (hm : ∀ i, w ≤ i + 1 → ((changes (lastOf s w i)).map fun c => |c|).sum ≠ 0) (hs : Tendsto s atTop (𝓝 c)) :
    Settles (fun n => kama (upTo s n) w short long) c := by
  set f : ℝ := 2 / (((short.getD 2 : ℕ) : ℝ) + 1)
  set g : ℝ := 2 / (((long.getD 30 : ℕ) : ℝ) + 1)
  have k1 : (1 : ℝ) ≤ ((short.getD 2 : ℕ) : ℝ) := by exact_mod_cast h1
  have k2 : (1 : ℝ) ≤ ((long.getD 30 : ℕ) : ℝ) := by exact_mod_cast h2
  have f0 : 0 < f := by positivity
  have g0 : 0 < g := by positivity
  have f1 : f ≤ 1 := by rw [div_le_one (by positivity)]; linarith
  have g1 : g ≤ 1 := by rw [div_le_one (by positivity)]; linarith
  have lim : Tendsto (adaptive (w - 1) (fun i => (efficiency (lastOf s w i) * (f - g) + g) ^ 2) s) atTop (𝓝 c) := by
    refine tendsto_adaptive (q := (min f g) ^ 2) (by have := lt_min f0 g0; positivity) (fun i hi => ?_) hs
    obtain ⟨e0, e1⟩ := efficiency_mem (l := lastOf s w i) (by rw [← List.length_pos_iff]; simp [lastOf]; omega)
    have a : min f g ≤ efficiency (lastOf s w i) * (f - g) + g := by
      rcases le_total f g with h | h
      · rw [min_eq_left h]; nlinarith
      · rw [min_eq_right h]; nlinarith
    have b : efficiency (lastOf s w i) * (f - g) + g ≤ 1 := by
      nlinarith
    have p : 0 < min f g := lt_min f0 g0
    constructor
    · exact pow_le_pow_left₀ p.le a 2
    · exact pow_le_one₀ (p.le.trans a) b
  refine settles_reports lim (eventually_atTop.2 ⟨w, fun n hn => ⟨w - 1, by omega, ?_, ?_⟩⟩)
    (V := fun n => adaptive (w - 1) (fun i => (efficiency (recent (vals (upTo s (n + 1))) w i) * (f - g) + g) ^ 2) (bar (vals (upTo s (n + 1)))))
  · have := kama_reports (upTo s (n + 1)) w short long hw (by simp; omega) (upTo_fins _ _) fun i h1 h2 => by
      rw [recent_upTo h1 (by simpa using h2)]; exact hm i h1
    rwa [upTo_length] at this
  · refine adaptive_congr (n := n + 1) (fun i h1 h2 => ?_) (fun i hi => bar_upTo hi) n (by omega)
    rw [recent_upTo (by omega) h2]

/-- C104: the fractal average, on prices of double precision size and unless the price stands still for a whole window. -/
theorem frama_settles (hw : 2 ≤ w) (he : w % 2 = 0) (hb : ∀ i, |s i| ≤ f64Max) (hr : ∀ i, w ≤ i + 1 → rangeOf (lastOf s w i) ≠ 0)
    (hs : Tendsto s atTop (𝓝 c)) : ∃ r : ℕ → List XF, (∀ n, w ≤ n + 1 → frama (upTo s n) w = some (.ok (r n))) ∧ Settles (fun n => some (r n)) c := by
  have lim : Tendsto (adaptive (w - 1) (fun i => fractalGain (lastOf s w i)) s) atTop (𝓝 c) := by
    refine tendsto_adaptive (q := 0.01) (by norm_num) (fun i hi => ?_) hs
    rw [fractalGain]
    split
    · norm_num
    · exact ⟨le_max_left _ _, max_le (by norm_num) (min_le_right _ _)⟩
  have key := fun (n : ℕ) (hn : w ≤ n + 1) => frama_reports (upTo s n) w hw he (by simpa using hn) (upTo_fins _ _)
    (fun x hx => by
      simp only [vals, upTo, List.map_map, List.mem_map] at hx
      obtain ⟨i, -, rfl⟩ := hx
      exact hb i)
    fun i h1 h2 => by rw [recent_upTo h1 (by simpa using h2)]; exact hr i h1
  choose! r h1 h2 using key
  refine ⟨r, h1, settles_reports lim (eventually_atTop.2 ⟨w, fun n hn => ⟨w - 1, by omega, ?_, ?_⟩⟩)
    (V := fun n => adaptive (w - 1) (fun i => fractalGain (recent (vals (upTo s (n + 1))) w i)) (bar (vals (upTo s (n + 1)))))⟩
  · have := h2 (n + 1) (by omega)
    rwa [upTo_length] at this
  · refine adaptive_congr (n := n + 1) (fun i h1 h2 => ?_) (fun i hi => bar_upTo hi) n (by omega)
    rw [recent_upTo (by omega) h2]

end Smooth

/-! ## Quotients -/

/-- A quotient whose denominator has a limit other than 0. -/
theorem settles_quot {N k : ℕ} {f : List XF → Option (List XF)} {A B : List XF → ℕ → ℝ} {a b : ℕ → ℝ} {p q : ℝ} (hq : q ≠ 0)
    (hf : ∀ d, Fins d → N ≤ d.length → ReportsP d.length k (fun i => QuotIs (A d i) (B d i)) (f d))
    (ea : ∀ n, max N k ≤ n → A (upTo s (n + 1)) n = a n) (eb : ∀ n, max N k ≤ n → B (upTo s (n + 1)) n = b n)
    (la : Tendsto a atTop (𝓝 p)) (lb : Tendsto b atTop (𝓝 q)) : Settles (fun n => f (upTo s n)) (p / q) := by
  refine settles_reportsP (la.div lb hq) (P := fun n i => QuotIs (A (upTo s (n + 1)) i) (B (upTo s (n + 1)) i)) ?_
  filter_upwards [eventually_ge_atTop (max N k), lb.eventually_ne hq] with n hn hb
  refine ⟨k, by omega, ?_, fun y hy => ?_⟩
  · have := hf (upTo s (n + 1)) (upTo_fins _ _) (by simp; omega)
    rwa [upTo_length] at this
  · have := hy.1 (by rw [eb n hn]; exact hb)
    rwa [ea n hn, eb n hn] at this

namespace Momentum
open Smooth

/-- C104 -/
theorem macd_settles {short long : ℕ} (h1 : 1 ≤ short) (h2 : 1 ≤ long) (hs : Tendsto s atTop (𝓝 c)) : Settles (fun n => macd (upTo s n) short long) 0 :=
  settles_of (N := max short long) (ok := fun n => max short long ≤ n) (k := max short long - 1)
    ((Lip.ewma h1).mono (by omega) le_rfl |>.sub ((Lip.ewma h2).mono (by omega) le_rfl)) (fun n hn => hn) (fun d hd hn => macd_reports d short long h1 h2 hn hd)
    (by simpa using (tendsto_ema1 h1 hs).sub (tendsto_ema1 h2 hs))

/-- C104 -/
theorem apo_settles {short long : ℕ} (h1 : 1 ≤ short) (h2 : 1 ≤ long) (hs : Tendsto s atTop (𝓝 c)) : Settles (fun n => apo (upTo s n) short long) 0 :=
  macd_settles h1 h2 hs

/-- C104 -/
theorem ppo_settles {short long : ℕ} (h1 : 1 ≤ short) (h2 : 1 ≤ long) (hc : c ≠ 0) (hs : Tendsto s atTop (𝓝 c)) :
    Settles (fun n => ppo (upTo s n) short long) 0 := by
  have l1 := tendsto_ema1 h1 hs
  have l2 := tendsto_ema1 h2 hs
  have e : ∀ {w : ℕ}, 1 ≤ w → w ≤ max short long → ∀ n, max (max short long) (max short long - 1) ≤ n →
      ema1 w (bar (vals (upTo s (n + 1)))) n = ema1 w s n := fun hw hm n hn => (Lip.ewma hw).sees (by omega) fun j hj => bar_upTo (by omega)
  have := settles_quot (s := s) (N := max short long) (k := max short long - 1) hc (fun d hd hn => ppo_reports d short long h1 h2 hn hd)
    (fun n hn => by rw [e h1 (le_max_left _ _) n hn, e h2 (le_max_right _ _) n hn]) (fun n hn => e h2 (le_max_right _ _) n hn)
    ((l1.sub l2).const_mul 100) l2
  simpa using this

/-- C104 -/
theorem roc_settles (hw : 1 ≤ w) (hc : c ≠ 0) (hs : Tendsto s atTop (𝓝 c)) : Settles (fun n => roc (upTo s n) w) 0 := by
  have l := hs.comp (tendsto_sub_atTop_nat (w - 1))
  have := settles_quot (s := s) (N := w) (k := w - 1) hc (fun d hd hn => roc_reports d w hw (by omega) hd)
    (fun n hn => by rw [bar_upTo (by omega), bar_upTo (by omega)]; rfl) (fun n hn => bar_upTo (by omega)) ((hs.sub l).const_mul 100) l
  simpa using this

/-- C104 -/
theorem trix_settles (hw : 1 ≤ w) (hc : c ≠ 0) (hs : Tendsto s atTop (𝓝 c)) : Settles (fun n => trix (upTo s n) w) 0 := by
  have l := tendsto_ema3 hw hs
  have l' := l.comp (tendsto_sub_atTop_nat 1)
  have e : ∀ n i, i ≤ n → 3 * (w - 1) ≤ i → ema3 w (bar (vals (upTo s (n + 1)))) i = ema3 w s i := fun n i hi h =>
    (lip_ema3 hw).sees h fun j hj => bar_upTo (by omega)
  have := settles_quot (s := s) (N := 3 * w) (k := 3 * (w - 1) + 1) hc (fun d hd hn => trix_reports d w hw (by omega) hd)
    (fun n hn => by rw [e n n le_rfl (by omega), e n (n - 1) (by omega) (by omega)]; rfl) (fun n hn => e n (n - 1) (by omega) (by omega))
    ((l.sub l').const_mul 100) l'
  simpa using this

/-- C104: the weights `1, …, w` of the centre of gravity balance in the middle. -/
theorem cog_settles (hw : 1 ≤ w) (hc : c ≠ 0) (hs : Tendsto s atTop (𝓝 c)) : Settles (fun n => cog (upTo s n) w) (-((w + 1) / 2)) := by
  have w1 : (1 : ℝ) ≤ w := by exact_mod_cast hw
  have l1 : Tendsto (fun n => -((List.range w).map fun j : ℕ => s (n - j) * ((j : ℝ) + 1)).sum) atTop (𝓝 (-(c * (w * (w + 1) / 2)))) := by
    refine Tendsto.neg ?_
    clear w1 hw
    induction w with
    | zero => simp
    | succ w ih =>
      simp only [List.range_succ, List.map_append, List.sum_append, List.map_cons, List.map_nil, List.sum_cons, List.sum_nil, add_zero]
      have := ih.add ((hs.comp (tendsto_sub_atTop_nat w)).mul_const ((w : ℝ) + 1))
      rw [show c * (((w + 1 : ℕ) : ℝ) * (((w + 1 : ℕ) : ℝ) + 1) / 2) = c * (w * (w + 1) / 2) + c * (w + 1) by push_cast; ring]
      exact this
  have l2 : Tendsto (fun n => (lastOf s w n).sum) atTop (𝓝 (w * c)) := by
    refine ((tendsto_mean hw hs).const_mul (w : ℝ)).congr fun n => ?_
    rw [mean, show (lastOf s w n).length = w by simp [lastOf]]; field_simp
  have := settles_quot (s := s) (N := w) (k := w - 1) (show (w : ℝ) * c ≠ 0 by positivity) (fun d hd hn => cog_reports d w hw (by omega) hd)
    (fun n hn => by
      congr 2
      refine List.map_congr_left fun j hj => ?_
      rw [bar_upTo (by omega)]) (fun n hn => by rw [recent_upTo (by omega) (by omega)]) l1 l2
  convert this using 1
  field_simp

/-- C104 -/
theorem pmo_settles {w1 w2 : ℕ} (h1 : 1 ≤ w1) (h2 : 1 ≤ w2) (h0 : ∀ i, s i ≠ 0) (hc : c ≠ 0) (hs : Tendsto s atTop (𝓝 c)) :
    Settles (fun n => pmo (upTo s n) w1 w2) 0 := by
  have lim : Tendsto (ewmaFrom w1 w2 (ewmaFrom 1 w1 fun i => 1000 * (s i / s (i - 1) - 1))) atTop (𝓝 0) := by
    refine tendsto_ewmaFrom h2 (tendsto_ewmaFrom h1 ?_)
    have := ((hs.div (hs.comp (tendsto_sub_atTop_nat 1)) hc).sub_const 1).const_mul 1000
    simpa [hc] using this
  have near : ∀ {k w n : ℕ} {x y : ℕ → ℝ}, 1 ≤ w → (∀ i, k ≤ i → i < n → x i = y i) → ∀ i, k + (w - 1) ≤ i → i < n → ewmaFrom k w x i = ewmaFrom k w y i :=
    fun {k w n x y} hw h i g1 g2 => by
      have := ewmaFrom_near (k := k) (n := n) (v := x) (v' := y) hw (e := 0) (fun i a b => by rw [h i a b]; simp) i g1 g2
      exact sub_eq_zero.1 (abs_eq_zero.1 (le_antisymm this (abs_nonneg _)))
  refine settles_reports lim (eventually_atTop.2 ⟨w1 + w2, fun n hn => ⟨w1 + (w2 - 1), by omega, ?_, ?_⟩⟩)
    (V := fun n => ewmaFrom w1 w2 (ewmaFrom 1 w1 fun i => 1000 * (bar (vals (upTo s (n + 1))) i / bar (vals (upTo s (n + 1))) (i - 1) - 1)))
  · have := pmo_reports (upTo s (n + 1)) w1 w2 h1 h2 (by simp; omega) (upTo_fins _ _) fun x hx hz => by
      obtain ⟨i, -, rfl⟩ := List.mem_map.1 hx
      exact h0 i hz.2
    rwa [upTo_length] at this
  · refine near h2 (n := n + 1) (fun i a b => near h1 (n := n + 1) (fun i a b => ?_) i (by omega) b) n (by omega) (by omega)
    rw [bar_upTo (by omega), bar_upTo (by omega)]

/-- C104 -/
theorem coppock_settles {short long : ℕ} (hw : 1 ≤ w) (hl : short ≤ long) (h0 : ∀ i, s i ≠ 0) (hc : c ≠ 0) (hs : Tendsto s atTop (𝓝 c)) :
    Settles (fun n => coppock (upTo s n) w short long) 0 := by
  have lim : Tendsto (fun i => weightedMean ((List.range' 1 w).map fun i : ℕ => (i : ℝ))
      (lastOf (fun x => 100 * (s x / s (x - short) + s x / s (x - long) - 2)) w i)) atTop (𝓝 0) := by
    refine tendsto_wma hw ?_
    have := (((hs.div (hs.comp (tendsto_sub_atTop_nat short)) hc).add (hs.div (hs.comp (tendsto_sub_atTop_nat long)) hc)).sub_const 2).const_mul 100
    rw [div_self hc] at this
    simpa [one_add_one_eq_two] using this
  refine settles_reports lim (eventually_atTop.2 ⟨long + w, fun n hn => ⟨long + (w - 1), by omega, ?_, ?_⟩⟩)
    (V := fun n i => weightedMean ((List.range' 1 w).map fun i : ℕ => (i : ℝ)) (lastOf (fun x => 100 * (bar (vals (upTo s (n + 1))) x /
      bar (vals (upTo s (n + 1))) (x - short) + bar (vals (upTo s (n + 1))) x / bar (vals (upTo s (n + 1))) (x - long) - 2)) w i))
  · have := coppock_reports (upTo s (n + 1)) w short long hw hl (by simp; omega) (upTo_fins _ _) fun x hx hz => by
      obtain ⟨i, -, rfl⟩ := List.mem_map.1 hx
      exact h0 i hz.2
    rwa [upTo_length] at this
  · congr 1
    refine Traquer.lastOf_congr fun j hj => ?_
    rw [bar_upTo (by omega), bar_upTo (by omega), bar_upTo (by omega)]

end Momentum

namespace Distribution

/-- C104 -/
theorem std_dev_settles (hw : 1 ≤ w) (hs : Tendsto s atTop (𝓝 c)) : Settles (fun n => std_dev (upTo s n) w) 0 :=
  settles_recent (N := w) (ok := fun n => w ≤ n + 1) hw (fun n hn => by omega) (fun d hd hn => std_dev_reports d w hw hn hd)
    (tendsto_const_window (L := 1) (fun e l m e0 hl h => by rw [one_mul]; exact stdDev_stable h (by rintro rfl; simp at hl; omega) e0)
      (stdDev_eq_zero.2 (replicate_flat w c)) hs)

/-- C104 -/
theorem variance_settles (hw : 1 ≤ w) (hs : Tendsto s atTop (𝓝 c)) : Settles (fun n => variance (upTo s n) w) 0 :=
  settles_recent (N := w) (ok := fun n => w ≤ n + 1) hw (fun n hn => by omega) (fun d hd hn => variance_reports d w hw hn hd) (by
    have := (tendsto_const_window (w := w) (g := stdDev) (L := 1) (fun e l m e0 hl h => by
      rw [one_mul]; exact stdDev_stable h (by rintro rfl; simp at hl; omega) e0) (stdDev_eq_zero.2 (replicate_flat w c)) hs).pow 2
    rw [zero_pow two_ne_zero] at this
    refine this.congr fun i => ?_
    rw [stdDev, Real.sq_sqrt]
    exact moment_two_nonneg _)

/-- C104 -/
theorem mad_settles (hw : 1 ≤ w) (hs : Tendsto s atTop (𝓝 c)) : Settles (fun n => mad (upTo s n) w) 0 :=
  settles_recent (N := w) (ok := fun n => w ≤ n + 1) hw (fun n hn => by omega) (fun d hd hn => mad_reports d w hw hn hd)
    (tendsto_const_window (L := 2) (fun e l m _ hl h => meanAbsDev_stable h (by rintro rfl; simp at hl; omega)) (by
      have hm : mean (List.replicate w c) = c := by rw [mean, List.sum_replicate, List.length_replicate, nsmul_eq_mul]; field_simp
      rw [meanAbsDev, hm]
      simp [mean]) hs)

theorem tendsto_orderStat {k : ℕ} (hk : k < w) (hs : Tendsto s atTop (𝓝 c)) : Tendsto (fun i => orderStat (lastOf s w i) k) atTop (𝓝 c) :=
  tendsto_mem (w := w) (Eventually.of_forall fun i => orderStat_mem (by simpa [lastOf] using hk)) hs

/-- C104 -/
theorem median_settles (hw : 1 ≤ w) (hw' : w ≤ 2 ^ 53) (hs : Tendsto s atTop (𝓝 c)) : Settles (fun n => median (upTo s n) w) c :=
  settles_recent (N := w) (g := fun l => (orderStat l ((w - 1) / 2) + orderStat l (w / 2)) / 2) (ok := fun n => w ≤ n + 1) hw (fun n hn => by omega)
    (fun d hd hn => median_reports d w hw hw' hn hd) (by
      have := ((tendsto_orderStat (w := w) (k := (w - 1) / 2) (by omega) hs).add (tendsto_orderStat (w := w) (k := w / 2) (by omega) hs)).div_const 2
      rwa [show (c + c) / 2 = c by ring] at this)

/-- C104 -/
theorem quantile_settles (q : XF) {r : ℝ} (hq : q ⇓ r) (hw : 1 ≤ w) (hw' : w ≤ 2 ^ 53) (hs : Tendsto s atTop (𝓝 c)) :
    Settles (fun n => quantile (upTo s n) w q) c :=
  settles_recent (N := w) (g := fun l => quantileOf l ((w - 1 : ℕ) * (max 0 (min r 100) / 100))) (ok := fun n => w ≤ n + 1) hw (fun n hn => by omega)
    (fun d hd hn => quantile_reports d w q r hq hw hw' hn hd) (by
      set p := ((w - 1 : ℕ) : ℝ) * (max 0 (min r 100) / 100) with hp
      have c0 : 0 ≤ max 0 (min r 100) / 100 := div_nonneg (le_max_left _ _) (by norm_num)
      have c1 : max 0 (min r 100) / 100 ≤ 1 := by
        rw [div_le_one (by norm_num)]
        exact max_le (by norm_num) (min_le_right _ _)
      have p0 : 0 ≤ p := mul_nonneg (by positivity) c0
      have p1 : p ≤ (w - 1 : ℕ) := mul_le_of_le_one_right (by positivity) c1
      have k1 : ⌊p⌋₊ ≤ w - 1 := Nat.floor_le_of_le p1
      simp only [quantileOf]
      have a := (tendsto_orderStat (w := w) (k := ⌊p⌋₊) (by omega) hs).mul_const (1 - Int.fract p)
      by_cases hk : ⌊p⌋₊ + 1 < w
      · have := a.add ((tendsto_orderStat (w := w) hk hs).mul_const (Int.fract p))
        rwa [show c * (1 - Int.fract p) + c * Int.fract p = c by ring] at this
      · have e : (⌊p⌋₊ : ℝ) = p := le_antisymm (Nat.floor_le p0) (p1.trans (by exact_mod_cast (show w - 1 ≤ ⌊p⌋₊ by omega)))
        have f : Int.fract p = 0 := by rw [← e]; exact Int.fract_natCast _
        simp only [f, sub_zero, mul_one, mul_zero, add_zero] at a ⊢
        exact a)

end Distribution
end Traquer
