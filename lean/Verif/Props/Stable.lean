import Verif.Lemmas.Stable
import Verif.Props.Identities
import Verif.Props.ErrorAverages
/-!
# C99: an error in the data does not grow beyond a fixed multiple

Averages with positive weights, medians, quantiles, channels and the standard deviation change by no more than the error of the
data. Combinations of averages change by at most the sum of the sizes of their coefficients times that error.
-/

namespace Traquer
open FP FloatLit

namespace Smooth
variable {w : ℕ}

/-- C99 -/
theorem sma_stable (hw : 1 ≤ w) : Stable 1 (fun n => w ≤ n + 1) fun x => sma x w :=
  stable_of (Lip.mean hw) fun d hd hn => (sma_reports d w hw hn hd).congr fun i h1 h2 => by
    rw [lastOf_bar (by omega) (by simpa using h2)]

/-- C99 -/
theorem ewma_stable (hw : 1 ≤ w) : Stable 1 (fun n => w ≤ n) fun x => ewma x w :=
  stable_of (Lip.ewma hw) fun d hd hn => ewma_values d w hw hn hd

/-- C99 -/
theorem wilder_stable (hw : 1 ≤ w) : Stable 1 (fun n => w ≤ n) fun x => wilder x w :=
  stable_of (Lip.wilder hw) fun d hd hn => wilder_values d w hw hn hd

theorem lip_wma (hw : 1 ≤ w) : Lip (w - 1) 1 fun x i => wmaOf w (lastOf x w i) :=
  Lip.weighted (fun u hu => by obtain ⟨j, -, rfl⟩ := List.mem_map.1 hu; positivity) (range'_sum_pos _ hw) (by simp) hw

/-- C99 -/
theorem wma_stable (hw : 1 ≤ w) : Stable 1 (fun n => w ≤ n + 1) fun x => wma x w :=
  stable_of (lip_wma hw) fun d hd hn =>
    (wma_reports d w hw hn hd).congr fun i h1 h2 => by rw [lastOf_bar (by omega) (by simpa using h2)]

/-- C99 -/
theorem pwma_stable (hw : 1 ≤ w) (hp : w ≤ 63) : Stable 1 (fun n => w ≤ n + 1) fun x => pwma x w :=
  stable_of (Lip.weighted (ws := ((List.range w).map fun k => (w - 1).choose k).map fun u : ℕ => (u : ℝ))
      (fun u hu => by obtain ⟨j, -, rfl⟩ := List.mem_map.1 hu; positivity)
      (List.sum_pos _ (fun u hu => by
        obtain ⟨j, hj, rfl⟩ := List.mem_map.1 hu
        obtain ⟨k, hk, rfl⟩ := List.mem_map.1 hj
        have := List.mem_range.1 hk
        exact_mod_cast Nat.choose_pos (by omega)) (by simp; omega)) (by simp) hw) fun d hd hn =>
    (pwma_reports d w hw hp hn hd).congr fun i h1 h2 => by rw [lastOf_bar (by omega) (by simpa using h2)]

/-- C99 -/
theorem fwma_stable (hw : 2 ≤ w) : Stable 1 (fun n => w ≤ n + 1) fun x => fwma x w :=
  stable_of (Lip.weighted (ws := ((List.range' 1 w).map Nat.fib).map fun u : ℕ => (u : ℝ))
      (fun u hu => by obtain ⟨j, -, rfl⟩ := List.mem_map.1 hu; positivity)
      (List.sum_pos _ (fun u hu => by
        obtain ⟨j, hj, rfl⟩ := List.mem_map.1 hu
        obtain ⟨k, hk, rfl⟩ := List.mem_map.1 hj
        have := List.mem_range'.1 hk
        exact_mod_cast Nat.fib_pos.2 (by omega)) (by simp; omega)) (by simp) (by omega)) fun d hd hn =>
    (fwma_reports d w hw hn hd).congr fun i h1 h2 => by rw [lastOf_bar (by omega) (by simpa using h2)]

/-- C99 -/
theorem trima_stable (hw : 1 ≤ w) : Stable 1 (fun n => w ≤ n + 1) fun x => trima x w := by
  refine stable_of (k := w - 1) (V := fun x i => mean (lastOf (fun j => mean (lastOf x ((w + 1) / 2) j)) (w / 2 + 1) i)) ?_
    fun d hd hn => trima_values d w hw hn hd
  have := Lip.after (k := (w + 1) / 2 - 1) (k' := w - 1) (M := 1) (W := fun x i => mean (lastOf x (w / 2 + 1) i))
    (fun n e x y _ h i h1 h2 => by rw [one_mul]; exact mean_lastOf_near (by omega) h i (by omega) h2) (Lip.mean (w := (w + 1) / 2) (by omega))
    zero_le_one
  rwa [one_mul] at this

/-- C99 -/
theorem alma_stable (sigma : XF) (mu : Option XF) {s m : ℝ} (hw : 1 ≤ w) (hs : sigma ⇓ s) (h0 : s ≠ 0) (hm : mu.getD 0.85 ⇓ m) :
    Stable 1 (fun n => w ≤ n) fun x => alma x w sigma mu := by
  refine stable_of (k := w) (V := fun x i => weightedMean (almaGauss w s m) (lastOf x w i).reverse) ?_ fun d hd hn =>
    (alma_reports d w sigma mu s m hw hn hs h0 hm hd).congr fun i h1 h2 => by rw [lastOf_bar (by omega) (by simpa using h2)]
  refine (Lip.of_window (w := w) (g := fun l => weightedMean (almaGauss w s m) l.reverse) (L := 1) hw fun e l m' e0 hl h => ?_).mono (by omega) le_rfl
  rw [one_mul]
  exact weightedMean_near (fun u hu => by obtain ⟨j, -, rfl⟩ := List.mem_map.1 hu; positivity) (exp_sum_pos _ (by simp; omega))
    (by simp [hl]) (List.rel_reverse h)

/-- C99 -/
theorem kernel_stable (sigma : XF) {s : ℝ} (hs : sigma ⇓ s) (h0 : s ≠ 0) : Stable 1 (fun _ => True) fun x => some (kernel x sigma) := by
  refine stable_of (k := 0) (V := fun x i => weightedMean (gauss s (min (i + 1) 255)) (lastOf x (min (i + 1) 255) i).reverse) ?_ fun d hd _ =>
    (kernel_reports d sigma s hs h0 hd).congr fun i h1 h2 => by rw [lastOf_bar (by omega) (by simpa using h2)]
  intro n e x y e0 h i _ h2
  rw [one_mul]
  refine weightedMean_near (fun u hu => by obtain ⟨j, -, rfl⟩ := List.mem_map.1 hu; positivity) (exp_sum_pos _ (by simp))
    (by simp [lastOf]) (List.rel_reverse (lastOf_forall₂ (k := 0) (n := n) (fun j _ hj => h j hj) (by omega) h2))

theorem lip_next {V : (ℕ → ℝ) → ℕ → ℝ} {k : ℕ} (hw : 1 ≤ w) (h : Lip k 1 V) : Lip (k + (w - 1)) 1 fun x => ewmaFrom k w (V x) := by
  have := Lip.after (k := k) (k' := k + (w - 1)) (M := 1) (W := ewmaFrom k w)
    (fun n e x y _ h i h1 h2 => by rw [one_mul]; exact ewmaFrom_near hw h i h1 h2) h zero_le_one
  rwa [one_mul] at this

theorem lip_ema1 (hw : 1 ≤ w) : Lip (w - 1) 1 (ema1 w) := Lip.ewma hw
theorem lip_ema2 (hw : 1 ≤ w) : Lip (2 * (w - 1)) 1 (ema2 w) := (lip_next hw (lip_ema1 hw)).mono (by omega) le_rfl
theorem lip_ema3 (hw : 1 ≤ w) : Lip (3 * (w - 1)) 1 (ema3 w) := (lip_next hw (lip_ema2 hw)).mono (by omega) le_rfl
theorem lip_ema4 (hw : 1 ≤ w) : Lip (4 * (w - 1)) 1 (ema4 w) := (lip_next hw (lip_ema3 hw)).mono (by omega) le_rfl
theorem lip_ema5 (hw : 1 ≤ w) : Lip (5 * (w - 1)) 1 (ema5 w) := (lip_next hw (lip_ema4 hw)).mono (by omega) le_rfl
theorem lip_ema6 (hw : 1 ≤ w) : Lip (6 * (w - 1)) 1 (ema6 w) := (lip_next hw (lip_ema5 hw)).mono (by omega) le_rfl

/-- C99: `2 + 1` times the error. -/
theorem dema_stable (hw : 1 ≤ w) : Stable 3 (fun n => 2 * w ≤ n + 1) fun x => dema x w :=
  stable_of (k := 2 * (w - 1)) (((((lip_ema1 hw).mono (by omega) le_rfl).mul 2).sub (lip_ema2 hw)).mono le_rfl (by norm_num))
    fun d hd hn => dema_reports d w hw hn hd

/-- C99: `3 + 3 + 1` times the error. -/
theorem tema_stable (hw : 1 ≤ w) : Stable 7 (fun n => 3 * w ≤ n + 2) fun x => tema x w :=
  stable_of (k := 3 * (w - 1)) ((((((lip_ema1 hw).mono (by omega) le_rfl).mul 3).sub (((lip_ema2 hw).mono (by omega) le_rfl).mul 3)).add
    (lip_ema3 hw)).mono le_rfl (by norm_num)) fun d hd hn => tema_reports d w hw hn hd

/-- C99: with volume factor `g` (clamped to [0, 1]) `t3` multiplies the error by at most `(1 + 2 g) ^ 3`. -/
theorem t3_stable (factor : Option XF) {f : ℝ} (hw : 1 ≤ w) (hf : factor.getD 0.7 ⇓ f) :
    Stable ((1 + 2 * max 0 (min f 1)) ^ 3) (fun n => 6 * w ≤ n + 5) fun x => t3 x w factor := by
  have g0 : 0 ≤ max 0 (min f 1) := le_max_left _ _
  refine stable_of (k := 6 * (w - 1)) ((((((lip_ema6 hw).mul _).add (((lip_ema5 hw).mono (by omega) le_rfl).mul _)).add
    (((lip_ema4 hw).mono (by omega) le_rfl).mul _)).add (((lip_ema3 hw).mono (by omega) le_rfl).mul _)).mono le_rfl ?_)
    fun d hd hn => t3_reports d w factor f hw hn hf hd
  generalize max 0 (min f 1) = g at g0
  rw [abs_neg, abs_of_nonneg (show 0 ≤ g ^ 3 by positivity), abs_of_nonneg (show 0 ≤ 3 * g ^ 2 + 3 * g ^ 3 by positivity),
    abs_of_nonpos (show -3 * g - 6 * g ^ 2 - 3 * g ^ 3 ≤ 0 by nlinarith [pow_nonneg g0 2, pow_nonneg g0 3]),
    abs_of_nonneg (show 0 ≤ 1 + 3 * g + 3 * g ^ 2 + g ^ 3 by positivity)]
  exact le_of_eq (by ring)

/-- C99: `2 + 1` times the error. -/
theorem hull_stable (hw : 1 ≤ w) (hb : w < 2 ^ 64) : Stable 3 (fun n => w ≤ n + 1) fun x => hull x w := by
  have hs : 1 ≤ Nat.sqrt w := Nat.sqrt_pos.2 (by omega)
  refine stable_of (k := w - 1 + (Nat.sqrt w - 1))
    (V := fun x i => wmaOf (Nat.sqrt w) (lastOf (fun j => 2 * wmaOf ((w + 1) / 2) (lastOf x ((w + 1) / 2) j) - wmaOf w (lastOf x w j)) (Nat.sqrt w) i))
    ?_ fun d hd hn => hull_values d w hw hb hn hd
  have h1 : Lip (w - 1) 3 fun x i => 2 * wmaOf ((w + 1) / 2) (lastOf x ((w + 1) / 2) i) - wmaOf w (lastOf x w i) :=
    ((((lip_wma (w := (w + 1) / 2) (by omega)).mono (by omega) le_rfl).mul 2).sub (lip_wma hw)).mono le_rfl (by norm_num)
  have := Lip.after (k := w - 1) (k' := w - 1 + (Nat.sqrt w - 1)) (M := 1) (W := fun x i => wmaOf (Nat.sqrt w) (lastOf x (Nat.sqrt w) i))
    (fun n e x y e0 h i h1 h2 => Lip.window (w := Nat.sqrt w) (g := wmaOf (Nat.sqrt w)) (L := 1) (fun e l m _ hl h => by
      rw [one_mul]
      exact weightedMean_near (fun u hu => by obtain ⟨j, -, rfl⟩ := List.mem_map.1 hu; positivity) (range'_sum_pos _ hs) (by simp [hl]) h)
      (w - 1) n e x y e0 h i h1 h2 hs) h1 (by norm_num)
  rwa [one_mul] at this

/-- C99: `2 + 1` times the error. -/
theorem zlma_stable (hw : 1 ≤ w) : Stable 3 (fun n => (w - 1) / 2 + w ≤ n) fun x => zlma x w := by
  refine stable_of (k := (w - 1) / 2 + (w - 1)) (V := fun x => ewmaFrom ((w - 1) / 2) w fun i => 2 * x i - x (i - (w - 1) / 2)) ?_
    fun d hd hn => zlma_reports d w hw hn hd
  have h1 : Lip 0 3 fun x i => 2 * x i - x (i - (w - 1) / 2) := fun n e x y e0 h i _ h2 => by
    have a := h i h2
    have b := h (i - (w - 1) / 2) (by omega)
    rw [abs_le] at *
    constructor <;> linarith
  have := Lip.after (k := (w - 1) / 2) (k' := (w - 1) / 2 + (w - 1)) (M := 1) (W := ewmaFrom ((w - 1) / 2) w)
    (fun n e x y _ h i h1 h2 => by rw [one_mul]; exact ewmaFrom_near hw h i h1 h2) (h1.mono (Nat.zero_le _) le_rfl) (by norm_num)
  rwa [one_mul] at this

end Smooth

namespace Momentum

/-- C99: the difference of two averages. -/
theorem macd_stable {short long : ℕ} (hs : 1 ≤ short) (hl : 1 ≤ long) : Stable 2 (fun n => max short long ≤ n) fun x => macd x short long :=
  stable_of (k := max short long - 1) (((Lip.ewma hs).mono (by omega) le_rfl |>.sub ((Lip.ewma hl).mono (by omega) le_rfl)).mono le_rfl (by norm_num))
    fun d hd hn => macd_reports d short long hs hl hn hd

/-- C99 -/
theorem apo_stable {short long : ℕ} (hs : 1 ≤ short) (hl : 1 ≤ long) : Stable 2 (fun n => max short long ≤ n) fun x => apo x short long :=
  stable_of (k := max short long - 1) (((Lip.ewma hs).mono (by omega) le_rfl |>.sub ((Lip.ewma hl).mono (by omega) le_rfl)).mono le_rfl (by norm_num))
    fun d hd hn => apo_reports d short long hs hl hn hd

end Momentum

namespace Distribution
variable {w : ℕ}

theorem lip_recent {L : ℝ} {g : List ℝ → ℝ} {f : List XF → Option (List XF)} {ok : ℕ → Prop} (hw : 1 ≤ w)
    (hg : ∀ (e : ℝ) (l m : List ℝ), 0 ≤ e → l.length = w → NearL e l m → |g l - g m| ≤ L * e)
    (h : ∀ data, Fins data → ok data.length → Reports data.length (w - 1) (fun i => g (recent (vals data) w i)) (f data)) : Stable L ok f :=
  stable_of (Lip.of_window hw hg) fun d hd hn => (h d hd hn).congr fun i h1 h2 => by
    rw [lastOf_bar (by omega) (by simpa using h2)]

/-- C99: the standard deviation changes by no more than the error. -/
theorem std_dev_stable (hw : 1 ≤ w) : Stable 1 (fun n => w ≤ n + 1) fun x => std_dev x w :=
  lip_recent hw (fun e l m e0 hl h => by rw [one_mul]; exact stdDev_stable h (by rintro rfl; simp at hl; omega) e0)
    fun d hd hn => std_dev_reports d w hw hn hd

/-- C99: the mean absolute deviation changes by at most twice the error. -/
theorem mad_stable (hw : 1 ≤ w) : Stable 2 (fun n => w ≤ n + 1) fun x => mad x w :=
  lip_recent hw (fun e l m _ hl h => meanAbsDev_stable h (by rintro rfl; simp at hl; omega)) fun d hd hn => mad_reports d w hw hn hd

/-- C99 -/
theorem median_stable (hw : 1 ≤ w) (hw' : w ≤ 2 ^ 53) : Stable 1 (fun n => w ≤ n + 1) fun x => median x w :=
  lip_recent hw (g := fun l => (orderStat l ((w - 1) / 2) + orderStat l (w / 2)) / 2) (fun e l m _ hl h => by
    have a := orderStat_stable h (k := (w - 1) / 2) (by omega)
    have b := orderStat_stable h (k := w / 2) (by omega)
    rw [one_mul]
    rw [abs_le] at *
    constructor <;> linarith) fun d hd hn => median_reports d w hw hw' hn hd

/-- C99 -/
theorem quantile_stable (q : XF) {r : ℝ} (hq : q ⇓ r) (hw : 1 ≤ w) (hw' : w ≤ 2 ^ 53) : Stable 1 (fun n => w ≤ n + 1) fun x => quantile x w q :=
  lip_recent hw (g := fun l => quantileOf l ((w - 1 : ℕ) * (max 0 (min r 100) / 100))) (fun e l m e0 hl h => by
    set p := ((w - 1 : ℕ) : ℝ) * (max 0 (min r 100) / 100) with hp
    have c0 : 0 ≤ max 0 (min r 100) / 100 := div_nonneg (le_max_left _ _) (by norm_num)
    have c1 : max 0 (min r 100) / 100 ≤ 1 := by
      rw [div_le_one (by norm_num)]
      exact max_le (by norm_num) (min_le_right _ _)
    have p0 : 0 ≤ p := mul_nonneg (by positivity) c0
    have p1 : p ≤ (w - 1 : ℕ) := mul_le_of_le_one_right (by positivity) c1
    have k1 : ⌊p⌋₊ ≤ w - 1 := Nat.floor_le_of_le p1
    have f0 := Int.fract_nonneg p
    have f1 := (Int.fract_lt_one p).le
    have a := orderStat_stable h (k := ⌊p⌋₊) (by omega)
    rw [one_mul]
    simp only [quantileOf]
    by_cases hk : ⌊p⌋₊ + 1 < l.length
    · have b := orderStat_stable h hk
      rw [show ∀ s t s' t' f : ℝ, s * (1 - f) + t * f - (s' * (1 - f) + t' * f) = (s - s') * (1 - f) + (t - t') * f from fun s t s' t' f => by ring]
      refine (abs_add_le _ _).trans ?_
      rw [abs_mul, abs_mul, abs_of_nonneg f0, abs_of_nonneg (by linarith : 0 ≤ 1 - Int.fract p)]
      nlinarith
    · have z : ∀ u : List ℝ, u.length = w → orderStat u (⌊p⌋₊ + 1) = 0 := fun u hu => by
        rw [orderStat, List.getElem?_eq_none (by rw [List.length_insertionSort]; omega)]; rfl
      rw [z l hl, z m (by rw [← h.length_eq]; exact hl), zero_mul, add_zero, add_zero, ← sub_mul, abs_mul,
        abs_of_nonneg (by linarith : 0 ≤ 1 - Int.fract p)]
      nlinarith [abs_nonneg (orderStat l ⌊p⌋₊ - orderStat m ⌊p⌋₊)]) fun d hd hn => quantile_reports d w q r hq hw hw' hn hd

end Distribution

/-! ## Bars -/

theorem trueRangeOf_stable {h l p h' l' p' e : ℝ} (hh : |h - h'| ≤ e) (hl : |l - l'| ≤ e) (hp : |p - p'| ≤ e) :
    |trueRangeOf h l p - trueRangeOf h' l' p'| ≤ 2 * e := by
  have a : ∀ {x y x' y' : ℝ}, |x - x'| ≤ e → |y - y'| ≤ e → |(x - y) - (x' - y')| ≤ 2 * e := fun {x y x' y'} h1 h2 => by
    rw [abs_le] at *
    constructor <;> linarith
  rw [trueRangeOf, trueRangeOf]
  refine (abs_max_sub_max_le_max _ _ _ _).trans (max_le (a hh hl) ((abs_max_sub_max_le_max _ _ _ _).trans (max_le ?_ ?_)))
  · exact (abs_abs_sub_abs_le _ _).trans (a hh hp)
  · exact (abs_abs_sub_abs_le _ _).trans (a hl hp)

section Bars
variable {e : ℝ} {high low close high' low' close' : List XF} (oh : Off e high high') (ol : Off e low low') (oc : Off e close close')
  (el : low.length = high.length) (ec : close.length = high.length)
include oh ol oc el ec

theorem trAt_stable (i : ℕ) (hi : i < high.length) : |trAt (vals high) (vals low) (vals close) i - trAt (vals high') (vals low') (vals close') i| ≤ 2 * e :=
  trueRangeOf_stable (oh.bar hi) (ol.bar (by omega)) (oc.bar (by omega))

theorem atr_near_stable {w : ℕ} (hw : 1 ≤ w) (i : ℕ) (h1 : w ≤ i) (hi : i < high.length) :
    |wilderFrom 1 w (trAt (vals high) (vals low) (vals close)) i - wilderFrom 1 w (trAt (vals high') (vals low') (vals close')) i| ≤ 2 * e :=
  wilderFrom_near hw (fun j _ hj => trAt_stable oh ol oc el ec j hj) i (by omega) hi

end Bars

namespace Volatility
variable {w : ℕ}

/-- C99: the true range, a difference of two prices. -/
theorem tr_stable : Stable₃ 2 (fun n => 1 ≤ n) tr := by
  intro e h l c h' l' c' oh ol oc el ec hn
  have r : ∀ {h l c : List XF}, Fins h → Fins l → Fins c → l.length = h.length → c.length = h.length → 1 ≤ h.length →
      Reports h.length 1 (trAt (vals h) (vals l) (vals c)) (tr h l c) := fun fh fl fc el ec hn => by
    obtain ⟨t, et, -, rt⟩ := trueRange_values el ec hn fh fl fc
    run_model [tr, et]
    exact rt
  have r' := r oh.fins_right ol.fins_right oc.fins_right (by rw [ol.len, oh.len, el]) (by rw [oc.len, oh.len, ec]) (by rw [oh.len]; exact hn)
  rw [oh.len] at r'
  exact offN_of (r oh.fins_left ol.fins_left oc.fins_left el ec hn) r' fun i _ hi => trAt_stable oh ol oc el ec i hi

/-- C99 -/
theorem atr_stable (hw : 1 ≤ w) : Stable₃ 2 (fun n => w + 1 ≤ n) fun h l c => atr h l c w := by
  intro e h l c h' l' c' oh ol oc el ec hn
  have r' := atr_values (w := w) (high := h') (low := l') (close := c') (by rw [ol.len, oh.len, el]) (by rw [oc.len, oh.len, ec]) hw
    (by rw [oh.len]; exact hn) oh.fins_right ol.fins_right oc.fins_right
  rw [oh.len] at r'
  exact offN_of (atr_values el ec hw hn oh.fins_left ol.fins_left oc.fins_left) r' fun i h1 hi => atr_near_stable oh ol oc el ec hw i h1 hi

/-- C99 -/
theorem typical_stable (hw : 1 ≤ w) : Stable₃ 1 (fun n => w ≤ n + 1) fun h l c => typical h l c w := by
  intro e h l c h' l' c' oh ol oc el ec hn
  have r' := typical_reports h' l' c' w hw (by rw [oh.len]; exact hn) (by rw [ol.len, oh.len, el]) (by rw [oc.len, oh.len, ec])
    oh.fins_right ol.fins_right oc.fins_right
  rw [oh.len] at r'
  refine offN_of (typical_reports h l c w hw hn el ec oh.fins_left ol.fins_left oc.fins_left) r' fun i h1 hi => ?_
  rw [one_mul]
  refine mean_lastOf_near (k := 0) (n := h.length) hw (fun j _ hj => ?_) i (by omega) hi
  have a := oh.bar hj
  have b := ol.bar (i := j) (by omega)
  have d := oc.bar (i := j) (by omega)
  rw [abs_le] at *
  constructor <;> linarith

/-- C99 -/
theorem wcp_stable : Stable₃ 1 (fun _ => True) fun h l c => some (wcp h l c) := by
  intro e h l c h' l' c' oh ol oc el ec _
  have r' := wcp_reports h' l' c' (by rw [ol.len, oh.len, el]) (by rw [oc.len, oh.len, ec]) oh.fins_right ol.fins_right oc.fins_right
  rw [oh.len] at r'
  refine offN_of (wcp_reports h l c el ec oh.fins_left ol.fins_left oc.fins_left) r' fun i h1 hi => ?_
  have a := oh.bar hi
  have b := ol.bar (i := i) (by omega)
  have d := oc.bar (i := i) (by omega)
  rw [one_mul]
  rw [abs_le] at *
  constructor <;> linarith

theorem nearL_recent {e : ℝ} {x y : List XF} (h : Off e x y) {i : ℕ} (h1 : w ≤ i + 1) (h2 : i < x.length) :
    NearL e (recent (vals x) w i) (recent (vals y) w i) := by
  rw [← lastOf_bar h1 (by simpa using h2), ← lastOf_bar h1 (by simpa [h.len] using h2)]
  exact lastOf_forall₂ (k := 0) (n := x.length) (fun j _ hj => h.bar hj) (by omega) h2

theorem recent_ne_nil' {x : List XF} (hw : 1 ≤ w) {i : ℕ} (h1 : w ≤ i + 1) (h2 : i < x.length) : recent (vals x) w i ≠ [] := by
  have := recent_length (l := vals x) h1 (by simpa using h2)
  rw [← List.length_pos_iff]; omega

/-- C99: all three lines of Donchian's channel. -/
theorem donchian_stable {e : ℝ} {high low high' low' : List XF} (oh : Off e high high') (ol : Off e low low') (el : low.length = high.length)
    (hw : 1 ≤ w) (hn : w ≤ high.length + 1) : ∃ a b, donchian high low w = some a ∧ donchian high' low' w = some b ∧ b.length = a.length ∧
      ∀ i p q, w ≤ i + 1 → a[i]? = some p → b[i]? = some q → Apart e p.1 q.1 ∧ Apart e p.2.1 q.2.1 ∧ Apart e p.2.2 q.2.2 := by
  obtain ⟨a, ea, la, va⟩ := donchian_contains high low w el hw hn oh.fins_left ol.fins_left
  obtain ⟨b, eb, lb, vb⟩ := donchian_contains high' low' w (by rw [ol.len, oh.len, el]) hw (by rw [oh.len]; exact hn) oh.fins_right ol.fins_right
  rw [oh.len] at lb
  refine ⟨a, b, ea, eb, by omega, fun i p q hi hp hq => ?_⟩
  obtain ⟨u, m, d, i1, i2, i3, b1, m1, b2, m2, rfl⟩ := va i p (by omega) hp
  obtain ⟨u', m', d', j1, j2, j3, c1, n1, c2, n2, rfl⟩ := vb i q (by omega) hq
  have hin : i < high.length := by have := (List.getElem?_eq_some_iff.1 hp).1; omega
  have h1 := maxOf_stable (nearL_recent oh hi hin) (recent_ne_nil' hw hi hin)
  have h2 := minOf_stable (nearL_recent ol hi (by omega)) (recent_ne_nil' hw hi (by omega))
  rw [maxOf_eq m1 b1, maxOf_eq n1 c1] at h1
  rw [minOf_eq m2 b2, minOf_eq n2 c2] at h2
  refine ⟨⟨_, _, i1, j1, h1⟩, ⟨_, _, i2, j2, ?_⟩, ⟨_, _, i3, j3, h2⟩⟩
  rw [abs_le] at *
  constructor <;> linarith

/-- C99: the middle of Keltner's channel changes by at most the error, its bands by at most five times the error. -/
theorem keltner_stable {e : ℝ} {high low close high' low' close' : List XF} (oh : Off e high high') (ol : Off e low low')
    (oc : Off e close close') (el : low.length = high.length) (ec : close.length = high.length)
    (hw : 1 ≤ w) (hn : w + 1 ≤ high.length) : ∃ a b, keltner high low close w = some a ∧ keltner high' low' close' w = some b ∧ b.length = a.length ∧
      ∀ i p q, w ≤ i → a[i]? = some p → b[i]? = some q → Apart e p.1 q.1 ∧ Apart (5 * e) p.2.1 q.2.1 ∧ Apart (5 * e) p.2.2 q.2.2 := by
  have ev : ∀ {c : List XF}, Fins c → w ≤ c.length → ∀ i, w - 1 ≤ i → i < c.length → ewmaOf w (vals c) i = ewmaFrom 0 w (bar (vals c)) i :=
    fun {c} fc hc i h1 h2 => by
      have := ewmaOf_eq (k := 0) (l := vals c) (v := bar (vals c)) (n := c.length) hw
        (fun j hj => by simp [bar, vals, hj]) hc i h1 h2
      rwa [Nat.zero_add] at this
  have e' : low'.length = high'.length := by rw [ol.len, oh.len, el]
  have e'' : close'.length = high'.length := by rw [oc.len, oh.len, ec]
  have hn' : w + 1 ≤ high'.length := by rw [oh.len]; exact hn
  obtain ⟨a, ea, la, va⟩ := keltner_bands high low close w el ec hw hn oh.fins_left ol.fins_left oc.fins_left
  obtain ⟨b, eb, lb, vb⟩ := keltner_bands high' low' close' w e' e'' hw hn' oh.fins_right ol.fins_right oc.fins_right
  have lh := oh.len
  refine ⟨a, b, ea, eb, by omega, fun i p q hi hp hq => ?_⟩
  have hin : i < high.length := by have := (List.getElem?_eq_some_iff.1 hp).1; omega
  obtain ⟨m, t, i1, i2, i3, -, rfl, et⟩ := va i p (by omega) hp
  obtain ⟨m', t', j1, j2, j3, -, rfl, et'⟩ := vb i q (by omega) hq
  have h1 : |ewmaOf w (vals close) i - ewmaOf w (vals close') i| ≤ e := by
    rw [ev oc.fins_left (by omega) i (by omega) (by omega), ev oc.fins_right (by omega) i (by omega) (by omega)]
    exact ewmaFrom_near hw (k := 0) (n := close.length) (fun j _ hj => oc.bar hj) i (by omega) (by omega)
  have h2 : |t - t'| ≤ 2 * e := by
    have s1 := (atr_reports high low close w el ec hw hn oh.fins_left ol.fins_left oc.fins_left).shows hi hin
    have s2 := (atr_values el ec hw hn oh.fins_left ol.fins_left oc.fins_left).shows hi hin
    have s3 := (atr_reports high' low' close' w e' e'' hw hn' oh.fins_right ol.fins_right oc.fins_right).shows hi (by omega)
    have s4 := (atr_values e' e'' hw hn' oh.fins_right ol.fins_right oc.fins_right).shows hi (by omega)
    rw [et, et', s1.unique s2, s3.unique s4]
    exact atr_near_stable oh ol oc el ec hw i hi hin
  refine ⟨⟨_, _, i1, j1, h1⟩, ⟨_, _, i2, j2, ?_⟩, ⟨_, _, i3, j3, ?_⟩⟩ <;>
  · rw [abs_le] at *
    constructor <;> linarith

/-- C99: Bollinger's bands at two standard deviations: the middle changes by at most the error, the bands by at most three times the error. -/
theorem bbands_stable {e : ℝ} {x y : List XF} (h : Off e x y) (hw : 1 ≤ w) (hn : w ≤ x.length) :
    ∃ a b, bbands x w none none = some a ∧ bbands y w none none = some b ∧ b.length = a.length ∧
      ∀ i p q, w ≤ i + 1 → a[i]? = some p → b[i]? = some q → Apart (3 * e) p.1 q.1 ∧ Apart e p.2.1 q.2.1 ∧ Apart (3 * e) p.2.2 q.2.2 := by
  have ev : ∀ {c : List XF}, Fins c → w ≤ c.length → ∀ i, w - 1 ≤ i → i < c.length → ewmaOf w (vals c) i = ewmaFrom 0 w (bar (vals c)) i :=
    fun {c} fc hc i h1 h2 => by
      have := ewmaOf_eq (k := 0) (l := vals c) (v := bar (vals c)) (n := c.length) hw
        (fun j hj => by simp [bar, vals, hj]) hc i h1 h2
      rwa [Nat.zero_add] at this
  obtain ⟨a, ea, la, va⟩ := bbands_default x w hw hn h.fins_left
  obtain ⟨b, eb, lb, vb⟩ := bbands_default y w hw (by rw [h.len]; exact hn) h.fins_right
  have lh := h.len
  refine ⟨a, b, ea, eb, by omega, fun i p q hi hp hq => ?_⟩
  have hin : i < x.length := by have := (List.getElem?_eq_some_iff.1 hp).1; omega
  obtain ⟨i1, i2, i3⟩ := va i p (by omega) hp
  obtain ⟨j1, j2, j3⟩ := vb i q (by omega) hq
  have h1 : |ewmaOf w (vals x) i - ewmaOf w (vals y) i| ≤ e := by
    rw [ev h.fins_left (by omega) i (by omega) (by omega), ev h.fins_right (by omega) i (by omega) (by omega)]
    exact ewmaFrom_near hw (k := 0) (n := x.length) (fun j _ hj => h.bar hj) i (by omega) (by omega)
  have h2 := stdDev_stable (nearL_recent h hi hin) (recent_ne_nil' hw hi hin) (h.nonneg (by omega))
  refine ⟨⟨_, _, i2, j2, ?_⟩, ⟨_, _, i1, j1, h1⟩, ⟨_, _, i3, j3, ?_⟩⟩ <;>
  · rw [abs_le] at *
    constructor <;> linarith

end Volatility

/-! ## The bounds are met, and not every statistic has one -/

theorem off_fin {e : ℝ} {l m : List ℝ} (h : NearL e l m) : Off e (l.map (fin : ℝ → XF)) (m.map fin) := by
  rw [Off, List.forall₂_map_left_iff, List.forall₂_map_right_iff]
  exact h.imp fun a b hab => ⟨a, b, is_fin a, is_fin b, hab⟩

/-- C99: no multiple of the error bounds the change of the variance. -/
theorem variance_not_stable (L : ℝ) : ¬ Stable L (fun n => 2 ≤ n + 1) fun x => Distribution.variance x 2 := by
  intro h
  set t : ℝ := 2 * |L| + 1
  obtain ⟨a, b, ea, eb, hab⟩ := h 1 ([0, t].map fin) ([0, t + 1].map fin) (off_fin (by simp [NearL])) (by simp)
  have r1 := (Distribution.variance_reports ([0, t].map fin) 2 (by norm_num) (by simp) (fins_map_fin _)).shows (i := 1) (by norm_num) (by simp)
  have r2 := (Distribution.variance_reports ([0, t + 1].map fin) 2 (by norm_num) (by simp) (fins_map_fin _)).shows (i := 1) (by norm_num) (by simp)
  have v : ∀ s : ℝ, moment 2 (recent (vals ([0, s].map (fin : ℝ → XF))) 2 1) = s ^ 2 / 4 := fun s => by
    simp [moment, mean, recent, vals]; ring
  rw [v] at r1 r2
  obtain ⟨_, p, ea', hp, ip⟩ := r1
  obtain ⟨_, q, eb', hq, iq⟩ := r2
  cases Option.some.inj (ea.symm.trans ea')
  cases Option.some.inj (eb.symm.trans eb')
  have := (List.forall₂_iff_get.1 hab).2 1 (List.getElem?_eq_some_iff.1 hp).1 (List.getElem?_eq_some_iff.1 hq).1
  simp only [List.get_eq_getElem, (List.getElem?_eq_some_iff.1 hp).2, (List.getElem?_eq_some_iff.1 hq).2] at this
  rcases this with ⟨h1, -⟩ | ⟨r, s, h1, h2, h3⟩
  · rw [h1] at ip; exact ip.1.elim
  · rw [← h1.2, ← h2.2, ip.2, iq.2, mul_one] at h3
    have := (abs_le.1 h3).1
    have := le_abs_self L
    have := abs_nonneg L
    nlinarith

example : ∃ a b : List XF, Smooth.hull ([3, 1, 4, 1, 5].map fin) 4 = some a ∧ Smooth.hull ([3.1, 1, 3.9, 1.05, 5].map fin) 4 = some b ∧ OffN (3 * 0.1) a b :=
  Smooth.hull_stable (by norm_num) (by norm_num) 0.1 _ _ (off_fin (by simp only [NearL, List.forall₂_cons]; norm_num [abs_le])) (by simp)

example : ∃ a b : List XF, Distribution.std_dev ([3, 1, 4, 1, 5].map fin) 3 = some a ∧ Distribution.std_dev ([3.1, 1, 3.9, 1.05, 5].map fin) 3 = some b ∧
    OffN (1 * 0.1) a b :=
  Distribution.std_dev_stable (by norm_num) 0.1 _ _ (off_fin (by simp only [NearL, List.forall₂_cons]; norm_num [abs_le])) (by simp)

end Traquer
