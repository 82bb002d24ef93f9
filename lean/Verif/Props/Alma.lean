import Verif.Props.Adaptive2
import Verif.Props.SmoothWeights
/-!
# C27: alma
-/

namespace Traquer.Smooth
open FP FloatLit

/-- Gaussian weights for lags `0, …, w - 1` (lag 0 is the newest bar), centred at lag `m * (w - 1)`, of width `w / s`. -/
noncomputable def almaGauss (w : ℕ) (s m : ℝ) : List ℝ :=
  (List.range w).map fun (x : ℕ) => Real.exp (-((x : ℝ) - m * ((w : ℝ) - 1)) ^ 2 / (2 * ((w : ℝ) / s) ^ 2))

theorem almaWeights_is {w : ℕ} {sigma mu : XF} {s m : ℝ} (hw : 1 ≤ w) (hs : sigma ⇓ s) (h0 : s ≠ 0) (hm : mu ⇓ m) :
    Fins (almaWeights w sigma (mu * flt (w - 1))) ∧ vals (almaWeights w sigma (mu * flt (w - 1))) = almaGauss w s m := by
  refine fins_vals_map fun x _ => ?_
  have hwr : (w : ℝ) ≠ 0 := by positivity
  have q := is_exp (is_div (is_mul (is_neg is_one) (is_powi 2 (is_sub (is_flt x) (is_mul hm (is_flt (w - 1))))))
    (is_mul (is_lit 2) (is_powi 2 (is_div (is_flt w) hs h0))) (by positivity))
  refine q.congr ?_
  push_cast [hw]
  ring_nf

/-- The values alma reads at bar `i`: newest first. -/
theorem mapP_lags (data : List XF) (w i : ℕ) (h1 : w ≤ i + 1) (h2 : i < data.length) :
    mapP (fun idx => (usub i idx).bind fun p => data[p]?) (List.range w) = some (recent data w i).reverse := by
  have hlen := recent_length h1 h2
  rw [mapP_eq_some_iff]
  apply List.ext_getElem?
  intro k
  rw [List.getElem?_map, List.getElem?_map]
  by_cases hk : k < w
  · rw [List.getElem?_range hk, List.getElem?_reverse (by omega), hlen, recent, List.getElem?_take_of_lt (by omega),
      List.getElem?_drop, show i + 1 - w + (w - 1 - k) = i - k by omega]
    simp only [Option.map_some, usub_of_le (show k ≤ i by omega), Option.bind_some]
    rw [getElem?_of_lt (show i - k < data.length by omega)]
    rfl
  · rw [List.getElem?_eq_none (by simp; omega), List.getElem?_eq_none (by simp; omega)]
    rfl

/-- C27: `alma` is NaN for `w` bars (one more than the other averages) and then the mean of the last `w` values with
Gaussian weights centred `m * (w - 1)` bars back from the newest bar. -/
theorem alma_reports (data : List XF) (w : ℕ) (sigma : XF) (mu : Option XF) (s m : ℝ) (hw : 1 ≤ w) (hn : w ≤ data.length)
    (hs : sigma ⇓ s) (h0 : s ≠ 0) (hm : mu.getD 0.85 ⇓ m) (hd : Fins data) :
    Reports data.length w (fun i => weightedMean (almaGauss w s m) (recent (vals data) w i).reverse) (alma data w sigma mu) := by
  obtain ⟨f1, f2⟩ := almaWeights_is hw hs h0 hm
  obtain ⟨out, e, l, -⟩ := alma_aligned data w sigma mu hw hn
  run_at e [alma]
  obtain ⟨r, hr, e'⟩ := Option.bind_eq_some_iff.1 e
  cases e'
  have hr2 := mapP_length hr
  have hwl : (almaWeights w sigma (mu.getD 0.85 * flt (w - 1))).length = w := by simp [almaWeights]
  have goal : Reports data.length w (fun i => weightedMean (almaGauss w s m) (recent (vals data) w i).reverse)
      (some (nans w ++ r)) := by
    refine reports_nans (by simpa using l) fun j hj => ?_
    have hj' : w + j < data.length := by simp at hr2; omega
    have hg := mapP_getElem? hr j
    rw [List.getElem?_drop, List.getElem?_range hj', Option.bind_some, hwl, mapP_lags data w _ (by omega) hj',
      Option.bind_some] at hg
    refine ⟨_, hg, ?_⟩
    have hfr : Fins (recent data w (w + j)).reverse := fun x hx => hd.recent _ _ x (List.mem_reverse.1 hx)
    refine (weighted_div f1 hfr (by rw [hwl, List.length_reverse, recent_length (by omega) hj']) ?_).congr ?_
    · rw [f2]; exact (exp_sum_pos _ (by simp; omega)).ne'
    · rw [f2, ← recent_vals]; simp [vals, List.map_reverse]
  have e3 : alma data w sigma mu = some (nans w ++ r) := by
    run_model [alma]
    rw [hr]; rfl
  rw [e3]
  exact goal

/-- C27: the weights are positive, so alma stays between any bounds of its window. -/
theorem alma_convex (data : List XF) (w : ℕ) (sigma : XF) (mu : Option XF) (s m : ℝ) (hw : 1 ≤ w) (hn : w ≤ data.length)
    (hs : sigma ⇓ s) (h0 : s ≠ 0) (hm : mu.getD 0.85 ⇓ m) (hd : Fins data) :
    ∃ v, Reports data.length w v (alma data w sigma mu) ∧
      ∀ i, w ≤ i → i < data.length → ConvexComb (recent (vals data) w i).reverse (v i) := by
  refine ⟨_, alma_reports data w sigma mu s m hw hn hs h0 hm hd, fun i h1 h2 => ?_⟩
  refine convexComb_weightedMean ?_ (fun u hu => ?_) (exp_sum_pos _ (by simp; omega))
  · rw [List.length_reverse, recent_length (by omega) (by simpa using h2)]; simp [almaGauss]
  · obtain ⟨x, -, rfl⟩ := List.mem_map.1 hu
    exact (Real.exp_pos _).le

/-- A series of zeros with a single 1 at bar `p`. -/
noncomputable def impulse (n p : ℕ) : List ℝ := (List.range n).map fun j => if j = p then 1 else 0

theorem impulse_recent (n w i k : ℕ) (h1 : w ≤ i + 1) (h2 : i < n) (hk : k < w) :
    (recent (impulse n (i - k)) w i).reverse = (List.range w).map fun j => if j = k then (1 : ℝ) else 0 := by
  have hl : (recent (impulse n (i - k)) w i).length = w := recent_length h1 (by simpa [impulse] using h2)
  apply List.ext_getElem?
  intro j
  by_cases hj : j < w
  · rw [List.getElem?_reverse (by omega), hl, recent, List.getElem?_take_of_lt (by omega), List.getElem?_drop, impulse,
      List.getElem?_map, List.getElem?_map, List.getElem?_range hj, List.getElem?_range (by omega)]
    simp only [Option.map_some]
    congr 1
    have : (i + 1 - w + (w - 1 - j) = i - k) = (j = k) := by
      apply propext; omega
    simp [this]
  · rw [List.getElem?_eq_none (by simp; omega), List.getElem?_eq_none (by simp; omega)]

theorem weightedMean_impulse (g : ℕ → ℝ) (w k : ℕ) (hk : k < w) :
    weightedMean ((List.range w).map g) ((List.range w).map fun j => if j = k then (1 : ℝ) else 0) =
      g k / ((List.range w).map g).sum := by
  rw [weightedMean]
  congr 1
  rw [List.zip_map', List.map_map, sum_map_range]
  simp [Function.comp, hk]

/-- C27: with `mu` above one half a price `k` bars back counts less than the price `w - 1 - k` bars back, for every `k` in
the newer half of the window. In particular the newest price counts less than the oldest. -/
theorem alma_leans_old (n w i k : ℕ) (sigma : XF) (mu : Option XF) (s m : ℝ) (hs : sigma ⇓ s) (h0 : s ≠ 0)
    (hm : mu.getD 0.85 ⇓ m) (hmu : 1 / 2 < m) (hk : 2 * k + 1 < w) (h1 : w ≤ i) (h2 : i < n) :
    ∃ newer older, Reports n w newer (alma ((impulse n (i - k)).map (fin : ℝ → XF)) w sigma mu) ∧
      Reports n w older (alma ((impulse n (i - (w - 1 - k))).map (fin : ℝ → XF)) w sigma mu) ∧ newer i < older i := by
  have hw : 1 ≤ w := by omega
  have r (p : ℕ) := alma_reports ((impulse n p).map (fin : ℝ → XF)) w sigma mu s m hw (by simp [impulse]; omega) hs h0 hm (fins_map_fin _)
  simp only [List.length_map, vals_map_fin, show ∀ p, (impulse n p).length = n by simp [impulse]] at r
  refine ⟨_, _, r _, r _, ?_⟩
  rw [impulse_recent n w i k (by omega) h2 (by omega), impulse_recent n w i (w - 1 - k) (by omega) h2 (by omega), almaGauss,
    weightedMean_impulse _ _ _ (by omega), weightedMean_impulse _ _ _ (by omega)]
  have hpos := exp_sum_pos (fun (x : ℕ) => -((x : ℝ) - m * ((w : ℝ) - 1)) ^ 2 / (2 * ((w : ℝ) / s) ^ 2)) (l := List.range w) (by simp; omega)
  refine div_lt_div_of_pos_right (Real.exp_lt_exp.2 ?_) hpos
  have hwr : (0 : ℝ) < w := by positivity
  have hd : 0 < 2 * ((w : ℝ) / s) ^ 2 := by positivity
  refine div_lt_div_of_pos_right ?_ hd
  have c : ((w - 1 - k : ℕ) : ℝ) = (w : ℝ) - 1 - k := by
    rw [Nat.sub_sub, Nat.cast_sub (by omega)]; push_cast; ring
  rw [c]
  have hk' : 2 * (k : ℝ) + 1 < w := by exact_mod_cast hk
  have : 0 < ((w : ℝ) - 1) * (2 * m - 1) := by
    apply mul_pos <;> [skip; linarith]
    have : (0 : ℝ) ≤ k := by positivity
    linarith
  nlinarith

/-- With the default `mu` and a window of 5 the newest price counts less than the oldest. -/
example : ∃ newer older : ℕ → ℝ, Reports 6 5 newer (alma ((impulse 6 5).map (fin : ℝ → XF)) 5 6 none) ∧
    Reports 6 5 older (alma ((impulse 6 1).map (fin : ℝ → XF)) 5 6 none) ∧ newer 5 < older 5 :=
  alma_leans_old 6 5 5 0 6 none 6 0.85 (is_lit 6) (by norm_num) (is_sci 85 true 2) (by norm_num) (by decide) (by decide) (by decide)

end Traquer.Smooth
