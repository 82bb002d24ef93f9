import Verif.Arith.Float53
import Verif.Props.ScaleRange
import Verif.Props.ScaleVolatility
import Verif.Props.ScaleVolume
import Verif.Props.ScaleStats
import Verif.Props.TrendFormulas
/-!
# C78: a change of units, in one equation, with concrete cases
-/

namespace Traquer
open FP FloatLit
variable {ρ : Rounding} {k : ℝ} {n : ℤ}

/-- The series in the new units. -/
noncomputable def inUnits (k : ℝ) (l : List (FP ρ)) : List (FP ρ) := l.map (FP.scaled k)

theorem each_inUnits (l : List (FP ρ)) : Each (Scaled k 1) l (inUnits k l) := by
  induction l with
  | nil => exact .nil
  | cons x l ih => exact .cons (by simp [Scaled]) ih

theorem each_iff_map {l l' : List (FP ρ)} : Each (Scaled k n) l l' ↔ l' = l.map (FP.scaled (k ^ n)) := by
  constructor
  · intro h
    induction h with
    | nil => rfl
    | cons h _ ih => rw [List.map_cons, ← ih, ← h]
  · rintro rfl
    induction l with
    | nil => exact .nil
    | cons x l ih => exact .cons rfl ih

/-- `Alike` as an equation: the function of the converted data is the converted value of the function. -/
theorem alike_iff_map {o o' : Option (List (FP ρ))} : Alike (Each (Scaled k n)) o o' ↔ o' = o.map (List.map (FP.scaled (k ^ n))) := by
  constructor
  · rintro (_ | h)
    · rfl
    · rw [each_iff_map.1 h]; rfl
  · rintro rfl
    cases o
    · exact .panic
    · exact .answer (each_iff_map.2 rfl)

theorem Alike.prices {o o' : Option (List (FP ρ))} (h : Alike (Each (Scaled k 1)) o o') : o' = o.map (inUnits k) := by
  have := alike_iff_map.1 h
  rwa [zpow_one] at this

theorem Alike.numbers [ρ.Scales k] {o o' : Option (List (FP ρ))} (h : Alike (Each (Scaled k 0)) o o') : o' = o :=
  (Alike.eq_of (P := Each (Scaled k 0)) (fun _ _ h => each_zero.1 h) h).symm

section
variable [ρ.Scales k] (data high low close volume : List (FP ρ)) (window : ℕ)

/-- The moving average of prices in cents is the moving average in cents. -/
theorem sma_inUnits : Smooth.sma (inUnits k data) window = (Smooth.sma data window).map (inUnits k) :=
  (Smooth.sma_units (each_inUnits data) window).prices

/-- The relative strength index does not depend on the currency. -/
theorem rsi_inUnits : Momentum.rsi (inUnits k data) window = Momentum.rsi data window :=
  (Momentum.rsi_units (each_inUnits data) window).numbers

/-- The average true range is a price difference. -/
theorem atr_inUnits : Volatility.atr (inUnits k high) (inUnits k low) (inUnits k close) window
    = (Volatility.atr high low close window).map (inUnits k) :=
  (Volatility.atr_units (each_inUnits high) (each_inUnits low) (each_inUnits close) window).prices

end

/-! ## Concrete cases -/

/-- Real arithmetic, prices in cents. -/
example (data : List XF) (window : ℕ) : Smooth.sma (inUnits 100 data) window = (Smooth.sma data window).map (inUnits 100) :=
  have := scales_exact (k := 100) (by norm_num)
  sma_inUnits data window

/-- 53-bit arithmetic, prices after a 4:1 split. -/
example (data : List (FP .float53)) (window : ℕ) : Momentum.rsi (inUnits (2 ^ (-2 : ℤ)) data) window = Momentum.rsi data window :=
  have := scales_float53 (-2)
  rsi_inUnits data window

theorem withinMax_fin {l : List ℝ} (h : ∀ x ∈ l, |x| ≤ 1000) : WithinMax (l.map (fin : ℝ → XF)) := by
  rintro _ hx
  obtain ⟨x, hm, rfl⟩ := List.mem_map.1 hx
  have h1 := Smooth.f64Max_ge
  have h2 := abs_le.1 (h x hm)
  rw [is_le (is_neg is_maxValue) (is_fin x), is_le (is_fin x) is_maxValue]
  change _ ∧ decide (x ≤ Smooth.f64Max) = true
  change decide (-Smooth.f64Max ≤ x) = true ∧ _
  simp only [decide_eq_true_eq]
  constructor <;> linarith

theorem inUnits_fin (k : ℝ) (l : List ℝ) : inUnits k (l.map (fin : ℝ → FP ρ)) = (l.map (k * ·)).map fin := by
  simp [inUnits]

/-- The hypotheses of `frama_units` and `mic_units`. -/
example : Alike (Smooth.FramaAlike 2 1) (Smooth.frama ([1, 5, 2, 4, 3].map fin) 4) (Smooth.frama (inUnits 2 ([1, 5, 2, 4, 3].map fin)) 4) :=
  have := scales_exact (k := 2) (by norm_num)
  Smooth.frama_units (each_inUnits _) (withinMax_fin (by norm_num)) (by rw [inUnits_fin]; exact withinMax_fin (by norm_num)) 4

example (ho : Correlation.HashOrder) : Correlation.mic ho (([1, 5, 2, 4, 3].map fin : List XF)) ([2, 1, 5, 4, 3].map fin) 4 =
    Correlation.mic ho (inUnits 2 ([1, 5, 2, 4, 3].map fin)) (inUnits 2 ([2, 1, 5, 4, 3].map fin)) 4 :=
  have := scales_exact (k := 2) (by norm_num)
  Correlation.mic_units ho (each_inUnits _) (each_inUnits _) (withinMax_fin (by norm_num)) (by rw [inUnits_fin]; exact withinMax_fin (by norm_num))
    (withinMax_fin (by norm_num)) (by rw [inUnits_fin]; exact withinMax_fin (by norm_num)) 4

theorem eq_fin_of_is {x : FP ρ} {a : ℝ} (h : x ⇓ a) (ha : a ≠ 0) : x = fin a := by
  rcases is_iff.1 h with h | ⟨-, h⟩
  · exact h
  · exact absurd h ha

theorem hl2_fin {l : List ℝ} (h : ∀ x ∈ l, x ≠ 0) : Momentum.hl2 (l.map (fin : ℝ → XF)) (l.map fin) = l.map fin := by
  rw [Momentum.hl2, List.zip_map', List.map_map]
  refine List.map_congr_left fun x hx => eq_fin_of_is ((is_div (is_add (is_fin x) (is_fin x)) (is_lit 2) (by norm_num)).congr ?_) (h x hx)
  show (x + x) / 2 = x
  ring

theorem ranging_fin (k : ℝ) (hk : 1 ≤ k) : Momentum.Ranging ([k * 1, k * 2, k * 4].map (fin : ℝ → XF)) ([k * 1, k * 2, k * 4].map fin) 2 := by
  intro w hw
  rw [hl2_fin (by simp; linarith)] at hw
  have e : windowsOf 2 ([k * 1, k * 2, k * 4].map (fin : ℝ → XF)) = [[fin (k * 1), fin (k * 2)], [fin (k * 2), fin (k * 4)]] := by
    rfl
  rw [e] at hw
  have key : ∀ a b : ℝ, k * 1 ≤ a → a + k ≤ b → (0.000001 <=. (([fin a, fin b] : List XF).foldl fmax 0 - ([fin a, fin b] : List XF).foldl fmin nan)) = true := by
    intro a b ha hb
    have h1 : ([fin a, fin b] : List XF).foldl fmax 0 ⇓ max (max 0 a) b := is_fmax (is_fmax is_zero (is_fin a)) (is_fin b)
    have h2 : ([fin a, fin b] : List XF).foldl fmin nan ⇓ min a b := is_fmin (is_fin a) (is_fin b)
    rw [is_le (is_sci 1 true 6) (is_sub h1 h2), decide_eq_true_eq, min_eq_left (by linarith), max_eq_right (a := 0) (by linarith), max_eq_right (by linarith)]
    norm_num
    linarith
  rcases List.mem_cons.1 hw with rfl | hw
  · exact key _ _ (by linarith) (by linarith)
  · rw [List.mem_singleton.1 hw]
    exact key _ _ (by linarith) (by linarith)

/-- The hypotheses of `fisher_units`. -/
example : Momentum.fisher (([1, 2, 4].map fin : List XF)) ([1, 2, 4].map fin) 2 =
    Momentum.fisher (inUnits 3 ([1, 2, 4].map fin)) (inUnits 3 ([1, 2, 4].map fin)) 2 :=
  have := scales_exact (k := 3) (by norm_num)
  Momentum.fisher_units (each_inUnits _) (each_inUnits _) 2 (by rw [hl2_fin (by norm_num)]; exact withinMax_fin (by norm_num))
    (by rw [inUnits_fin, hl2_fin (by norm_num)]; exact withinMax_fin (by norm_num))
    (by simpa using ranging_fin 1 (by norm_num)) (by simpa [inUnits] using ranging_fin 3 (by norm_num))

theorem cks_below (k : ℝ) (hk : 1 ≤ k) (hk' : k ≤ 10) (out : List (XF × XF))
    (h : Trend.cks ([k * 3, k * 5].map fin) ([k * 1, k * 2].map fin) ([k * 2, k * 5].map fin) 1 1 none = some out) : ∀ y ∈ out, y.2 ≠ maxValue := by
  obtain ⟨out', e, hlen, hi⟩ := Trend.cks_reports ([k * 3, k * 5].map fin) ([k * 1, k * 2].map fin) ([k * 2, k * 5].map fin) 1 1 none (c := 1) rfl rfl
    (by decide) (by decide) (by simp) (fins_map_fin _) (fins_map_fin _) (fins_map_fin _) is_one
  obtain rfl : out = out' := by rw [h] at e; exact Option.some.inj e
  intro y hy
  obtain ⟨i, hil, rfl⟩ := List.mem_iff_getElem.1 hy
  simp only [List.length_map] at hlen
  rcases i with _ | _ | i
  · rw [Trend.cks_eq] at h
    simp only [usub, le_refl, if_true, Option.bind_some] at h
    obtain ⟨ws, -, h⟩ := Option.bind_eq_some_iff.1 h
    have := Option.some.inj h
    subst this
    intro hm
    have := (toE_maxValue (ρ := .exact)).1
    rw [← hm] at this
    cases this
  · have := (hi 1 _ (by decide) (List.getElem?_eq_getElem hil)).2
    intro hm
    rw [hm] at this
    have e1 := this.val_eq.symm.trans is_maxValue.val_eq
    have hM := Smooth.f64Max_ge
    change _ = Smooth.f64Max at e1
    simp [lastOf, Trend.exitShort, minOf, recent, wilderFrom, mean, trAt, trueRangeOf, bar] at e1
    rw [abs_of_nonneg (by linarith), max_self] at e1
    linarith
  · simp at hlen; omega

/-- The hypotheses of `cks_units`. -/
example : Alike (Each (Both (Scaled 7 1) (Scaled 7 1))) (Trend.cks (([3, 5].map fin : List XF)) ([1, 2].map fin) ([2, 5].map fin) 1 1 none)
    (Trend.cks (inUnits 7 ([3, 5].map fin)) (inUnits 7 ([1, 2].map fin)) (inUnits 7 ([2, 5].map fin)) 1 1 none) :=
  have := scales_exact (k := 7) (by norm_num)
  Trend.cks_units (each_inUnits _) (each_inUnits _) (each_inUnits _) 1 1 none
    (fun out h => cks_below 1 (by norm_num) (by norm_num) out (by simpa using h))
    (fun out h => cks_below 7 (by norm_num) (by norm_num) out (by simpa [inUnits] using h))

example := Volatility.gri_units (k := 5) (hk := scales_exact (by norm_num)) (each_inUnits ([3, 5, 4].map fin)) (each_inUnits ([1, 2, 2].map fin)) 2 (by norm_num)

/-- The hypothesis of `skew_units`. -/
example : (3 / 2 : XF) = fin (3 / 2) := eq_fin_of_is (is_div (is_lit 3) (is_lit 2) (by norm_num)) (by norm_num)

end Traquer
