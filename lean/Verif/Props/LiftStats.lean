import Verif.Props.LiftSmooth3
import Verif.Props.ScaleStats
/-!
# C82: all prices raised by the same amount, statistics
-/

namespace Traquer.Distribution
open FP FloatLit Traquer.Smooth
variable {c : ℝ} {data data' estimate estimate' : List XF}

theorem winMean_lift {w w' : List XF} {n : ℕ} (h : w.length = n ∧ Each (Lifted c 1) w w') (h0 : 0 < n) :
    Lifted c 1 (winMean w n) (winMean w' n) := .of_raised (raised_mean (each_raised.1 h.2) h.1 h0)

theorem powDev_lift {w w' : List XF} {m m' : XF} (h : Each (Lifted c 1) w w') (hm : Lifted c 1 m m') (p : ℕ) :
    powDev w m p = powDev w' m' p := by
  refine Lifted.eq (c := c) ?_
  lifts [powDev]

/-- The shape shared by all functions that report one number per window. -/
theorem windows_lift {j : ℤ} {f g : List XF → XF} (window k : ℕ) (h : Each (Lifted c 1) data data')
    (hf : 0 < window → ∀ w w', w.length = window ∧ Each (Lifted c 1) w w' → Lifted c j (f w) (g w')) :
    Alike (Each (Lifted c j)) ((windows window data).bind fun ws => some (nans k ++ ws.map f))
      ((windows window data').bind fun ws => some (nans k ++ ws.map g)) := by
  rcases Nat.eq_zero_or_pos window with rfl | hw
  · exact .panic
  exact Alike.bind (alike_windows_sized window h) fun ws ws' hws => .answer (each_append (lifted_each_nans _) (each_map hws (hf hw)))

/-- The variance does not change. -/
theorem variance_lift (h : Each (Lifted c 1) data data') (window : ℕ) :
    Alike (Each (Lifted c 0)) (variance data window) (variance data' window) := by
  simp only [variance, Option.bind_eq_bind]
  refine Alike.bind Alike.same (forall_eq_rel fun k => windows_lift window k h fun hw w w' g => ?_)
  rw [powDev_lift g.2 (winMean_lift g hw)]
  exact .lit

theorem stdDevWin_lift {n : ℕ} (hn : 0 < n) {w w' : List XF} (h : w.length = n ∧ Each (Lifted c 1) w w') : stdDevWin n w = stdDevWin n w' := by
  rw [stdDevWin, stdDevWin, powDev_lift h.2 (winMean_lift h hn)]

theorem stdDevRaw_lift (h : Each (Lifted c 1) data data') (window : ℕ) :
    Alike (Each (Lifted c 0)) (stdDevRaw data window) (stdDevRaw data' window) := by
  rcases Nat.eq_zero_or_pos window with rfl | hw
  · exact .panic
  simp only [stdDevRaw, Option.bind_eq_bind]
  exact Alike.bind (alike_windows_sized window h) fun ws ws' hws => .answer (each_map hws fun w w' g => .of_eq (stdDevWin_lift hw g))

lifts_rule stdDevRaw_lift

/-- The standard deviation does not change. -/
theorem std_dev_lift (h : Each (Lifted c 1) data data') (window : ℕ) :
    Alike (Each (Lifted c 0)) (std_dev data window) (std_dev data' window) := by
  lifts [std_dev]

lifts_rule std_dev_lift

/-- The z-score does not change. -/
theorem zscore_lift (h : Each (Lifted c 1) data data') (window : ℕ) :
    Alike (Each (Lifted c 0)) (zscore data window) (zscore data' window) := by
  rcases Nat.eq_zero_or_pos window with rfl | hw
  · exact .panic
  simp only [zscore, Option.bind_eq_bind]
  refine Alike.bind Alike.same (forall_eq_rel fun k => Alike.bind (alike_windows_sized window h) fun ws ws' hws =>
    Alike.bind (Alike.mapP (Q := Lifted c 0) hws fun w w' g => ?_) fun _ _ h => .answer (each_append (lifted_each_nans _) h))
  rw [powDev_lift g.2 (winMean_lift g hw)]
  exact Alike.bind (Alike.getElem? g.2 rfl) fun x y hx => .answer ((hx.sub (winMean_lift g hw) (by norm_num) (.inr (by norm_num))).div .lit)

/-- The mean absolute deviation does not change. -/
theorem mad_lift (h : Each (Lifted c 1) data data') (window : ℕ) :
    Alike (Each (Lifted c 0)) (mad data window) (mad data' window) := by
  simp only [mad, Option.bind_eq_bind]
  refine Alike.bind Alike.same (forall_eq_rel fun k => windows_lift window k h fun hw w w' g => ?_)
  have hm := winMean_lift g hw
  refine Lifted.div (foldl_rel (X := Lifted c 0) .lit g.2 fun s t hs x y hx => ?_) .lit
  exact hs.add (hx.sub hm (by norm_num) (.inr (by norm_num)) : Lifted c 0 _ _).fabs (by norm_num)

/-- The kurtosis does not change. -/
theorem kurtosis_lift (h : Each (Lifted c 1) data data') (window : ℕ) :
    Alike (Each (Lifted c 0)) (kurtosis data window) (kurtosis data' window) := by
  simp only [kurtosis, Option.bind_eq_bind]
  refine Alike.bind Alike.same (forall_eq_rel fun k => Alike.bind Alike.same (forall_eq_rel fun _ => Alike.bind Alike.same (forall_eq_rel fun _ => windows_lift window k h fun hw w w' g => ?_)))
  have hm := winMean_lift g hw
  rw [powDev_lift g.2 hm, powDev_lift g.2 hm]
  exact .lit

/-- The skew does not change. -/
theorem skew_lift (h : Each (Lifted c 1) data data') (window : ℕ) :
    Alike (Each (Lifted c 0)) (skew data window) (skew data' window) := by
  rcases Nat.eq_zero_or_pos window with rfl | hw
  · exact .panic
  simp only [skew, Option.bind_eq_bind]
  refine Alike.bind Alike.same (forall_eq_rel fun k => Alike.bind (alike_windows_sized window h) fun ws ws' hws =>
    Alike.bind (Alike.mapP (Q := Lifted c 0) hws fun w w' g => ?_) fun _ _ h => .answer (each_append (lifted_each_nans _) h))
  have hm := winMean_lift g hw
  rw [powDev_lift g.2 hm, powDev_lift g.2 hm]
  exact Alike.bind Alike.same (forall_eq_rel fun k => .answer .lit)

theorem templMatch_lift (h : Each (Lifted c 1) data data') (m : ℕ) (tol : XF) (i j : ℕ) :
    templMatch data m tol i j = templMatch data' m tol i j := by
  simp only [templMatch]
  have : Each (Lifted c 0) ((((data.drop i).take m).zip ((data.drop j).take m)).map fun p => fabs (p.1 - p.2))
      ((((data'.drop i).take m).zip ((data'.drop j).take m)).map fun p => fabs (p.1 - p.2)) :=
    each_map (each_zip (each_take _ (each_drop _ h)) (each_take _ (each_drop _ h))) fun _ _ h =>
      Lifted.fabs (h.1.sub h.2 (by norm_num) (.inr (by norm_num)))
  rw [lifted_each_zero.1 this]

theorem tolOr_lift (h : Each (Lifted c 1) data data') (tol : Option XF) : tolOr data tol = tolOr data' tol := by
  cases tol with
  | some t => rfl
  | none =>
    simp only [tolOr, Option.bind_eq_bind]
    have := stdDevRaw_lift h data.length
    rw [← h.length]
    generalize stdDevRaw data data.length = a at *
    generalize stdDevRaw data' data.length = b at *
    cases this with
    | panic => rfl
    | answer g => rw [lifted_each_zero.1 g]

/-- The approximate entropy does not change. -/
theorem approx_entropy_lift (h : Each (Lifted c 1) data data') (window : ℕ) (runLength : Option ℕ) (tolerance : Option XF) :
    Alike (Each (Lifted c 0)) (approx_entropy data window runLength tolerance) (approx_entropy data' window runLength tolerance) := by
  simp only [approx_entropy, Option.bind_eq_bind, tolOr_lift h]
  refine Alike.bind .same (forall_eq_rel fun t => Alike.bind .same (forall_eq_rel fun n => Alike.bind (.windows h) fun ws ws' hw =>
    Alike.bind (Alike.mapP (Q := Lifted c 0) hw fun w w' h => ?_) fun _ _ h => .answer (each_append (lifted_each_nans _) h)))
  have e : ∀ m, phi w m t = phi w' m t := by
    intro m
    have : ∀ i, templMatch w m t i = templMatch w' m t i := fun i => funext fun j => templMatch_lift h m t i j
    simp only [phi, h.length, this]
  rw [e, e]
  exact Alike.refl fun _ => .lit

/-- The sample entropy does not change. -/
theorem sample_entropy_lift (h : Each (Lifted c 1) data data') (window : ℕ) (runLength : Option ℕ) (tolerance : Option XF) :
    Alike (Each (Lifted c 0)) (sample_entropy data window runLength tolerance) (sample_entropy data' window runLength tolerance) := by
  simp only [sample_entropy, Option.bind_eq_bind, tolOr_lift h]
  refine Alike.bind .same (forall_eq_rel fun t => Alike.bind .same (forall_eq_rel fun n => Alike.bind (.windows h) fun ws ws' hw =>
    Alike.bind (Alike.mapP (Q := Lifted c 0) hw fun w w' h => ?_) fun _ _ h => .answer (each_append (lifted_each_nans _) h)))
  have e : ∀ m, matchCount w m t = matchCount w' m t := by
    intro m
    have : ∀ i j, templMatch w m t i j = templMatch w' m t i j := fun i j => templMatch_lift h m t i j
    simp only [matchCount, h.length, this]
  rw [e, e]
  exact Alike.refl fun _ => .lit

/-- A quantile rises with the prices. -/
theorem quantile_lift (h : Each (Lifted c 1) data data') (window : ℕ) {q : XF} {r : ℝ} (hq : q ⇓ r) :
    Alike (Each (Lifted c 1)) (quantile data window q) (quantile data' window q) := by
  simp only [quantile, quantileT, Option.bind_eq_bind]
  have hlt : ∀ x x' : XF, Lifted c 1 x x' → ∀ y y', Lifted c 1 y y' → (x <. y) = (x' <. y') := fun _ _ h _ _ g => h.lt g
  refine Alike.bind .same (forall_eq_rel fun n => Alike.bind (.windows h) fun ws ws' hw =>
    Alike.bind (Alike.mapP (Q := Lifted c 1) hw fun w w' h => ?_) fun _ _ h => .answer (each_append (lifted_each_nans _) h))
  have hp : (flt n * (clampLit q 0 100 / 100) : XF) ⇓ (n * (max 0 (min r 100) / 100) : ℝ) :=
    is_mul (is_flt _) (is_div (is_clampLit hq is_zero (is_lit 100) (by norm_num)) (is_lit 100) (by norm_num))
  have p0 : (0 : ℝ) ≤ n * (max 0 (min r 100) / 100) :=
    mul_nonneg (by positivity) (div_nonneg (le_max_left _ _) (by norm_num))
  generalize (n * (max 0 (min r 100) / 100) : ℝ) = p at hp p0
  by_cases hz : (fract (flt n * (clampLit q 0 100 / 100) : XF) ==. 0) = true
  · rw [if_pos hz, if_pos hz]
    exact Alike.bind (quickselect_rel hlt h _) fun _ _ hx => .answer hx.2
  · rw [if_neg hz, if_neg hz]
    rw [is_feq (is_fract hp p0) is_zero, decide_eq_true_eq] at hz
    have hf : 0 < Int.fract p := lt_of_le_of_ne (Int.fract_nonneg p) (Ne.symm hz)
    have hc : (⌈p⌉ : ℝ) = ⌊p⌋ + 1 := by
      have : ⌈p⌉ = ⌊p⌋ + 1 := by
        rw [Int.ceil_eq_iff]
        have h1 := Int.lt_floor_add_one p
        have : 0 < p - ⌊p⌋ := hf
        push_cast
        constructor <;> linarith
      rw [this]; push_cast; rfl
    have a1 : (⌈p⌉ : ℝ) - p > 0 := by rw [hc]; linarith [Int.lt_floor_add_one p]
    have a2 : p - (⌊p⌋ : ℝ) > 0 := hf
    have w1 : (ceil (flt n * (clampLit q 0 100 / 100)) - flt n * (clampLit q 0 100 / 100) : XF) = fin (⌈p⌉ - p) := by
      rcases is_iff.1 (is_sub (is_ceil hp) hp) with e | ⟨-, e⟩
      · exact e
      · exact absurd e a1.ne'
    have w2 : (flt n * (clampLit q 0 100 / 100) - floor (flt n * (clampLit q 0 100 / 100)) : XF) = fin (p - ⌊p⌋) := by
      rcases is_iff.1 (is_sub hp (is_floor hp)) with e | ⟨-, e⟩
      · exact e
      · exact absurd e a2.ne'
    rw [w1, w2]
    refine Alike.bind (quickselect_rel hlt h _) fun _ _ hx => Alike.bind (.sliceFrom hx.1 rfl) fun _ _ hr => .answer (.of_raised ?_)
    have u : Lifted c 1 _ _ := foldl_rel (X := Lifted c 1) (.nan (c := c)) hr fun _ _ hs _ _ hx => hs.fmin hx
    refine ((hx.2.raised.mul_pos a1).add (u.raised.mul_pos a2)).congr ?_
    rw [hc]; ring

/-- The median rises with the prices. -/
theorem median_lift (h : Each (Lifted c 1) data data') (window : ℕ) :
    Alike (Each (Lifted c 1)) (median data window) (median data' window) := quantile_lift h window (is_lit 50)

end Traquer.Distribution

namespace Traquer.Regression
open FP FloatLit
variable {c : ℝ} {data data' estimate estimate' : List XF}

theorem mse_lift (h0 : Each (Lifted c 1) data data') (h1 : Each (Lifted c 1) estimate estimate') :
    Each (Lifted c 0) (mse data estimate) (mse data' estimate') := by
  lifts [mse, runningError]

lifts_rule mse_lift

theorem rmse_lift (h0 : Each (Lifted c 1) data data') (h1 : Each (Lifted c 1) estimate estimate') :
    Each (Lifted c 0) (rmse data estimate) (rmse data' estimate') := by
  lifts [rmse, runningError]

theorem mae_lift (h0 : Each (Lifted c 1) data data') (h1 : Each (Lifted c 1) estimate estimate') :
    Each (Lifted c 0) (mae data estimate) (mae data' estimate') := by
  lifts [mae, runningError]

lifts_rule mae_lift

theorem mda_lift (h0 : Each (Lifted c 1) data data') (h1 : Each (Lifted c 1) estimate estimate') :
    Alike (Each (Lifted c 0)) (mda data estimate) (mda data' estimate') := by
  lifts [mda]

theorem maeNaive_lift (h0 : Each (Lifted c 1) data data') :
    Each (Lifted c 0) (maeNaive data) (maeNaive data') := by
  lifts [maeNaive]

lifts_rule maeNaive_lift

theorem mase_lift (h0 : Each (Lifted c 1) data data') (h1 : Each (Lifted c 1) estimate estimate') :
    Each (Lifted c 0) (mase data estimate) (mase data' estimate') := by
  lifts [mase]

end Traquer.Regression
