import Verif.Props.ShapeSmooth
import Verif.Model.Regression
import Verif.Model.Correlation
import Mathlib.Tactic.Ring
/-!
# C06, C07, C53: one output per bar and warm-up of statistics, forecast errors and correlations

The rank based ones (srcc, hoeffd) are in `Verif.Props.Rank`, the quantiles in `Verif.Props.Quantile`.
-/

namespace Traquer.Distribution
open FloatLit
variable {F : Type} [FloatOps F]

/-- C06/C07 -/
theorem variance_aligned (data : List F) (window : Nat) (hw : 1 ≤ window)
    (hn : window ≤ data.length + 1) : Aligned data.length (window - 1) (variance data window) := by
  run_model [variance]
  exact aligned_of_nans (by simp; omega) (by omega)

/-- C06/C07 -/
theorem std_dev_aligned (data : List F) (window : Nat) (hw : 1 ≤ window)
    (hn : window ≤ data.length + 1) : Aligned data.length (window - 1) (std_dev data window) := by
  run_model [std_dev, stdDevRaw]
  exact aligned_of_nans (by simp; omega) (by omega)

/-- C06/C07 -/
theorem zscore_aligned (data : List F) (window : Nat) (hw : 1 ≤ window)
    (hn : window ≤ data.length + 1) : Aligned data.length (window - 1) (zscore data window) := by
  run_model [zscore]
  refine aligned_mapP ?_ (by simp; omega) (by omega)
  intro x hx
  have := windowsOf_mem_length hx
  simp (disch := omega) only [getElem?_of_lt, Option.bind_some, Option.isSome_some]

/-- C06/C07 -/
theorem mad_aligned (data : List F) (window : Nat) (hw : 1 ≤ window)
    (hn : window ≤ data.length + 1) : Aligned data.length (window - 1) (mad data window) := by
  run_model [mad]
  exact aligned_of_nans (by simp; omega) (by omega)

/-- C06/C07 -/
theorem cv_aligned (data : List F) (window : Nat) (hw : 1 ≤ window)
    (hn : window ≤ data.length + 1) : Aligned data.length (window - 1) (cv data window) := by
  run_model [cv]
  exact aligned_of_nans (by simp; omega) (by omega)

/-- C06/C07 -/
theorem kurtosis_aligned (data : List F) (window : Nat) (hw : 3 ≤ window)
    (hn : window ≤ data.length + 1) : Aligned data.length (window - 1) (kurtosis data window) := by
  run_model [kurtosis]
  exact aligned_of_nans (by simp; omega) (by omega)

/-- C06/C07 -/
theorem skew_aligned (data : List F) (window : Nat) (hw : 2 ≤ window)
    (hn : window ≤ data.length + 1) : Aligned data.length (window - 1) (skew data window) := by
  run_model [skew]
  refine aligned_mapP ?_ (by simp; omega) (by omega)
  intro x hx
  simp

/-! ## The 8-bit counters of the entropies -/

theorem countU8_from (l : List Bool) (c : Nat) (hc : c ≤ 255) :
    l.foldlM addU8 c = if c + l.count true ≤ 255 then some (c + l.count true) else none := by
  induction l generalizing c with
  | nil => simp [hc]
  | cons b l ih =>
    rw [List.foldlM_cons]
    cases b
    · simp only [addU8, Bool.false_eq_true, if_false, Nat.add_zero, if_pos hc, Option.bind_eq_bind,
        Option.bind_some]
      rw [ih c hc]; simp
    · simp only [addU8, if_true]
      by_cases h : c + 1 ≤ 255
      · simp only [if_pos h, Option.bind_eq_bind, Option.bind_some]
        rw [ih (c + 1) h]
        simp [Nat.add_comm, Nat.add_left_comm]
      · simp only [if_neg h, Option.bind_eq_bind, Option.bind_none]
        rw [if_neg (by simp; omega)]

/-- C53: the counter is exact up to 255 matches and panics beyond. -/
theorem countU8_eq (l : List Bool) :
    countU8 l = if l.count true ≤ 255 then some (l.count true) else none := by
  rw [countU8, countU8_from l 0 (by omega)]; simp

theorem countU8_isSome {l : List Bool} (h : l.length ≤ 255) : ∃ c, countU8 l = some c := by
  rw [countU8_eq, if_pos (Nat.le_trans List.count_le_length h)]
  exact ⟨_, rfl⟩

theorem phi_isSome {ts : List F} {m : Nat} {tol : F} (h : m ≤ ts.length) (h2 : ts.length - m < 255) :
    ∃ y, phi ts m tol = some y := by
  obtain ⟨c, hc⟩ := mapP_isSome
    (f := fun i => countU8 ((List.range (ts.length - m + 1)).map (templMatch ts m tol i)))
    (l := List.range (ts.length - m + 1)) (by
      intro i _
      obtain ⟨c, hc⟩ := countU8_isSome (l := (List.range (ts.length - m + 1)).map (templMatch ts m tol i))
        (by simp; omega)
      simp [hc])
  exact ⟨_, by run_model [phi, hc]; rfl⟩

theorem ltPairs_length_le (n : Nat) : 2 * (ltPairs n).length ≤ n * (n - 1) := by
  have : (ltPairs n).length = ((List.range n).map fun i => n - (i + 1)).sum := by
    simp [ltPairs, List.length_flatMap]
  rw [this]
  have key : ∀ m k, 2 * ((List.range k).map fun i => m + k - (i + 1)).sum = 2 * m * k + k * (k - 1) := by
    intro m k
    induction k generalizing m with
    | zero => simp
    | succ k ih =>
      rw [List.range_succ, List.map_append, List.sum_append]
      have h1 : ((List.range k).map fun i => m + (k + 1) - (i + 1)) =
          (List.range k).map fun i => (m + 1) + k - (i + 1) := by
        apply List.map_congr_left; intro i _; omega
      rw [h1, Nat.mul_add, ih]
      simp
      cases k with
      | zero => simp
      | succ k => simp; ring
  have := key 0 n
  simp only [Nat.zero_add, Nat.mul_zero, Nat.zero_mul] at this
  exact this.le

theorem matchCount_isSome {ts : List F} {m : Nat} {tol : F} (h : m ≤ ts.length) (h2 : ts.length - m < 23) :
    ∃ y, matchCount ts m tol = some y := by
  have hl : ((ltPairs (ts.length - m + 1)).map fun p => templMatch ts m tol p.1 p.2).length ≤ 255 := by
    have := ltPairs_length_le (ts.length - m + 1)
    rw [List.length_map]
    have h3 : (ts.length - m + 1) * (ts.length - m + 1 - 1) ≤ 23 * 22 :=
      Nat.mul_le_mul (by omega) (by omega)
    omega
  obtain ⟨c, hc⟩ := countU8_isSome hl
  exact ⟨_, by run_model [matchCount, hc]; rfl⟩

theorem tolOr_isSome (data : List F) (tolerance : Option F) (h : tolerance ≠ none ∨ 1 ≤ data.length) :
    ∃ t, tolOr data tolerance = some t := by
  cases tolerance with
  | some t => exact ⟨t, rfl⟩
  | none =>
    have h : 1 ≤ data.length := by simpa using h
    have hg : ((windowsOf data.length data).map (stdDevWin data.length)).getLast?.isSome := by
      rw [List.getLast?_eq_getElem?]; simp
    obtain ⟨l, hl⟩ := Option.isSome_iff_exists.1 hg
    exact ⟨l * 0.2, by run_model [tolOr, stdDevRaw, hl]⟩

/-- C06/C07/C53. Up to 254 templates per window no content can overflow the counters. -/
theorem approx_entropy_aligned (data : List F) (window : Nat) (run : Option Nat) (tol : Option F)
    (hm : run.getD 2 + 1 ≤ window) (hw : window - run.getD 2 < 255)
    (hn : window ≤ data.length + 1) (ht : tol ≠ none ∨ 1 ≤ data.length) :
    Aligned data.length (window - 1) (approx_entropy data window run tol) := by
  obtain ⟨t, et⟩ := tolOr_isSome data tol ht
  run_model [approx_entropy, et]
  refine aligned_mapP ?_ (by simp; omega) (by omega)
  intro x hx
  have := windowsOf_mem_length hx
  obtain ⟨a, ha⟩ := phi_isSome (ts := x) (m := run.getD 2 + 1) (tol := t) (by omega) (by omega)
  obtain ⟨b, hb⟩ := phi_isSome (ts := x) (m := run.getD 2) (tol := t) (by omega) (by omega)
  simp [ha, hb]

/-- C06/C07/C53. Up to 23 templates (253 pairs) per window no content can overflow the counters. -/
theorem sample_entropy_aligned (data : List F) (window : Nat) (run : Option Nat) (tol : Option F)
    (hm : run.getD 2 + 1 ≤ window) (hw : window - run.getD 2 < 23)
    (hn : window ≤ data.length + 1) (ht : tol ≠ none ∨ 1 ≤ data.length) :
    Aligned data.length (window - 1) (sample_entropy data window run tol) := by
  obtain ⟨t, et⟩ := tolOr_isSome data tol ht
  run_model [sample_entropy, et]
  refine aligned_mapP ?_ (by simp; omega) (by omega)
  intro x hx
  have := windowsOf_mem_length hx
  obtain ⟨a, ha⟩ := matchCount_isSome (ts := x) (m := run.getD 2 + 1) (tol := t) (by omega) (by omega)
  obtain ⟨b, hb⟩ := matchCount_isSome (ts := x) (m := run.getD 2) (tol := t) (by omega) (by omega)
  simp [ha, hb]

section
variable (a b c d e : F)
example : Aligned 5 2 (variance [a, b, c, d, e] 3) := variance_aligned _ _ (by decide) (by simp)
example : Aligned 5 2 (std_dev [a, b, c, d, e] 3) := std_dev_aligned _ _ (by decide) (by simp)
example : Aligned 5 2 (zscore [a, b, c, d, e] 3) := zscore_aligned _ _ (by decide) (by simp)
example : Aligned 5 2 (mad [a, b, c, d, e] 3) := mad_aligned _ _ (by decide) (by simp)
example : Aligned 5 2 (cv [a, b, c, d, e] 3) := cv_aligned _ _ (by decide) (by simp)
example : Aligned 5 3 (kurtosis [a, b, c, d, e] 4) := kurtosis_aligned _ _ (by decide) (by simp)
example : Aligned 5 2 (skew [a, b, c, d, e] 3) := skew_aligned _ _ (by decide) (by simp)
example : Aligned 5 3 (approx_entropy [a, b, c, d, e] 4 none none) :=
  approx_entropy_aligned _ _ _ _ (by decide) (by decide) (by simp) (by simp)
example : Aligned 5 3 (sample_entropy [a, b, c, d, e] 4 none (some a)) :=
  sample_entropy_aligned _ _ _ _ (by decide) (by decide) (by simp) (by simp)
end

end Traquer.Distribution

namespace Traquer.Regression
open FloatLit
variable {F : Type} [FloatOps F]

theorem runningError_length (err fin : F → F → F) (data estimate : List F)
    (h : estimate.length = data.length) : (runningError err fin data estimate).length = data.length := by
  simp [runningError]; omega

/-- C06 -/
theorem mse_length (data estimate : List F) (h : estimate.length = data.length) :
    (mse data estimate).length = data.length := runningError_length _ _ _ _ h
/-- C06 -/
theorem rmse_length (data estimate : List F) (h : estimate.length = data.length) :
    (rmse data estimate).length = data.length := runningError_length _ _ _ _ h
/-- C06 -/
theorem mae_length (data estimate : List F) (h : estimate.length = data.length) :
    (mae data estimate).length = data.length := runningError_length _ _ _ _ h
/-- C06 -/
theorem mape_length (data estimate : List F) (h : estimate.length = data.length) :
    (mape data estimate).length = data.length := runningError_length _ _ _ _ h
/-- C06 -/
theorem smape_length (data estimate : List F) (h : estimate.length = data.length) :
    (smape data estimate).length = data.length := runningError_length _ _ _ _ h
/-- C06/C07 -/
theorem mda_aligned (data estimate : List F) (h : estimate.length = data.length)
    (hn : 1 ≤ data.length) : Aligned data.length 1 (mda data estimate) := by
  run_model [mda, getElem?_of_lt]
  exact aligned_of_nan (by simp; omega) (by omega)
/-- C06/C07 -/
theorem mase_aligned (data estimate : List F) (h : estimate.length = data.length)
    (hn : 1 ≤ data.length) : Aligned data.length 1 (some (mase data estimate)) := by
  refine aligned_of_nan ?_ (by omega)
  have := mae_length data estimate h
  simp [maeNaive]; omega
/-- C06 -/
theorem emae_length (data estimate : List F) (h : estimate.length = data.length) :
    (emae data estimate).length = data.length := by simp [emae]; omega

section
variable (a b c : F)
example : (mse [a, b, c] [c, b, a]).length = 3 := mse_length _ _ rfl
example : (rmse [a, b, c] [c, b, a]).length = 3 := rmse_length _ _ rfl
example : (mae [a, b, c] [c, b, a]).length = 3 := mae_length _ _ rfl
example : (mape [a, b, c] [c, b, a]).length = 3 := mape_length _ _ rfl
example : (smape [a, b, c] [c, b, a]).length = 3 := smape_length _ _ rfl
example : (emae [a, b, c] [c, b, a]).length = 3 := emae_length _ _ rfl
example : Aligned 3 1 (mda [a, b, c] [c, b, a]) := mda_aligned _ _ rfl (by simp)
example : Aligned 3 1 (some (mase [a, b, c] [c, b, a])) := mase_aligned _ _ rfl (by simp)
end

end Traquer.Regression

namespace Traquer.Correlation
open FloatLit
variable {F : Type} [FloatOps F]

/-- C06/C07 -/
theorem pcc_aligned (s1 s2 : List F) (window : Nat) (h : s2.length = s1.length) (hw : 1 ≤ window)
    (hn : window ≤ s1.length + 1) : Aligned s1.length (window - 1) (pcc s1 s2 window) := by
  run_model [pcc]
  exact aligned_of_nans (by simp; omega) (by omega)

/-- C06/C07 -/
theorem rsq_aligned (s1 s2 : List F) (window : Nat) (h : s2.length = s1.length) (hw : 1 ≤ window)
    (hn : window ≤ s1.length + 1) : Aligned s1.length (window - 1) (rsq s1 s2 window) := by
  obtain ⟨r, er, lr, hk, wr⟩ := pcc_aligned s1 s2 window h hw hn
  refine ⟨_, by run_model [rsq, er]; rfl, by simp [lr], hk, fun hF => ?_⟩
  apply warmUp_map (wr hF)
  intros; nanp

/-- C06/C07 -/
theorem beta_aligned (s1 s2 : List F) (window : Nat) (h : s2.length = s1.length) (hw : 1 ≤ window)
    (hn : 2 * (window - 1) < s1.length) :
    Aligned s1.length (2 * (window - 1) + 1) (beta s1 s2 window) := by
  have : ∃ cv, mapP (fun ((xw, yw) : List F × List F) => (do
      let sumX := fsum xw
      let sumY := fsum yw
      let xl ← xw[window - 1]?
      let yl ← yw[window - 1]?
      some ((xl - sumX / flt window) * (yl - sumY / flt window), powi (yl - sumY / flt window) 2)
        : Option (F × F))) ((windowsOf window (returns s1)).zip (windowsOf window (returns s2)))
      = some cv := by
    apply mapP_isSome
    rintro ⟨x, y⟩ hx
    obtain ⟨h1, h2⟩ := List.of_mem_zip hx
    have l1 := windowsOf_mem_length h1
    have l2 := windowsOf_mem_length h2
    simp (disch := omega) only [getElem?_of_lt, Option.bind_eq_bind, Option.bind_some,
      Option.isSome_some]
  obtain ⟨cv, hcv⟩ := this
  have lcv := mapP_length hcv
  simp [returns] at lcv
  run_model [beta]
  simp only [Option.bind_eq_bind] at hcv
  erw [hcv]
  rw [Option.bind_some]
  exact aligned_of_nans (by simp; omega) (by omega)

/-- C06/C07 -/
theorem perf_aligned (s1 s2 : List F) (window : Nat) (h : s2.length = s1.length) (hw : 1 ≤ window)
    (hn : window ≤ s1.length + 1) : Aligned s1.length (window - 1) (perf s1 s2 window) := by
  obtain ⟨a, ea, la, -, wa⟩ := Smooth.sma_aligned s1 window hw hn
  obtain ⟨b, eb, lb, -, -⟩ := Smooth.sma_aligned s2 window hw (by omega)
  refine ⟨_, by run_model [perf, ea, eb]; rfl, by simp; omega, by omega, fun hF => ?_⟩
  rw [zip4_eq]
  apply warmUp_map_of
  rintro i hi ⟨x, y, z, w⟩ hb
  simp only [List.getElem?_zip_eq_some] at hb
  have := warmUp_iff.1 (wa hF) i hi z hb.2.2.1
  nanp

/-- C06 -/
theorem rsc_length (s1 s2 : List F) (h : s2.length = s1.length) : (rsc s1 s2).length = s1.length := by
  simp [rsc, h]

theorem mem_ltPairs {n i j : Nat} : (i, j) ∈ Distribution.ltPairs n ↔ i < j ∧ j < n := by
  simp only [Distribution.ltPairs, List.mem_flatMap, List.mem_map, mem_range_drop, List.mem_range,
    Prod.mk.injEq]
  constructor
  · rintro ⟨a, _, b, hb, rfl, rfl⟩; omega
  · intro h; exact ⟨i, by omega, j, by omega, rfl, rfl⟩

theorem foldlM_isSome {α σ : Type} {f : σ → α → Option σ} {l : List α}
    (h : ∀ s, ∀ x ∈ l, (f s x).isSome) (s : σ) : ∃ o, l.foldlM f s = some o := by
  induction l generalizing s with
  | nil => exact ⟨s, rfl⟩
  | cons x l ih =>
    obtain ⟨y, hy⟩ := Option.isSome_iff_exists.1 (h s x (by simp))
    obtain ⟨o, ho⟩ := ih (fun s z hz => h s z (by simp [hz])) y
    exact ⟨o, by simp [List.foldlM_cons, hy, ho]⟩

theorem krccWin_isSome {window : Nat} {xw yw : List F} (hx : xw.length = window)
    (hy : yw.length = window) : ∃ v, krccWin window xw yw = some v := by
  obtain ⟨s, hs⟩ := foldlM_isSome (f := krccStep xw yw) (l := Distribution.ltPairs window) (by
    rintro s ⟨i, j⟩ hp
    rw [mem_ltPairs] at hp
    simp (disch := omega) only [krccStep, getElem?_of_lt, Option.bind_eq_bind, Option.bind_some,
      Option.isSome_some]) { nc := 0, xTie := 0, yTie := 0, xyTie := 0 }
  exact ⟨_, by run_model [krccWin, hs]; rfl⟩

/-- C06/C07 -/
theorem krcc_aligned (s1 s2 : List F) (window : Nat) (h : s2.length = s1.length) (hw : 1 ≤ window)
    (hn : window ≤ s1.length + 1) : Aligned s1.length (window - 1) (krcc s1 s2 window) := by
  run_model [krcc]
  refine aligned_mapP ?_ (by simp; omega) (by omega)
  rintro ⟨x, y⟩ hx
  obtain ⟨h1, h2⟩ := List.of_mem_zip hx
  obtain ⟨v, hv⟩ := krccWin_isSome (windowsOf_mem_length h1) (windowsOf_mem_length h2)
  simp [hv]

/-- C06/C07 -/
theorem dcor_aligned (s1 s2 : List F) (window : Nat) (h : s2.length = s1.length) (hw : 1 ≤ window)
    (hn : window ≤ s1.length + 1) : Aligned s1.length (window - 1) (dcor s1 s2 window) := by
  run_model [dcor]
  exact aligned_of_nans (by simp; omega) (by omega)

/-- C06/C07 -/
theorem mic_aligned (ho : HashOrder) (s1 s2 : List F) (window : Nat) (h : s2.length = s1.length)
    (hw : 1 ≤ window) (hn : window ≤ s1.length + 1) :
    Aligned s1.length (window - 1) (mic ho s1 s2 window) := by
  run_model [mic]
  exact aligned_of_nans (by simp; omega) (by omega)

section
variable (a b c d e : F)
example : Aligned 5 2 (pcc [a, b, c, d, e] [e, d, c, b, a] 3) := pcc_aligned _ _ _ rfl (by decide) (by simp)
example : Aligned 5 2 (rsq [a, b, c, d, e] [e, d, c, b, a] 3) := rsq_aligned _ _ _ rfl (by decide) (by simp)
example : Aligned 5 5 (beta [a, b, c, d, e] [e, d, c, b, a] 3) := beta_aligned _ _ _ rfl (by decide) (by simp)
example : Aligned 5 2 (perf [a, b, c, d, e] [e, d, c, b, a] 3) := perf_aligned _ _ _ rfl (by decide) (by simp)
example : Aligned 5 2 (krcc [a, b, c, d, e] [e, d, c, b, a] 3) := krcc_aligned _ _ _ rfl (by decide) (by simp)
example : Aligned 5 2 (dcor [a, b, c, d, e] [e, d, c, b, a] 3) := dcor_aligned _ _ _ rfl (by decide) (by simp)
example : Aligned 5 2 (mic (fun _ _ _ l => l) [a, b, c, d, e] [e, d, c, b, a] 3) :=
  mic_aligned _ _ _ _ rfl (by decide) (by simp)
end

end Traquer.Correlation
