import Verif.Lemmas.Shape
import Verif.Lemmas.Pascal
import Verif.Model.Smooth
/-!
# C01, C07: one output per bar and warm-up of the moving averages
-/

namespace Traquer.Smooth
open FloatLit
open Traquer.Distribution (stdDevRaw)
variable {F : Type} [FloatOps F]

/-- C01/C07 -/
theorem ewma_aligned (data : List F) (window : Nat) (h : 1 ≤ window) (hn : window ≤ data.length) :
    Aligned data.length (window - 1) (ewma data window) := by
  refine ⟨_, by run_model [ewma]; rfl, ?_, by omega, fun _ => ?_⟩
  · simp; omega
  · exact warmUp_nans_append (by omega)

/-- C01/C07 -/
theorem sma_aligned (data : List F) (window : Nat) (h : 1 ≤ window) (hn : window ≤ data.length + 1) :
    Aligned data.length (window - 1) (sma data window) := by
  refine ⟨_, by run_model [sma]; rfl, ?_, by omega, fun _ => ?_⟩
  · simp; omega
  · exact warmUp_nans_append (by omega)

/-- C01/C07 -/
theorem dema_aligned (data : List F) (window : Nat) (h : 1 ≤ window)
    (hn : 2 * window - 1 ≤ data.length) :
    Aligned data.length (2 * (window - 1)) (dema data window) := by
  obtain ⟨ma, e1, l1, -, -⟩ := ewma_aligned data window h (by omega)
  obtain ⟨ma2, e2, l2, -, w2⟩ := ewma_aligned (ma.drop (window - 1)) window h (by simp; omega)
  simp at l2
  refine ⟨_, by run_model [dema, e1, e2]; rfl, ?_, by omega, fun hF => ?_⟩
  · simp; omega
  · refine warmUp_zip_right (warmUp_append ((w2 hF).mono (by omega))) ?_
    intros; nanp

/-- C01/C07 -/
theorem tema_aligned (data : List F) (window : Nat) (h : 1 ≤ window)
    (hn : 3 * window - 2 ≤ data.length) :
    Aligned data.length (3 * (window - 1)) (tema data window) := by
  obtain ⟨ma, e1, l1, -, -⟩ := ewma_aligned data window h (by omega)
  obtain ⟨ma2, e2, l2, -, w2⟩ := ewma_aligned (ma.drop (window - 1)) window h (by simp; omega)
  simp at l2
  obtain ⟨ma3, e3, l3, -, w3⟩ := ewma_aligned (ma2.drop (window - 1)) window h (by simp; omega)
  simp at l3
  refine ⟨_, by run_model [tema, e1, e2, e3]; rfl, ?_, by omega, fun hF => ?_⟩
  · simp; omega
  · rw [zip3_eq]
    apply warmUp_map_of
    rintro i hi ⟨x, y, z⟩ hb
    simp only [List.getElem?_zip_eq_some] at hb
    have := warmUp_iff.1 (warmUp_append (k := 3 * (window - 1)) (m := (window - 1) * 2)
      ((w3 hF).mono (by omega))) i hi z hb.2.2
    nanp

/-- C01/C07 -/
theorem wma_aligned (data : List F) (window : Nat) (h : 1 ≤ window) (hn : window ≤ data.length + 1) :
    Aligned data.length (window - 1) (wma data window) := by
  refine ⟨_, by run_model [wma]; rfl, ?_, by omega, fun _ => ?_⟩
  · simp; omega
  · exact warmUp_nans_append (by omega)

/-- C01/C07. From window 64 on the integer arithmetic overflows, see `pwma_panics_iff`. -/
theorem pwma_aligned (data : List F) (window : Nat) (h : 1 ≤ window) (hp : window ≤ 63)
    (hn : window ≤ data.length + 1) : Aligned data.length (window - 1) (pwma data window) := by
  refine ⟨_, by run_model [pwma, pascalRow_eq h hp]; rfl, ?_, by omega, fun _ => ?_⟩
  · simp; omega
  · exact warmUp_nans_append (by omega)

/-- C01/C07 -/
theorem fwma_aligned (data : List F) (window : Nat) (h : 2 ≤ window) (hn : window ≤ data.length + 1) :
    Aligned data.length (window - 1) (fwma data window) := by
  refine ⟨_, by run_model [fwma]; rfl, ?_, by omega, fun _ => ?_⟩
  · simp; omega
  · exact warmUp_nans_append (by omega)

/-- C01/C07 -/
theorem lrf_aligned (data : List F) (window : Nat) (h : 1 ≤ window) (hn : window ≤ data.length + 1) :
    Aligned data.length (window - 1) (lrf data window) := by
  refine ⟨_, by run_model [lrf]; rfl, ?_, by omega, fun _ => ?_⟩
  · simp; omega
  · exact warmUp_nans_append (by omega)

/-- C01/C07 -/
theorem wilder_aligned (data : List F) (window : Nat) (h : 1 ≤ window) (hn : window ≤ data.length + 1) :
    Aligned data.length (window - 1) (wilder data window) := by
  by_cases h1 : window = 1
  · subst h1
    exact ⟨data, by simp [wilder], rfl, by simp, fun _ => warmUp_zero _⟩
  · refine ⟨_, by run_model [wilder, if_neg h1]; rfl, ?_, by omega, fun _ => ?_⟩
    · simp; omega
    · exact warmUp_nans_append (by omega)

/-- The sma of a series that is NaN for its first `j` bars. -/
theorem sma_warmUp [NaNLaws F] {data out : List F} {window j : Nat} (hw : 1 ≤ window) (hd : WarmUp j data)
    (h : sma data window = some out) : WarmUp (j + (window - 1)) out := by
  simp (disch := omega) only [sma, usub_of_le, windows_of_pos, Option.bind_eq_bind, Option.bind_some,
    Option.some.injEq] at h
  subst h
  apply warmUp_append
  refine (warmUp_windows hd hw ?_).mono (by omega)
  intro win _ hx
  have := fsum_isNaN hx
  nanp

theorem dot_isNaN [NaNLaws F] {weights w : List F} (hl : w.length ≤ weights.length)
    (h : ∃ x ∈ w, isNaN x = true) : isNaN (dot weights w) = true := by
  apply fsum_isNaN
  obtain ⟨x, hx, hn⟩ := h
  obtain ⟨i, hi, rfl⟩ := List.getElem_of_mem hx
  refine ⟨w[i] * weights[i], ?_, by nanp⟩
  rw [List.mem_map]
  refine ⟨(w[i], weights[i]), ?_, rfl⟩
  rw [List.mem_iff_getElem?]
  exact ⟨i, by rw [List.getElem?_zip_eq_some]; simp [hi]⟩

/-- The wma of a series that is NaN for its first `j` bars. -/
theorem wma_warmUp [NaNLaws F] {data out : List F} {window j : Nat} (hw : 1 ≤ window) (hd : WarmUp j data)
    (h : wma data window = some out) : WarmUp (j + (window - 1)) out := by
  simp (disch := omega) only [wma, usub_of_le, windows_of_pos, Option.bind_eq_bind, Option.bind_some,
    Option.some.injEq] at h
  subst h
  apply warmUp_append
  refine (warmUp_windows hd hw ?_).mono (by omega)
  intro win hl hx
  exact dot_isNaN (by simp [wmaWeights, hl]) hx

/-- The lrf of a series that is NaN for its first `j` bars has at least the rolling-window warm-up. -/
theorem trima_aligned (data : List F) (window : Nat) (h : 1 ≤ window) (hn : window ≤ data.length + 1) :
    Aligned data.length (window - 1) (trima data window) := by
  have e1 : divCeil window 2 = (window + 1) / 2 := divCeil_two _
  obtain ⟨m, em, lm, -, wm⟩ := sma_aligned data ((window + 1) / 2) (by omega) (by omega)
  obtain ⟨out, eo, lo, -, -⟩ := sma_aligned m
    (if window % 2 = 0 then (window + 1) / 2 + 1 else (window + 1) / 2) (by split <;> omega)
    (by split <;> omega)
  refine ⟨out, by run_model [trima, e1, em]; exact eo, by omega, by omega, fun hF => ?_⟩
  refine (sma_warmUp (by split <;> omega) (wm hF) eo).mono ?_
  split <;> omega

/-- C01/C07. The last smoothing of hull has window `⌊√window⌋`, as computed in the float type. -/
theorem hull_aligned (data : List F) (window r : Nat) (h : 1 ≤ window)
    (hr : toUsize (floor (sqrt (flt window : F))) = r) (h1 : 1 ≤ r)
    (hn : window + r ≤ data.length + 2) :
    Aligned data.length (window - 1 + (r - 1)) (hull data window) := by
  have e1 : divCeil window 2 = (window + 1) / 2 := divCeil_two _
  obtain ⟨m, em, lm, -, wm⟩ := wma_aligned data window (by omega) (by omega)
  obtain ⟨m2, em2, lm2, -, -⟩ := wma_aligned data ((window + 1) / 2) (by omega) (by omega)
  obtain ⟨out, eo, lo, -, -⟩ := wma_aligned ((m2.zip m).map fun (x, y) => 2 * x - y) r h1
    (by simp; omega)
  refine ⟨out, ?_, by simp at lo; omega, by omega, fun hF => ?_⟩
  · run_model [hull, e1, em, em2, hr]; exact eo
  · refine wma_warmUp h1 ?_ eo
    refine warmUp_zip_right (wm hF) ?_
    intros; nanp

theorem cmoRaw_length (data : List F) (window : Nat) :
    Yields (max data.length 1 - window) (cmoRaw data window) := by
  obtain ⟨o, ho⟩ := mapP_isSome (f := fun w : List (F × F) => (do
    let first ← w[0]?
    let last ← w[w.length - 1]?
    let gain := last.1 - first.1
    let loss := last.2 - first.2
    some ((gain - loss) / (gain + loss)) : Option F))
    (l := windowsOf (window + 1) (gainLoss data)) (by
      intro x hx
      have := windowsOf_mem_length hx
      simp (disch := omega))
  refine ⟨o, by run_model [cmoRaw]; exact ho, ?_⟩
  rw [mapP_length ho]
  simp [gainLoss]; omega

/-- C01/C07. The volatility index of vma looks back 9 changes, so short windows start at bar 9. -/
theorem vma_aligned (data : List F) (window : Nat) (hn : max window 9 ≤ data.length) :
    Aligned data.length (max window 9) (vma data window) := by
  obtain ⟨vi, ev, lv⟩ := cmoRaw_length data 9
  refine ⟨_, by run_model [vma, ev]; rfl, ?_, by omega, fun _ => ?_⟩
  · simp; omega
  · exact warmUp_nans_append (by omega)

/-- C01/C07. vidya's warm-up does not depend on its window. -/
theorem vidya_aligned (data : List F) (window : Nat) (hn : 23 ≤ data.length) :
    Aligned data.length 23 (vidya data window) := by
  have e5 : stdDevRaw data 5 = some ((windowsOf 5 data).map (Distribution.stdDevWin 5)) := by
    run_model [stdDevRaw]
  obtain ⟨s20, e20, l20, -, -⟩ := sma_aligned ((windowsOf 5 data).map (Distribution.stdDevWin 5)) 20
    (by omega) (by simp; omega)
  simp at l20
  refine ⟨_, by run_model [vidya, e5, e20]; rfl, ?_, by omega, fun _ => ?_⟩
  · simp; omega
  · exact warmUp_nans_append (by omega)

/-- C01/C07 -/
theorem zlma_aligned (data : List F) (window : Nat) (h : 1 ≤ window)
    (hn : window + (window - 1) / 2 ≤ data.length) :
    Aligned data.length ((window - 1) / 2 + (window - 1)) (zlma data window) := by
  obtain ⟨r, er, lr, -, wr⟩ := ewma_aligned ((data.zip (data.drop ((window - 1) / 2))).map
    fun (prev, curr) => 2 * curr - prev) window h (by simp; omega)
  refine ⟨_, by run_model [zlma]; rw [er]; rfl, ?_, by omega, fun hF => ?_⟩
  · simp at lr ⊢; omega
  · exact warmUp_append ((wr hF).mono (by omega))

/-- C01. kernel has no warm-up. -/
theorem kernel_length (data : List F) (sigma : F) : (kernel data sigma).length = data.length := by
  simp [kernel]

theorem effRatio_isSome {x : List F} (h : 1 ≤ x.length) : ∃ y, effRatio x = some y := by
  refine ⟨_, by simp (disch := omega) only [effRatio, getElem?_of_lt, Option.bind_eq_bind, Option.bind_some]; rfl⟩

/-- C01/C07 -/
theorem kama_aligned (data : List F) (window : Nat) (short long : Option Nat) (h : 1 ≤ window)
    (hn : window ≤ data.length + 1) :
    Aligned data.length (window - 1) (kama data window short long) := by
  run_model [kama]
  refine aligned_scanM ?_ (by simp; omega) (by omega)
  intro s x hx
  have := windowsOf_mem_length hx
  obtain ⟨y, hy⟩ := effRatio_isSome (x := x) (by omega)
  simp (disch := omega) [hy]

/-- C01/C07. alma starts one bar later than a rolling window would allow. -/
theorem alma_aligned (data : List F) (window : Nat) (sigma : F) (mu : Option F) (h : 1 ≤ window)
    (hn : window ≤ data.length) :
    Aligned data.length window (alma data window sigma mu) := by
  run_model [alma]
  refine aligned_mapP ?_ (by simp; omega) (by omega)
  intro i hi
  rw [mem_range_drop] at hi
  obtain ⟨v, hv⟩ := mapP_isSome (f := fun idx => (usub i idx).bind fun p => data[p]?)
    (l := List.range (almaWeights window sigma (mu.getD 0.85 * flt (window - 1))).length) (by
      intro idx hidx
      simp [almaWeights] at hidx
      simp (disch := omega) [usub_of_le])
  simp only [hv, Option.bind_some, Option.isSome_some]

/-- C01. mdma has no warm-up. -/
theorem mdma_aligned (data : List F) (window : Nat) (hn : 1 ≤ data.length) :
    Aligned data.length 0 (mdma data window) := by
  run_model [mdma, getElem?_of_lt]
  exact aligned_zero (by simp; omega)

/-- C01. hwma has no warm-up. -/
theorem hwma_aligned (data : List F) (alpha beta gamma : Option F) (hn : 1 ≤ data.length) :
    Aligned data.length 0 (hwma data alpha beta gamma) := by
  run_model [hwma, getElem?_of_lt]
  exact aligned_zero (by simp)

/-- C01/C07 -/
theorem ssf_aligned (data : List F) (window : Nat) (poles : Option Bool) (hn : 3 ≤ data.length) :
    Aligned data.length (if poles.getD false then 3 else 2) (ssf data window poles) := by
  unfold ssf
  split
  · run_model [getElem?_of_lt]
    exact aligned_of_nans (by simp; omega) (by omega)
  · run_model [getElem?_of_lt]
    exact aligned_of_nans (by simp; omega) (by omega)

/-- C01/C07 -/
theorem t3_aligned (data : List F) (window : Nat) (factor : Option F) (h : 1 ≤ window)
    (hn : 6 * (window - 1) + 1 ≤ data.length) :
    Aligned data.length (6 * (window - 1)) (t3 data window factor) := by
  obtain ⟨m1, e1, l1, -, -⟩ := ewma_aligned data window h (by omega)
  obtain ⟨m2, e2, l2, -, -⟩ := ewma_aligned (m1.drop (window - 1)) window h (by simp; omega)
  simp at l2
  obtain ⟨m3, e3, l3, -, w3⟩ := ewma_aligned (m2.drop (window - 1)) window h (by simp; omega)
  simp at l3
  obtain ⟨m4, e4, l4, -, w4⟩ := ewma_aligned (m3.drop (window - 1)) window h (by simp; omega)
  simp at l4
  obtain ⟨m5, e5, l5, -, w5⟩ := ewma_aligned (m4.drop (window - 1)) window h (by simp; omega)
  simp at l5
  obtain ⟨m6, e6, l6, -, w6⟩ := ewma_aligned (m5.drop (window - 1)) window h (by simp; omega)
  simp at l6
  have s1 : sliceFrom m1 (window - 1) = some _ := sliceFrom_of_le (by omega)
  have s2 : sliceFrom m2 (window - 1) = some _ := sliceFrom_of_le (by omega)
  have s3 : sliceFrom m3 (window - 1) = some _ := sliceFrom_of_le (by omega)
  have s4 : sliceFrom m4 (window - 1) = some _ := sliceFrom_of_le (by omega)
  have s5 : sliceFrom m5 (window - 1) = some _ := sliceFrom_of_le (by omega)
  refine ⟨_, by simp only [t3, e1, e2, e3, e4, e5, e6, s1, s2, s3, s4, s5, usub_of_le h, Option.bind_eq_bind,
    Option.bind_some]; rfl, ?_, by omega, fun hF => ?_⟩
  · simp; omega
  · apply warmUp_append
    rw [zip4_eq]
    apply warmUp_map_of
    rintro i hi ⟨a, b, c, d⟩ hb
    simp only [List.getElem?_zip_eq_some] at hb
    have := warmUp_iff.1 (warmUp_append (k := 4 * (window - 1)) (m := (window - 1) * 3)
      ((w6 hF).mono (by omega))) i (by omega) d hb.2.2.2
    nanp

/-- C01/C07 -/
theorem frama_aligned (data : List F) (window : Nat) (h : 2 ≤ window) (he : window % 2 = 0)
    (hn : window ≤ data.length + 1) :
    ∃ out, frama data window = some (.ok out) ∧ Aligned data.length (window - 1) (some out) := by
  have hs : ∃ r, scanM (fun (state : F) (w : List F) => (do
      let last ← w.getLast?
      let state := framaAlpha window (window / 2) w * last
        + (1 - framaAlpha window (window / 2) w) * state
      some (state, state) : Option (F × F))) 0 (windowsOf window data) = some r := by
    apply scanM_isSome
    intro s x hx
    have := windowsOf_mem_length hx
    rw [List.getLast?_eq_getElem?]
    simp (disch := omega)
  obtain ⟨r, hr⟩ := hs
  have := scanM_length hr
  refine ⟨nans (window - 1) ++ r, ?_, aligned_of_nans (by simp at *; omega) (by omega)⟩
  run_model [frama, if_neg (show ¬ (window % 2 ≠ 0) by omega)]
  erw [hr]
  rfl

/-- C01/C07. Whenever mama answers, it answers for every bar (see `mama_ok` for why it does answer on
finite data). -/
theorem mama_length (data : List F) (fast slow : Option F) (out : List (F × F))
    (hn : 6 ≤ data.length) (h : mama data fast slow = some out) :
    Aligned2 data.length 6 6 (some out) := by
  simp only [mama, Option.bind_eq_bind, Option.bind_eq_some_iff, Option.some.injEq] at h
  obtain ⟨r, hr, rfl⟩ := h
  have := scanM_length hr
  exact aligned2_of_replicate (by simp at *; omega) (by omega)

/-- The number of leading NaN of `ma` by mode; `r` is the window of hull's last smoothing. -/
def maWarmUp (window r : Nat) : MaMode → Nat
  | .SMA | .EWMA | .WMA | .LinReg | .Pascal | .Triangle | .Wilder => window - 1
  | .DEMA => 2 * (window - 1)
  | .TEMA => 3 * (window - 1)
  | .Hull => window - 1 + (r - 1)
  | .Variable => max window 9
  | .Vidya => 23
  | .ZeroLag => (window - 1) / 2 + (window - 1)

/-- C01/C07: the dispatcher, for all thirteen modes. -/
theorem ma_aligned (data : List F) (window r : Nat) (mode : MaMode) (h : 1 ≤ window)
    (hr : toUsize (floor (sqrt (flt window : F))) = r) (h1 : 1 ≤ r) (hp : mode = .Pascal → window ≤ 63)
    (hn : maWarmUp window r mode < data.length) :
    Aligned data.length (maWarmUp window r mode) (ma data window mode) := by
  cases mode <;> simp only [maWarmUp, ma] at *
  · exact sma_aligned _ _ h (by omega)
  · exact ewma_aligned _ _ h (by omega)
  · exact dema_aligned _ _ h (by omega)
  · exact tema_aligned _ _ h (by omega)
  · exact wma_aligned _ _ h (by omega)
  · exact hull_aligned _ _ _ h hr h1 (by omega)
  · exact lrf_aligned _ _ h (by omega)
  · exact pwma_aligned _ _ h (hp trivial) (by omega)
  · exact trima_aligned _ _ h (by omega)
  · exact vma_aligned _ _ (by omega)
  · exact vidya_aligned _ _ (by omega)
  · exact wilder_aligned _ _ h (by omega)
  · exact zlma_aligned _ _ h (by omega)

/-! ## The hypotheses are met by ordinary calls -/

example (a b c d e : F) : Aligned 5 2 (sma [a, b, c, d, e] 3) := sma_aligned _ _ (by decide) (by simp)
example (a b c d e : F) : Aligned 5 2 (ewma [a, b, c, d, e] 3) := ewma_aligned _ _ (by decide) (by simp)
example (a b c d e : F) : Aligned 5 4 (dema [a, b, c, d, e] 3) := dema_aligned _ _ (by decide) (by simp)
example (a b c d e : F) : Aligned 5 3 (tema [a, b, c, d, e] 2) := tema_aligned _ _ (by decide) (by simp)
example (a b c d e : F) : Aligned 5 2 (wma [a, b, c, d, e] 3) := wma_aligned _ _ (by decide) (by simp)
example (a b c d e : F) : Aligned 5 2 (pwma [a, b, c, d, e] 3) := pwma_aligned _ _ (by decide) (by decide) (by simp)
example (a b c d e : F) : Aligned 5 2 (fwma [a, b, c, d, e] 3) := fwma_aligned _ _ (by decide) (by simp)
example (a b c d e : F) : Aligned 5 2 (lrf [a, b, c, d, e] 3) := lrf_aligned _ _ (by decide) (by simp)
example (a b c d e : F) : Aligned 5 2 (wilder [a, b, c, d, e] 3) := wilder_aligned _ _ (by decide) (by simp)
example (a b c d e : F) : Aligned 5 3 (trima [a, b, c, d, e] 4) := trima_aligned _ _ (by decide) (by simp)
example (a b c d e : F) (h : toUsize (floor (sqrt (flt 4 : F))) = 2) :
    Aligned 5 4 (hull [a, b, c, d, e] 4) := hull_aligned _ _ 2 (by decide) h (by decide) (by simp)
example (a b c d e : F) : Aligned 5 3 (zlma [a, b, c, d, e] 3) := zlma_aligned _ _ (by decide) (by simp)
example (a : F) : Aligned 40 12 (vma (List.replicate 40 a) 12) := by
  simpa using vma_aligned (List.replicate 40 a) 12 (by simp)
example (a : F) : Aligned 40 23 (vidya (List.replicate 40 a) 12) := by
  simpa using vidya_aligned (List.replicate 40 a) 12 (by simp)
example (a b c d e : F) : Aligned 5 2 (kama [a, b, c, d, e] 3 none none) :=
  kama_aligned _ _ _ _ (by decide) (by simp)
example (a b c d e s : F) : Aligned 5 3 (alma [a, b, c, d, e] 3 s none) :=
  alma_aligned _ _ _ _ (by decide) (by simp)
example (a b c : F) : Aligned 3 0 (mdma [a, b, c] 3) := mdma_aligned _ _ (by simp)
example (a b c : F) : Aligned 3 0 (hwma [a, b, c] none none none) := hwma_aligned _ _ _ _ (by simp)
example (a b c d e : F) : Aligned 5 3 (ssf [a, b, c, d, e] 3 (some true)) := ssf_aligned _ _ (some true) (by simp)
example (a b c d e f g : F) : Aligned 7 6 (t3 [a, b, c, d, e, f, g] 2 none) :=
  t3_aligned _ _ _ (by decide) (by simp)
example (a b c d e : F) : ∃ out, frama [a, b, c, d, e] 4 = some (.ok out) ∧ Aligned 5 3 (some out) :=
  frama_aligned _ _ (by decide) (by decide) (by simp)
example (a : F) (h : toUsize (floor (sqrt (flt 14 : F))) = 3) (mode : MaMode) :
    Aligned 60 (maWarmUp 14 3 mode) (ma (List.replicate 60 a) 14 mode) := by
  simpa using ma_aligned (List.replicate 60 a) 14 3 mode (by decide) h (by decide) (fun _ => by decide)
    (by cases mode <;> simp [maWarmUp])

end Traquer.Smooth
