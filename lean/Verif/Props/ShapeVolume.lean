import Verif.Props.ShapeSmooth
import Verif.Model.Volume
/-!
# C05, C07: one output per bar and warm-up of the volume indicators
-/

namespace Traquer.Volume
open FloatLit
variable {F : Type} [FloatOps F]

omit [FloatOps F] in
theorem tailBars_yields (high low close volume : List F) (hl : low.length = high.length)
    (hc : close.length = high.length) (hv : volume.length = high.length) (hn : 1 ≤ high.length) :
    Yields (high.length - 1) (tailBars high low close volume) :=
  ⟨_, by run_model [tailBars]; rfl, by simp; omega⟩

theorem vforce_yields (high low close volume : List F) (hl : low.length = high.length)
    (hc : close.length = high.length) (hv : volume.length = high.length) (hn : 1 ≤ high.length) :
    Yields (high.length - 1) (vforce high low close volume) := by
  obtain ⟨b, eb, lb⟩ := tailBars_yields high low close volume hl hc hv hn
  exact ⟨_, by run_model [vforce, eb, getElem?_of_lt]; rfl, by simp; omega⟩

theorem vforce_alt_yields (high low close volume : List F) (hl : low.length = high.length)
    (hc : close.length = high.length) (hv : volume.length = high.length) (hn : 1 ≤ high.length) :
    Yields (high.length - 1) (vforce_alt high low close volume) := by
  obtain ⟨b, eb, lb⟩ := tailBars_yields high low close volume hl hc hv hn
  exact ⟨_, by run_model [vforce_alt, eb, getElem?_of_lt]; rfl, by simp; omega⟩

/-- C05/C07 -/
theorem kvo_aligned (high low close volume : List F) (short long : Nat) (alt : Option Bool)
    (hl : low.length = high.length) (hc : close.length = high.length)
    (hv : volume.length = high.length) (hs : 1 ≤ short) (hlo : 1 ≤ long)
    (hn : max short long < high.length) :
    Aligned high.length (max short long) (kvo high low close volume short long alt) := by
  have : ∃ vf : List F, vf.length = high.length - 1 ∧ kvo high low close volume short long alt =
      (Smooth.ewma vf short).bind fun s => (Smooth.ewma vf long).bind fun l =>
        some (nan :: (s.zip l).map fun (x, y) => x - y) := by
    cases h : alt.getD true
    · obtain ⟨vf, ev, lv⟩ := vforce_yields _ _ _ _ hl hc hv (by omega)
      exact ⟨vf, lv, by simp [kvo, h, ev]⟩
    · obtain ⟨vf, ev, lv⟩ := vforce_alt_yields _ _ _ _ hl hc hv (by omega)
      exact ⟨vf, lv, by simp [kvo, h, ev]⟩
  obtain ⟨vf, lv, ev⟩ := this
  obtain ⟨a, ea, la, -, wa⟩ := Smooth.ewma_aligned vf short hs (by omega)
  obtain ⟨b, eb, lb, -, wb⟩ := Smooth.ewma_aligned vf long hlo (by omega)
  refine ⟨_, by run_model [ev, ea, eb]; rfl, by simp; omega, by omega, fun hF => ?_⟩
  apply warmUp_cons
  rcases Nat.le_total short long with h | h
  · refine (warmUp_zip_right (wb hF) ?_).mono (by omega)
    intros; nanp
  · refine (warmUp_zip_left (wa hF) ?_).mono (by omega)
    intros; nanp

theorem wilder_sum_yields (data : List F) (window : Nat) (hw : 1 ≤ window)
    (hn : window ≤ data.length + 1) :
    Yields (data.length + 1 - window) (wilder_sum data window) :=
  ⟨_, by run_model [wilder_sum]; rfl, by simp; omega⟩

/-- C05/C07 -/
theorem twiggs_aligned (high low close volume : List F) (window : Nat) (hl : low.length = high.length)
    (hc : close.length = high.length) (hv : volume.length = high.length) (hw : 1 ≤ window)
    (hn : window ≤ high.length) :
    Aligned high.length window (twiggs high low close volume window) := by
  obtain ⟨b, eb, lb⟩ := tailBars_yields high low close volume hl hc hv (by omega)
  obtain ⟨r, er, lr⟩ := wilder_sum_yields (scan twiggsStep close[0] b) window hw (by simp; omega)
  obtain ⟨v, ev, lv⟩ := wilder_sum_yields (volume.drop 1) window hw (by simp; omega)
  simp at lr lv
  run_model [twiggs, eb, getElem?_of_lt, er, ev]
  exact aligned_of_nans (by simp; omega) (by omega)

/-- C05/C07 -/
theorem ad_aligned (high low close volume : List F) (alt : Option Bool) (hl : low.length = high.length)
    (hc : close.length = high.length) (hv : volume.length = high.length) (hn : 1 ≤ high.length) :
    Aligned high.length (if alt.getD false then 1 else 0) (ad high low close volume alt) := by
  obtain ⟨b, eb, lb⟩ := tailBars_yields high low close volume hl hc hv (by omega)
  cases h : alt.getD false
  · simp only [ad, h, Bool.not_false, if_true, Bool.false_eq_true, if_false]
    exact aligned_zero (by simp; omega)
  · simp only [ad, h, Bool.not_true, Bool.false_eq_true, if_false, if_true]
    run_model [eb, getElem?_of_lt]
    exact aligned_of_nan (by simp; omega) (by omega)

/-- C05/C07 -/
theorem elder_force_aligned (close volume : List F) (window : Nat) (hv : volume.length = close.length)
    (hw : 1 ≤ window) (hn : window < close.length) :
    Aligned close.length window (elder_force close volume window) := by
  obtain ⟨r, er, lr, -, wr⟩ := Smooth.ewma_aligned
    ((zip3 (close.take (close.length - 1)) (close.drop 1) (volume.drop 1)).map
      fun (prev, curr, vol) => (curr - prev) * vol) window hw (by simp; omega)
  refine ⟨_, by run_model [elder_force]; erw [er]; rfl, by simp at *; omega, by omega, fun hF => ?_⟩
  exact warmUp_cons (wr hF)

/-- C05/C07 -/
theorem mfi_aligned (high low close volume : List F) (window : Nat) (hl : low.length = high.length)
    (hc : close.length = high.length) (hv : volume.length = high.length) (hw : 1 ≤ window)
    (hn : window ≤ high.length) :
    Aligned high.length window (mfi high low close volume window) := by
  obtain ⟨b, eb, lb⟩ := tailBars_yields high low close volume hl hc hv (by omega)
  run_model [mfi, eb, getElem?_of_lt]
  exact aligned_of_nans (by simp; omega) (by omega)

/-- C05/C07 -/
theorem cmf_aligned (high low close volume : List F) (window : Nat) (hl : low.length = high.length)
    (hc : close.length = high.length) (hv : volume.length = high.length) (hw : 1 ≤ window)
    (hn : window ≤ high.length + 1) :
    Aligned high.length (window - 1) (cmf high low close volume window) := by
  run_model [cmf]
  exact aligned_of_nans (by simp; omega) (by omega)

/-- C05/C07 -/
theorem tvi_aligned (close volume : List F) (minTick : F) (hv : volume.length = close.length)
    (hn : 1 ≤ close.length) : Aligned close.length 1 (tvi close volume minTick) := by
  run_model [tvi]
  exact aligned_of_nan (by simp; omega) (by omega)

/-- C05/C07 -/
theorem ease_aligned (high low volume : List F) (window : Nat) (hl : low.length = high.length)
    (hv : volume.length = high.length) (hw : 1 ≤ window) (hn : window ≤ high.length) :
    Aligned high.length window (ease high low volume window) := by
  have : ∃ r, mapP (fun i => (do
      let h ← high[i]?
      let l ← low[i]?
      let hp ← high[i - 1]?
      let lp ← low[i - 1]?
      let v ← volume[i]?
      some ((h + l - hp - lp) / 2 / (v / 100000000 / (h - l))) : Option F))
      ((List.range high.length).drop 1) = some r := by
    apply mapP_isSome
    intro i hi
    rw [mem_range_drop] at hi
    simp (disch := omega) only [getElem?_of_lt, Option.bind_eq_bind, Option.bind_some,
      Option.isSome_some]
  obtain ⟨r, hr⟩ := this
  have lr := mapP_length hr
  simp at lr
  obtain ⟨m, em, lm, -, wm⟩ := Smooth.sma_aligned r window hw (by omega)
  refine ⟨nan :: m, by unfold ease; rw [hr]; run_model [em], by simp; omega, hn, fun hF => ?_⟩
  exact warmUp_cons (wm hF)

/-- C05/C07 -/
theorem obv_aligned (close volume : List F) (hv : volume.length = close.length)
    (hn : 1 ≤ close.length) : Aligned close.length 1 (obv close volume) := by
  have : ∃ r, scanM (fun (state : F) ((i, p) : Nat × (F × F)) => (do
      let v ← volume[i + 1]?
      let s := state + signum (p.2 - p.1) * v
      some (s, s) : Option (F × F))) 0 ((List.range (pairs close).length).zip (pairs close)) = some r := by
    apply scanM_isSome
    rintro s ⟨i, p⟩ hx
    have := (List.of_mem_zip hx).1
    simp at this
    simp (disch := omega) only [getElem?_of_lt, Option.bind_eq_bind, Option.bind_some,
      Option.isSome_some]
  obtain ⟨r, hr⟩ := this
  have lr := scanM_length hr
  simp at lr
  unfold obv
  rw [hr, Option.bind_eq_bind, Option.bind_some]
  exact aligned_of_nan (by omega) (by omega)

/-- C05 -/
theorem bw_mfi_length (high low volume : List F) (hl : low.length = high.length)
    (hv : volume.length = high.length) : (bw_mfi high low volume).length = high.length := by
  simp [bw_mfi]; omega

/-- C05/C07 -/
theorem pvi_aligned (data volume : List F) (hv : volume.length = data.length) (hn : 1 ≤ data.length) :
    Aligned data.length 1 (some (pvi data volume)) :=
  aligned_of_nan (by simp; omega) (by omega)

/-- C05/C07 -/
theorem nvi_aligned (data volume : List F) (hv : volume.length = data.length) (hn : 1 ≤ data.length) :
    Aligned data.length 1 (some (nvi data volume)) :=
  aligned_of_nan (by simp; omega) (by omega)

theorem vwapStep_isSome (s : VwapState F) (x : Nat × Bar F) (h : s.resets ≠ []) :
    ∃ s' y, vwapStep s x = some (s', y) ∧ s'.resets ≠ [] := by
  unfold vwapStep
  cases hs : s.resets with
  | nil => exact absurd hs h
  | cons r rs =>
    by_cases hr : x.1 = r
    · exact ⟨_, _, by simp only [hr, if_true]; rfl, by simp⟩
    · exact ⟨_, _, by simp only [if_neg hr]; rfl, by simp⟩

/-- C05. `reset_idx` must not be an empty list. -/
theorem vwap_aligned (high low close volume : List F) (resetIdx : Option (List Nat))
    (hl : low.length = high.length) (hc : close.length = high.length)
    (hv : volume.length = high.length) (hr : resetIdx ≠ some []) :
    Aligned high.length 0 (vwap high low close volume resetIdx) := by
  obtain ⟨o, ho⟩ := scanM_isSome_of_inv (f := vwapStep (F := F)) (I := fun s => s.resets ≠ [])
    (l := (List.range (zip4 high low close volume).length).zip (zip4 high low close volume))
    (fun s x _ h => vwapStep_isSome s x h)
    (s := { tpv := 0, vol := 0, resets := resetIdx.getD [close.length] }) (by
      cases resetIdx with
      | none => simp
      | some l => simp_all)
  have lo := scanM_length ho
  unfold vwap
  simp only [ho]
  exact aligned_zero (by simp at lo; omega)

/-- C05/C07 -/
theorem vwma_aligned (data volume : List F) (window : Nat) (hv : volume.length = data.length)
    (hw : 1 ≤ window) (hn : window ≤ data.length + 1) :
    Aligned data.length (window - 1) (vwma data volume window) := by
  run_model [vwma]
  exact aligned_of_nans (by simp; omega) (by omega)

/-- C05/C07 -/
theorem vpt_aligned (data volume : List F) (hv : volume.length = data.length) (hn : 1 ≤ data.length) :
    Aligned data.length 1 (vpt data volume) := by
  run_model [vpt]
  exact aligned_of_nan (by simp; omega) (by omega)

/-! ## The hypotheses are met by ordinary calls -/

section
variable (a b c d e : F)
example : Aligned 5 3 (kvo [a, b, c, d, e] [b, c, d, e, a] [c, d, e, a, b] [d, e, a, b, c] 2 3 none) :=
  kvo_aligned _ _ _ _ _ _ _ rfl rfl rfl (by decide) (by decide) (by simp)
example : Aligned 5 3 (twiggs [a, b, c, d, e] [b, c, d, e, a] [c, d, e, a, b] [d, e, a, b, c] 3) :=
  twiggs_aligned _ _ _ _ _ rfl rfl rfl (by decide) (by simp)
example : Aligned 5 1 (ad [a, b, c, d, e] [b, c, d, e, a] [c, d, e, a, b] [d, e, a, b, c] (some true)) :=
  ad_aligned _ _ _ _ (some true) rfl rfl rfl (by simp)
example : Aligned 5 3 (elder_force [a, b, c, d, e] [b, c, d, e, a] 3) :=
  elder_force_aligned _ _ _ rfl (by decide) (by simp)
example : Aligned 5 3 (mfi [a, b, c, d, e] [b, c, d, e, a] [c, d, e, a, b] [d, e, a, b, c] 3) :=
  mfi_aligned _ _ _ _ _ rfl rfl rfl (by decide) (by simp)
example : Aligned 5 2 (cmf [a, b, c, d, e] [b, c, d, e, a] [c, d, e, a, b] [d, e, a, b, c] 3) :=
  cmf_aligned _ _ _ _ _ rfl rfl rfl (by decide) (by simp)
example : Aligned 5 1 (tvi [a, b, c, d, e] [b, c, d, e, a] a) := tvi_aligned _ _ _ rfl (by simp)
example : Aligned 5 3 (ease [a, b, c, d, e] [b, c, d, e, a] [c, d, e, a, b] 3) :=
  ease_aligned _ _ _ _ rfl rfl (by decide) (by simp)
example : Aligned 5 1 (obv [a, b, c, d, e] [b, c, d, e, a]) := obv_aligned _ _ rfl (by simp)
example : Aligned 5 1 (some (pvi [a, b, c, d, e] [b, c, d, e, a])) := pvi_aligned _ _ rfl (by simp)
example : Aligned 5 1 (some (nvi [a, b, c, d, e] [b, c, d, e, a])) := nvi_aligned _ _ rfl (by simp)
example : Aligned 5 0 (vwap [a, b, c, d, e] [b, c, d, e, a] [c, d, e, a, b] [d, e, a, b, c]
    (some [2, 4])) := vwap_aligned _ _ _ _ _ rfl rfl rfl (by simp)
example : Aligned 5 2 (vwma [a, b, c, d, e] [b, c, d, e, a] 3) :=
  vwma_aligned _ _ _ rfl (by decide) (by simp)
example : Aligned 5 1 (vpt [a, b, c, d, e] [b, c, d, e, a]) := vpt_aligned _ _ rfl (by simp)
end

end Traquer.Volume
