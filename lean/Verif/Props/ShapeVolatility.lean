import Verif.Props.ShapeSmooth
import Verif.Model.Volatility
/-!
# C03, C07: one output per bar and warm-up of the volatility indicators
-/

namespace Traquer.Smooth
open FloatLit
variable {F : Type} [FloatOps F]

theorem lrfWin_isNaN [NaNLaws F] {window : Nat} {w : List F} (hl : w.length = window)
    (h : ∃ x ∈ w, isNaN x = true) : isNaN (lrfWin window w) = true := by
  have hs : ∀ st : F × F, isNaN (((((List.range' 1 window).map fun x => (flt x : F)).zip w).foldl
      (fun (st : F × F) (cv : F × F) => (st.1 + cv.2, st.2 + cv.1 * cv.2)) st).1) = true := by
    intro st
    apply foldl_isNaN (p := fun s : F × F => isNaN s.1 = true) (q := fun x : F × F => isNaN x.2 = true)
    · intros; simp only; nanp
    · intros; simp only; nanp
    · right
      obtain ⟨x, hx, hn⟩ := h
      obtain ⟨i, hi, rfl⟩ := List.getElem_of_mem hx
      refine ⟨(flt (1 + i), w[i]), ?_, hn⟩
      rw [List.mem_iff_getElem?]
      refine ⟨i, ?_⟩
      rw [List.getElem?_zip_eq_some]
      constructor
      · rw [List.getElem?_map, List.getElem?_range' (by omega)]; simp
      · simp
  have := hs (0, 0)
  unfold lrfWin
  simp only
  nanp

/-- The lrf of a series that is NaN for its first `j` bars. -/
theorem lrf_warmUp [NaNLaws F] {data out : List F} {window j : Nat} (hw : 1 ≤ window) (hd : WarmUp j data)
    (h : lrf data window = some out) : WarmUp (j + (window - 1)) out := by
  simp (disch := omega) only [lrf, usub_of_le, windows_of_pos, Option.bind_eq_bind, Option.bind_some,
    Option.some.injEq] at h
  subst h
  apply warmUp_append
  exact (warmUp_windows hd hw fun win hl hx => lrfWin_isNaN hl hx).mono (by omega)

end Traquer.Smooth

namespace Traquer.Volatility
open FloatLit
open Traquer.Distribution (stdDevRaw)
variable {F : Type} [FloatOps F]

/-- The NaN of the second smoothing, then a rolling sum. -/
theorem mass_aligned (high low : List F) (short long : Nat) (hl : low.length = high.length)
    (hs : 1 ≤ short) (hlo : 1 ≤ long) (hn : long - 1 + 2 * (short - 1) < high.length) :
    Aligned high.length (long - 1 + 2 * (short - 1)) (mass high low short long) := by
  obtain ⟨m1, e1, l1, -, -⟩ := Smooth.ewma_aligned ((high.zip low).map fun (h, l) => h - l) short hs
    (by simp; omega)
  simp at l1
  obtain ⟨m2, e2, l2, -, w2⟩ := Smooth.ewma_aligned (m1.drop (short - 1)) short hs (by simp; omega)
  simp at l2
  refine ⟨_, by run_model [mass]; rw [e1]; run_model [e2]; rfl, ?_, by omega, fun hF => ?_⟩
  · simp; omega
  · apply warmUp_append
    refine (warmUp_windows (k := short - 1) (warmUp_zip_right (w2 hF) ?_) hlo ?_).mono (by omega)
    · intros; nanp
    · intro win _ hx; exact fsum_isNaN hx

theorem trueRange_yields (high low close : List F) (hl : low.length = high.length)
    (hc : close.length = high.length) (hn : 1 ≤ high.length) :
    Yields (high.length - 1) (trueRange high low close) := by
  refine ⟨_, by run_model [trueRange]; rfl, ?_⟩
  simp; omega

/-- C03/C07 -/
theorem tr_aligned (high low close : List F) (hl : low.length = high.length)
    (hc : close.length = high.length) (hn : 1 ≤ high.length) :
    Aligned high.length 1 (tr high low close) := by
  obtain ⟨t, e, l⟩ := trueRange_yields high low close hl hc hn
  run_model [tr, e]
  exact aligned_of_nan (by omega) (by omega)

/-- C03/C07 -/
theorem atr_aligned (high low close : List F) (window : Nat) (hl : low.length = high.length)
    (hc : close.length = high.length) (hw : 1 ≤ window) (hn : window ≤ high.length) :
    Aligned high.length window (atr high low close window) := by
  obtain ⟨t, e, l⟩ := trueRange_yields high low close hl hc (by omega)
  obtain ⟨w, ew, lw, -, ww⟩ := Smooth.wilder_aligned t window hw (by omega)
  refine ⟨_, by run_model [atr, e, ew]; rfl, by simp; omega, hn, fun hF => ?_⟩
  exact warmUp_cons (ww hF)

/-- C03/C07: middle, upper, lower. -/
theorem keltner_aligned (high low close : List F) (window : Nat) (hl : low.length = high.length)
    (hc : close.length = high.length) (hw : 1 ≤ window) (hn : window ≤ high.length) :
    Aligned3 high.length (window - 1) window window (keltner high low close window) := by
  obtain ⟨m, em, lm, -, wm⟩ := Smooth.ewma_aligned close window hw (by omega)
  obtain ⟨a, ea, la, -, wa⟩ := atr_aligned high low close window hl hc hw hn
  refine ⟨_, by run_model [keltner, em, ea]; rfl, by simp; omega, by omega, by omega, by omega,
    fun hF => ?_⟩
  simp only [List.map_map, Function.comp_def]
  refine ⟨warmUp_zip_left (wm hF) (fun _ _ h => h), warmUp_zip_right (wa hF) ?_,
    warmUp_zip_right (wa hF) ?_⟩
  · intros; nanp
  · intros; nanp

/-- C03/C07 -/
theorem gri_aligned (high low : List F) (window : Nat) (hl : low.length = high.length)
    (hw : 1 ≤ window) (hn : window ≤ high.length + 1) :
    Aligned high.length (window - 1) (gri high low window) := by
  run_model [gri]
  exact aligned_of_nans (by simp; omega) (by omega)

/-- C03/C07 -/
theorem typical_aligned (high low close : List F) (window : Nat) (hl : low.length = high.length)
    (hc : close.length = high.length) (hw : 1 ≤ window) (hn : window ≤ high.length + 1) :
    Aligned high.length (window - 1) (typical high low close window) := by
  have := Smooth.sma_aligned ((zip3 high low close).map fun (h, l, c) => (h + l + c) / 3) window hw
    (by simp; omega)
  simp only [List.length_map, zip3_length] at this
  rw [show min high.length (min low.length close.length) = high.length by omega] at this
  exact this

theorem stdDevRaw_yields (data : List F) (window : Nat) (hw : 1 ≤ window) :
    Yields (data.length + 1 - window) (stdDevRaw data window) :=
  ⟨_, by run_model [stdDevRaw]; rfl, by simp⟩

/-- C03/C07 -/
theorem std_dev_aligned (data : List F) (window : Nat) (devs : Option F)
    (hw : 1 ≤ window) (hn : window ≤ data.length + 1) :
    Aligned data.length (window - 1) (std_dev data window devs) := by
  obtain ⟨r, e, l⟩ := stdDevRaw_yields data window hw
  refine ⟨_, by run_model [std_dev, Distribution.std_dev, e]; rfl, by simp; omega, by omega, fun _ => ?_⟩
  apply warmUp_map (warmUp_nans_append (by omega))
  intros; nanp

/-- C03/C07: upper, middle, lower. -/
theorem bbands_aligned (data : List F) (window r : Nat) (devs : Option F) (mode : Option Smooth.MaMode)
    (hw : 1 ≤ window) (hr : toUsize (floor (sqrt (flt window : F))) = r) (h1 : 1 ≤ r)
    (hp : mode.getD .EWMA = .Pascal → window ≤ 63)
    (hn : Smooth.maWarmUp window r (mode.getD .EWMA) < data.length) (hn2 : window ≤ data.length) :
    Aligned3 data.length (max (window - 1) (Smooth.maWarmUp window r (mode.getD .EWMA)))
      (Smooth.maWarmUp window r (mode.getD .EWMA))
      (max (window - 1) (Smooth.maWarmUp window r (mode.getD .EWMA)))
      (bbands data window devs mode) := by
  obtain ⟨m, em, lm, -, wm⟩ := Smooth.ma_aligned data window r (mode.getD .EWMA) hw hr h1 hp hn
  obtain ⟨s, es, ls, -, ws⟩ := std_dev_aligned data window devs hw (by omega)
  refine ⟨_, by run_model [bbands, em, es]; rfl, by simp; omega, by omega, by omega, by omega,
    fun hF => ?_⟩
  simp only [List.map_map, Function.comp_def]
  have key : ∀ f : F × F → F, (∀ x y, isNaN x = true → isNaN (f (x, y)) = true) →
      (∀ x y, isNaN y = true → isNaN (f (x, y)) = true) →
      WarmUp (max (window - 1) (Smooth.maWarmUp window r (mode.getD .EWMA))) ((m.zip s).map f) := by
    intro f h1 h2
    rcases Nat.le_total (window - 1) (Smooth.maWarmUp window r (mode.getD .EWMA)) with h | h
    · rw [Nat.max_eq_right h]; exact warmUp_zip_left (wm hF) h1
    · rw [Nat.max_eq_left h]; exact warmUp_zip_right (ws hF) h2
  refine ⟨key _ ?_ ?_, warmUp_zip_left (wm hF) (fun _ _ h => h), key _ ?_ ?_⟩ <;> intros <;> nanp

/-- C03/C07: upper, middle, lower. -/
theorem donchian_aligned (high low : List F) (window : Nat) (hl : low.length = high.length)
    (hw : 1 ≤ window) (hn : window ≤ high.length + 1) :
    Aligned3 high.length (window - 1) (window - 1) (window - 1) (donchian high low window) := by
  refine ⟨_, by run_model [donchian]; rfl, by simp; omega, by omega, by omega, by omega, fun hF => ?_⟩
  refine ⟨?_, ?_, ?_⟩ <;>
    exact warmUp_replicate (β := F × F × F) _ (nan, nan, nan) (NaNLaws.nan_isNaN (F := F)) _
      (Nat.le_refl _)

omit [FloatOps F] in
theorem argBest_isSome (better : F → F → Bool) {l : List F} (h : 1 ≤ l.length) :
    ∃ i, argBest better l = some i := by
  refine ⟨_, by run_model [argBest, getElem?_of_lt]; rfl⟩

/-- C03/C07: upper, lower. -/
theorem fbands_aligned (high low : List F) (hl : low.length = high.length) (hn : 4 ≤ high.length) :
    Aligned2 high.length 4 4 (fbands high low) := by
  run_model [fbands]
  refine aligned2_scanM ?_ (by simp; omega) (by omega)
  rintro s ⟨h, l⟩ hx
  obtain ⟨h1, h2⟩ := List.of_mem_zip hx
  have l1 := windowsOf_mem_length h1
  have l2 := windowsOf_mem_length h2
  obtain ⟨i, hi⟩ := argBest_isSome (fun x y : F => x >. y) (l := h) (by omega)
  obtain ⟨j, hj⟩ := argBest_isSome (fun x y : F => x <. y) (l := l) (by omega)
  simp only at hi hj
  simp (disch := omega) only [hi, hj, getElem?_of_lt, Option.bind_some, Option.isSome_some]

/-- C03/C07 -/
theorem hv_aligned (data : List F) (window : Nat) (devs : Option F) (hw : 1 ≤ window)
    (hn : window ≤ data.length) : Aligned data.length window (hv data window devs) := by
  run_model [hv]
  exact aligned_of_nans (by simp; omega) (by omega)

/-- C03/C07: upper, lower. -/
theorem starc_aligned (high low close : List F) (window maWindow : Nat) (mult : Option F)
    (hl : low.length = high.length) (hc : close.length = high.length) (hw : 1 ≤ window)
    (hm : 1 ≤ maWindow) (hn : window ≤ high.length) (hn2 : maWindow ≤ high.length + 1) :
    Aligned2 high.length (max window (maWindow - 1)) (max window (maWindow - 1))
      (starc high low close window maWindow mult) := by
  obtain ⟨a, ea, la, -, wa⟩ := atr_aligned high low close window hl hc hw hn
  obtain ⟨m, em, lm, -, wm⟩ := Smooth.sma_aligned close maWindow hm (by omega)
  refine ⟨_, by run_model [starc, em, ea]; rfl, by simp; omega, by omega, by omega, fun hF => ?_⟩
  simp only [List.map_map, Function.comp_def]
  have key : ∀ f : F × F → F, (∀ x y, isNaN x = true → isNaN (f (x, y)) = true) →
      (∀ x y, isNaN y = true → isNaN (f (x, y)) = true) →
      WarmUp (max window (maWindow - 1)) ((a.zip m).map f) := by
    intro f h1 h2
    rcases Nat.le_total window (maWindow - 1) with h | h
    · rw [Nat.max_eq_right h]; exact warmUp_zip_right (wm hF) h2
    · rw [Nat.max_eq_left h]; exact warmUp_zip_left (wa hF) h1
  refine ⟨key _ ?_ ?_, key _ ?_ ?_⟩ <;> intros <;> nanp

/-- C03/C07 -/
theorem cvi_aligned (high low : List F) (window rateOfChange : Nat) (hl : low.length = high.length)
    (hw : 1 ≤ window) (hn : window ≤ high.length) (hn2 : rateOfChange + (window - 1) ≤ high.length) :
    Aligned high.length (rateOfChange + (window - 1)) (cvi high low window rateOfChange) := by
  obtain ⟨e, ee, le, -, we⟩ := Smooth.ewma_aligned ((high.zip low).map fun (h, l) => h - l) window hw
    (by simp; omega)
  simp at le
  obtain ⟨r, hr⟩ := mapP_isSome (f := fun w : List F => (w.getLast?).bind fun last =>
      (w.head?).bind fun first => some (100 * (last / first - 1)))
      (l := windowsOf (rateOfChange + 1) e) (by
    intro x hx
    have := windowsOf_mem_length hx
    rw [List.getLast?_eq_getElem?, List.head?_eq_getElem?]
    simp (disch := omega) only [getElem?_of_lt, Option.bind_some, Option.isSome_some])
  have lr := mapP_length hr
  simp at lr
  refine ⟨_, by run_model [cvi]; rw [ee]; run_model [hr]; rfl, by simp; omega, by omega, fun hF => ?_⟩
  apply warmUp_append
  refine WarmUp.mono (k := window - 1) (warmUp_iff.2 ?_) (by omega)
  intro i hi x hx
  have hi1 := (List.getElem?_eq_some_iff.1 hx).1
  rw [mapP_getElem? hr, windowsOf_getElem? (by omega)] at hx
  have hi2 : i < e.length := by omega
  rw [Option.bind_some, List.getLast?_eq_getElem?, List.head?_eq_getElem?] at hx
  simp only [Option.bind_eq_some_iff, Option.some.injEq] at hx
  obtain ⟨a, ha, b, hb, rfl⟩ := hx
  have : isNaN b = true := by
    apply warmUp_iff.1 (we hF) i hi
    rw [List.getElem?_take_of_lt (by omega)] at hb
    simpa using hb
  nanp

/-- C03/C07 -/
theorem relative_vol_aligned (close : List F) (window smoothing : Nat) (hw : 2 ≤ window)
    (hs : 1 ≤ smoothing) (hn : window - 1 + (smoothing - 1) < close.length) :
    Aligned close.length (window - 1 + (smoothing - 1)) (relative_vol close window smoothing) := by
  obtain ⟨sd, es, ls⟩ := stdDevRaw_yields close window (by omega)
  have hz : (zip3 sd (close.drop (window - 1)) ((close.take (close.length - 1)).drop (window - 2))).length
      = close.length + 1 - window := by simp; omega
  obtain ⟨g, eg, lg, -, wg⟩ := Smooth.wilder_aligned
    (((zip3 sd (close.drop (window - 1)) ((close.take (close.length - 1)).drop (window - 2))).map
      fun (std, curr, prev) =>
    (fmax 0 (signum (curr - prev)) * std, fmax 0 (signum (prev - curr)) * std)).map (·.1)) smoothing hs
    (by simp only [List.length_map, hz]; omega)
  obtain ⟨l, el, ll, -, -⟩ := Smooth.wilder_aligned
    (((zip3 sd (close.drop (window - 1)) ((close.take (close.length - 1)).drop (window - 2))).map
      fun (std, curr, prev) =>
    (fmax 0 (signum (curr - prev)) * std, fmax 0 (signum (prev - curr)) * std)).map (·.2)) smoothing hs
    (by simp only [List.length_map, hz]; omega)
  simp only [List.length_map, hz] at lg ll
  refine ⟨_, by run_model [relative_vol, es]; erw [eg]; rw [Option.bind_some]; erw [el]; rfl, by simp; omega,
    by omega, fun hF => ?_⟩
  apply warmUp_append
  refine (warmUp_zip_left (wg hF) ?_).mono (by omega)
  intros; nanp

/-- C03/C07 -/
theorem inertia_aligned (close : List F) (window smoothing : Nat) (hw : 2 ≤ window)
    (hs : 1 ≤ smoothing) (hn : 2 * (window - 1) + (smoothing - 1) < close.length) :
    Aligned close.length (2 * (window - 1) + (smoothing - 1)) (inertia close window smoothing) := by
  obtain ⟨r, er, lr, -, wr⟩ := relative_vol_aligned close window window hw (by omega) (by omega)
  obtain ⟨o, eo, lo, -, -⟩ := Smooth.lrf_aligned r smoothing hs (by omega)
  refine ⟨o, by run_model [inertia, er, eo], by omega, by omega, fun hF => ?_⟩
  exact (Smooth.lrf_warmUp hs (wr hF) eo).mono (by omega)

/-- C03/C07 -/
theorem chop_aligned (high low close : List F) (window : Nat) (hl : low.length = high.length)
    (hc : close.length = high.length) (hw : 1 ≤ window) (hn : window ≤ high.length) :
    Aligned high.length window (chop high low close window) := by
  obtain ⟨t, e, l⟩ := trueRange_yields high low close hl hc (by omega)
  run_model [chop, e]
  exact aligned_of_nans (by simp; omega) (by omega)

/-- C03/C07 -/
theorem vhf_aligned (high low close : List F) (window : Nat) (hl : low.length = high.length)
    (hc : close.length = high.length) (hw : 1 ≤ window) (hn : window ≤ high.length) :
    Aligned high.length window (vhf high low close window) := by
  run_model [vhf]
  exact aligned_of_nans (by simp; omega) (by omega)

/-- C03 -/
theorem heikin_ashi_yields (openp high low close : List F) (ho : openp.length = high.length)
    (hl : low.length = high.length) (hc : close.length = high.length) (hn : 1 ≤ high.length) :
    Yields high.length (heikin_ashi openp high low close) := by
  refine ⟨_, by run_model [heikin_ashi, getElem?_of_lt]; rfl, by simp; omega⟩

/-- C03 -/
theorem wcp_length (high low close : List F) (hl : low.length = high.length)
    (hc : close.length = high.length) : (wcp high low close).length = high.length := by
  simp [wcp]; omega

/-- C03/C07 -/
theorem cc_hv_aligned (data : List F) (window : Nat) (hw : 1 ≤ window)
    (hn : window ≤ data.length) : Aligned data.length window (cc_hv data window) := by
  run_model [cc_hv]
  exact aligned_of_nans (by simp; omega) (by omega)

/-- C03/C07 -/
theorem gkyz_hv_aligned (openp high low close : List F) (window : Nat)
    (ho : openp.length = high.length) (hl : low.length = high.length)
    (hc : close.length = high.length) (hw : 1 ≤ window) (hn : window ≤ high.length) :
    Aligned high.length window (gkyz_hv openp high low close window) := by
  run_model [gkyz_hv]
  exact aligned_of_nans (by simp; omega) (by omega)

/-! ## The hypotheses are met by ordinary calls -/

section
variable (a b c d e : F)
example : Aligned 5 4 (mass [a, b, c, d, e] [e, d, c, b, a] 2 3) :=
  mass_aligned _ _ _ _ rfl (by decide) (by decide) (by simp)
example : Aligned 5 1 (tr [a, b, c, d, e] [e, d, c, b, a] [b, c, d, e, a]) :=
  tr_aligned _ _ _ rfl rfl (by simp)
example : Aligned 5 3 (atr [a, b, c, d, e] [e, d, c, b, a] [b, c, d, e, a] 3) :=
  atr_aligned _ _ _ _ rfl rfl (by decide) (by simp)
example : Aligned3 5 2 3 3 (keltner [a, b, c, d, e] [e, d, c, b, a] [b, c, d, e, a] 3) :=
  keltner_aligned _ _ _ _ rfl rfl (by decide) (by simp)
example : Aligned 5 2 (gri [a, b, c, d, e] [e, d, c, b, a] 3) :=
  gri_aligned _ _ _ rfl (by decide) (by simp)
example : Aligned 5 2 (typical [a, b, c, d, e] [e, d, c, b, a] [b, c, d, e, a] 3) :=
  typical_aligned _ _ _ _ rfl rfl (by decide) (by simp)
example : Aligned 5 2 (std_dev [a, b, c, d, e] 3 none) := std_dev_aligned _ _ _ (by decide) (by simp)
example (h : toUsize (floor (sqrt (flt 3 : F))) = 1) :
    Aligned3 5 4 4 4 (bbands [a, b, c, d, e] 3 none (some .DEMA)) :=
  bbands_aligned _ _ _ _ (some .DEMA) (by decide) h (by decide) (by simp) (by simp [Smooth.maWarmUp]) (by simp)
example : Aligned3 5 2 2 2 (donchian [a, b, c, d, e] [e, d, c, b, a] 3) :=
  donchian_aligned _ _ _ rfl (by decide) (by simp)
example : Aligned2 5 4 4 (fbands [a, b, c, d, e] [e, d, c, b, a]) := fbands_aligned _ _ rfl (by simp)
example : Aligned 5 3 (hv [a, b, c, d, e] 3 none) := hv_aligned _ _ _ (by decide) (by simp)
example : Aligned2 5 3 3 (starc [a, b, c, d, e] [e, d, c, b, a] [b, c, d, e, a] 3 2 none) :=
  starc_aligned _ _ _ _ _ _ rfl rfl (by decide) (by decide) (by simp) (by simp)
example : Aligned 5 4 (cvi [a, b, c, d, e] [e, d, c, b, a] 3 2) :=
  cvi_aligned _ _ _ _ rfl (by decide) (by simp) (by simp)
example : Aligned 5 3 (relative_vol [a, b, c, d, e] 3 2) :=
  relative_vol_aligned _ _ _ (by decide) (by decide) (by simp)
example : Aligned 5 4 (inertia [a, b, c, d, e] 2 3) :=
  inertia_aligned _ _ _ (by decide) (by decide) (by simp)
example : Aligned 5 3 (chop [a, b, c, d, e] [e, d, c, b, a] [b, c, d, e, a] 3) :=
  chop_aligned _ _ _ _ rfl rfl (by decide) (by simp)
example : Aligned 5 3 (vhf [a, b, c, d, e] [e, d, c, b, a] [b, c, d, e, a] 3) :=
  vhf_aligned _ _ _ _ rfl rfl (by decide) (by simp)
example : Yields 3 (heikin_ashi [a, b, c] [b, c, d] [c, d, e] [d, e, a]) :=
  heikin_ashi_yields _ _ _ _ rfl rfl rfl (by simp)
example : Aligned 5 3 (cc_hv [a, b, c, d, e] 3) := cc_hv_aligned _ _ (by decide) (by simp)
example : Aligned 3 2 (gkyz_hv [a, b, c] [b, c, d] [c, d, e] [d, e, a] 2) :=
  gkyz_hv_aligned _ _ _ _ _ rfl rfl rfl (by decide) (by simp)
end

end Traquer.Volatility
