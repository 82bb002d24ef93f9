import Verif.Props.ShapeVolatility
import Verif.Props.ShapeStats
import Verif.Model.Momentum
/-!
# C02, C07: one output per bar and warm-up of the momentum indicators
-/

namespace Traquer.Trend
open FloatLit
variable {F : Type} [FloatOps F]

theorem alligatorLine_ok (data : List F) (win offset maxOffset : Nat) (hw : 1 ≤ win)
    (hn : win ≤ data.length + 1) (ho : offset ≤ maxOffset) :
    Aligned (data.length + maxOffset) (offset + (win - 1)) (alligatorLine data win offset maxOffset) := by
  obtain ⟨w, ew, lw, -, ww⟩ := Smooth.wilder_aligned data win hw hn
  refine ⟨_, by run_model [alligatorLine, ew]; rfl, by simp; omega, by omega, fun hF => ?_⟩
  rw [List.append_assoc]
  apply warmUp_append
  refine WarmUp.append_right ((ww hF).mono (by omega)) (by omega)

/-- C04/C07: jaw, teeth, lips; the output extends `max offset` bars into the future. -/
theorem alligator_aligned (data : List F) (jw jo tw to_ lw lo : Nat) (h1 : 1 ≤ jw) (h2 : 1 ≤ tw)
    (h3 : 1 ≤ lw) (n1 : jw ≤ data.length + 1) (n2 : tw ≤ data.length + 1) (n3 : lw ≤ data.length + 1) :
    Aligned3 (data.length + max (max jo to_) lo) (jo + (jw - 1)) (to_ + (tw - 1)) (lo + (lw - 1))
      (alligator data jw jo tw to_ lw lo) := by
  obtain ⟨a, ea, la, ka, wa⟩ := alligatorLine_ok data jw jo (max (max jo to_) lo) h1 n1 (by omega)
  obtain ⟨b, eb, lb, kb, wb⟩ := alligatorLine_ok data tw to_ (max (max jo to_) lo) h2 n2 (by omega)
  obtain ⟨c, ec, lc, kc, wc⟩ := alligatorLine_ok data lw lo (max (max jo to_) lo) h3 n3 (by omega)
  refine ⟨_, by run_model [alligator, ea, eb, ec]; rfl, by simp; omega, ka, kb, kc, fun hF => ?_⟩
  rw [zip3_eq]
  refine ⟨warmUp_zip_left (wa hF) (fun _ _ h => h), ?_, ?_⟩
  · apply warmUp_map_of
    rintro i hi ⟨x, y, z⟩ hb
    simp only [List.getElem?_zip_eq_some] at hb
    exact warmUp_iff.1 (wb hF) i hi y hb.2.1
  · apply warmUp_map_of
    rintro i hi ⟨x, y, z⟩ hb
    simp only [List.getElem?_zip_eq_some] at hb
    exact warmUp_iff.1 (wc hF) i hi z hb.2.2

example (a b c d e : F) : Aligned3 7 4 2 1 (alligator [a, b, c, d, e] 3 2 2 1 2 0) :=
  alligator_aligned _ _ _ _ _ _ _ (by decide) (by decide) (by decide) (by simp) (by simp) (by simp)

end Traquer.Trend

namespace Traquer.Momentum
open FloatLit
open Traquer.Volatility (trueRange trueRange_yields)
variable {F : Type} [FloatOps F]

@[simp] theorem gains_length (data : List F) : (gains data).length = data.length - 1 := by simp [gains]
@[simp] theorem losses_length (data : List F) : (losses data).length = data.length - 1 := by simp [losses]

/-- C02/C07 -/
theorem rsi_aligned (data : List F) (window : Nat) (hw : 1 ≤ window) (hn : window ≤ data.length) :
    Aligned data.length window (rsi data window) := by
  obtain ⟨g, eg, lg, -, wg⟩ := Smooth.wilder_aligned (gains data) window hw (by simp; omega)
  obtain ⟨l, el, ll, -, wl⟩ := Smooth.wilder_aligned (losses data) window hw (by simp; omega)
  simp at lg ll
  refine ⟨_, by run_model [rsi, eg, el]; rfl, by simp; omega, hn, fun hF => ?_⟩
  apply warmUp_cons
  refine warmUp_zip_left (wg hF) ?_
  intros; nanp

/-- The larger of several warm-ups wins when all components enter the result. -/
theorem warmUp_zip3 {k1 k2 k3 : Nat} {a b c : List F} {f : F × F × F → F} (ha : WarmUp k1 a)
    (hb : WarmUp k2 b) (hc : WarmUp k3 c) (h1 : ∀ x y z, isNaN x = true → isNaN (f (x, y, z)) = true)
    (h2 : ∀ x y z, isNaN y = true → isNaN (f (x, y, z)) = true)
    (h3 : ∀ x y z, isNaN z = true → isNaN (f (x, y, z)) = true) :
    WarmUp (max k1 (max k2 k3)) ((zip3 a b c).map f) := by
  rw [zip3_eq]
  apply warmUp_map_of
  rintro i hi ⟨x, y, z⟩ hx
  simp only [List.getElem?_zip_eq_some] at hx
  rcases Nat.lt_or_ge i k1 with h | h
  · exact h1 _ _ _ (warmUp_iff.1 ha i h x hx.1)
  · rcases Nat.lt_or_ge i k2 with h | h
    · exact h2 _ _ _ (warmUp_iff.1 hb i h y hx.2.1)
    · exact h3 _ _ _ (warmUp_iff.1 hc i (by omega) z hx.2.2)

theorem warmUp_zip2 {k1 k2 : Nat} {a b : List F} {f : F × F → F} (ha : WarmUp k1 a)
    (hb : WarmUp k2 b) (h1 : ∀ x y, isNaN x = true → isNaN (f (x, y)) = true)
    (h2 : ∀ x y, isNaN y = true → isNaN (f (x, y)) = true) :
    WarmUp (max k1 k2) ((a.zip b).map f) := by
  apply warmUp_map_of
  rintro i hi ⟨x, y⟩ hx
  simp only [List.getElem?_zip_eq_some] at hx
  rcases Nat.lt_or_ge i k1 with h | h
  · exact h1 _ _ (warmUp_iff.1 ha i h x hx.1)
  · exact h2 _ _ (warmUp_iff.1 hb i (by omega) y hx.2)

/-- C02/C07 -/
theorem crsi_aligned (data : List F) (rsiWin streakWin rankWin : Nat) (h1 : 1 ≤ rsiWin)
    (h2 : 1 ≤ streakWin) (h3 : 1 ≤ rankWin) (n1 : rsiWin ≤ data.length)
    (n2 : streakWin < data.length) (n3 : rankWin ≤ data.length) :
    Aligned data.length (max rsiWin (max (streakWin + 1) rankWin)) (crsi data rsiWin streakWin rankWin) := by
  obtain ⟨r, er, lr, -, wr⟩ := rsi_aligned data rsiWin h1 n1
  obtain ⟨s, es, ls, -, ws⟩ := rsi_aligned
    ((scanS streakStep ((0, 0) : F × F) (pairs data)).map (·.1)) streakWin h2 (by simp; omega)
  simp at ls
  have : ∃ o, mapP (fun (w : List F) => (do
      let k ← usub rankWin 1
      let curr ← w[k]?
      let cnt := w.reverse.foldl (fun acc x => if x <. curr then acc + 1 else acc) 0
      some (flt cnt / flt k * 100) : Option F))
      (windowsOf rankWin ((scanS streakStep ((0, 0) : F × F) (pairs data)).map (·.2))) = some o := by
    apply mapP_isSome
    intro x hx
    have := windowsOf_mem_length hx
    simp (disch := omega) only [usub_of_le, getElem?_of_lt, Option.bind_eq_bind, Option.bind_some,
      Option.isSome_some]
  obtain ⟨o, ho⟩ := this
  have lo := mapP_length ho
  simp at lo
  refine ⟨(zip3 r (nan :: s) (nans rankWin ++ o)).map fun (x, y, z) => (x + y + z) / 3, ?_,
    by simp; omega, by omega, fun hF => ?_⟩
  · unfold crsi
    rw [er, Option.bind_eq_bind, Option.bind_some]
    simp only
    rw [es, Option.bind_eq_bind, Option.bind_some, windows_of_pos (by omega), Option.bind_eq_bind,
      Option.bind_some]
    erw [ho]
    rfl
  · refine warmUp_zip3 (wr hF) (warmUp_cons (k := streakWin + 1) (by simpa using ws hF))
      (warmUp_nans_append (Nat.le_refl _)) ?_ ?_ ?_ <;> intros <;> nanp

/-- C02/C07 -/
theorem macd_aligned (close : List F) (short long : Nat) (h1 : 1 ≤ short) (h2 : 1 ≤ long)
    (hn : max short long ≤ close.length) :
    Aligned close.length (max (short - 1) (long - 1)) (macd close short long) := by
  obtain ⟨a, ea, la, -, wa⟩ := Smooth.ewma_aligned close short h1 (by omega)
  obtain ⟨b, eb, lb, -, wb⟩ := Smooth.ewma_aligned close long h2 (by omega)
  refine ⟨_, by run_model [macd, ea, eb]; rfl, by simp; omega, by omega, fun hF => ?_⟩
  refine warmUp_zip2 (wa hF) (wb hF) ?_ ?_ <;> intros <;> nanp

/-- C02/C07 -/
theorem ppo_aligned (data : List F) (short long : Nat) (h1 : 1 ≤ short) (h2 : 1 ≤ long)
    (hn : max short long ≤ data.length) :
    Aligned data.length (max (short - 1) (long - 1)) (ppo data short long) := by
  obtain ⟨a, ea, la, -, wa⟩ := Smooth.ewma_aligned data short h1 (by omega)
  obtain ⟨b, eb, lb, -, wb⟩ := Smooth.ewma_aligned data long h2 (by omega)
  refine ⟨_, by run_model [ppo, ea, eb]; rfl, by simp; omega, by omega, fun hF => ?_⟩
  refine warmUp_zip2 (wa hF) (wb hF) ?_ ?_ <;> intros <;> nanp

/-- C02/C07 -/
theorem apo_aligned (data : List F) (short long : Nat) (h1 : 1 ≤ short) (h2 : 1 ≤ long)
    (hn : max short long ≤ data.length) :
    Aligned data.length (max (short - 1) (long - 1)) (apo data short long) := by
  obtain ⟨a, ea, la, -, wa⟩ := Smooth.ewma_aligned data short h1 (by omega)
  obtain ⟨b, eb, lb, -, wb⟩ := Smooth.ewma_aligned data long h2 (by omega)
  refine ⟨_, by run_model [apo, ea, eb]; rfl, by simp; omega, by omega, fun hF => ?_⟩
  refine warmUp_zip2 (wa hF) (wb hF) ?_ ?_ <;> intros <;> nanp

/-- C02/C07 -/
theorem cmo_aligned (data : List F) (window : Nat) (hn : window ≤ data.length) (h : 1 ≤ data.length) :
    Aligned data.length window (cmo data window) := by
  obtain ⟨c, ec, lc⟩ := Smooth.cmoRaw_length data window
  run_model [cmo, ec]
  exact aligned_of_nans (by simp; omega) (by omega)

/-- C02/C07 -/
theorem cfo_aligned (data : List F) (window : Nat) (hw : 1 ≤ window) (hn : window ≤ data.length + 1) :
    Aligned data.length (window - 1) (cfo data window) := by
  obtain ⟨a, ea, la, -, wa⟩ := Smooth.lrf_aligned data window hw hn
  refine ⟨_, by run_model [cfo, ea]; rfl, by simp; omega, by omega, fun hF => ?_⟩
  refine warmUp_zip_left (wa hF) ?_
  intros; nanp

/-- C02/C07: bull and bear power. -/
theorem elder_ray_aligned (high low close : List F) (window : Nat) (hl : low.length = high.length)
    (hc : close.length = high.length) (hw : 1 ≤ window) (hn : window ≤ high.length) :
    Aligned2 high.length (window - 1) (window - 1) (elder_ray high low close window) := by
  obtain ⟨a, ea, la, -, wa⟩ := Smooth.ewma_aligned close window hw (by omega)
  refine ⟨_, by run_model [elder_ray, ea]; rfl, by simp; omega, by omega, by omega, fun hF => ?_⟩
  simp only [List.map_map, Function.comp_def, zip3_eq]
  constructor <;>
  · apply warmUp_map_of
    rintro i hi ⟨x, y, z⟩ hb
    simp only [List.getElem?_zip_eq_some] at hb
    have := warmUp_iff.1 (wa hF) i hi z hb.2.2
    nanp

/-- C02/C07 -/
theorem wpr_aligned (high low close : List F) (window : Nat) (hl : low.length = high.length)
    (hc : close.length = high.length) (hw : 1 ≤ window) (hn : window ≤ high.length + 1) :
    Aligned high.length (window - 1) (wpr high low close window) := by
  run_model [wpr]
  exact aligned_of_nans (by simp; omega) (by omega)

/-- C02/C07 -/
theorem pmo_aligned (data : List F) (win1 win2 : Nat) (h1 : 1 ≤ win1) (h2 : 1 ≤ win2)
    (hn : win1 + win2 ≤ data.length) :
    Aligned data.length (win1 + (win2 - 1)) (pmo data win1 win2) := by
  obtain ⟨a, ea, la, -, wa⟩ := Smooth.ewma_aligned
    ((pairs data).map fun (p0, p1) => 1000 * (p1 / p0 - 1)) win1 h1 (by simp; omega)
  simp at la
  obtain ⟨b, eb, lb, -, wb⟩ := Smooth.ewma_aligned (a.drop (win1 - 1)) win2 h2 (by simp; omega)
  simp at lb
  refine ⟨_, by run_model [pmo]; erw [ea]; rw [Option.bind_some]; run_model [eb]; rfl,
    by simp; omega, by omega, fun hF => ?_⟩
  exact warmUp_append ((wb hF).mono (by omega))

theorem bpTr_yields (high low close : List F) (hl : low.length = high.length)
    (hc : close.length = high.length) (hn : 1 ≤ high.length) :
    Yields (high.length - 1) (bpTr high low close) :=
  ⟨_, by run_model [bpTr]; rfl, by simp; omega⟩

/-- C02/C07 -/
theorem ultimate_aligned (high low close : List F) (win1 win2 win3 : Nat)
    (hl : low.length = high.length) (hc : close.length = high.length) (hw : 1 ≤ win3)
    (h1 : win1 ≤ win3) (h2 : win2 ≤ win3) (hn : win3 ≤ high.length) :
    Aligned high.length win3 (ultimate high low close win1 win2 win3) := by
  obtain ⟨v, ev, lv⟩ := bpTr_yields high low close hl hc (by omega)
  run_model [ultimate, ev]
  refine aligned_mapP ?_ (by simp; omega) (by omega)
  intro x hx
  simp

/-- C02/C07 -/
theorem pgo_aligned (high low close : List F) (window : Nat) (hl : low.length = high.length)
    (hc : close.length = high.length) (hw : 1 ≤ window) (hn : window < high.length) :
    Aligned high.length window (pgo high low close window) := by
  obtain ⟨t, et, lt⟩ := trueRange_yields high low close hl hc (by omega)
  obtain ⟨a, ea, la, -, wa⟩ := Smooth.ewma_aligned t window hw (by omega)
  obtain ⟨m, em, lm, -, wm⟩ := Smooth.sma_aligned close window hw (by omega)
  refine ⟨_, by run_model [pgo, et, ea, em]; rfl, by simp; omega, by omega, fun hF => ?_⟩
  rw [zip3_eq]
  apply warmUp_map_of
  rintro i hi ⟨x, y, z⟩ hb
  simp only [List.getElem?_zip_eq_some] at hb
  have := warmUp_iff.1 (warmUp_cons (wa hF)) i hi z hb.2.2
  nanp

theorem swing_yields (openp high low close : List F) (limit : F) (ho : openp.length = high.length)
    (hl : low.length = high.length) (hc : close.length = high.length) (hn : 1 ≤ high.length) :
    Yields (high.length - 1) (swing openp high low close limit) :=
  ⟨_, by run_model [swing]; rfl, by simp; omega⟩

/-- C02/C07 -/
theorem si_aligned (openp high low close : List F) (limit : F) (ho : openp.length = high.length)
    (hl : low.length = high.length) (hc : close.length = high.length) (hn : 1 ≤ high.length) :
    Aligned high.length 1 (si openp high low close limit) := by
  obtain ⟨s, es, ls⟩ := swing_yields openp high low close limit ho hl hc hn
  run_model [si, es]
  exact aligned_of_nan (by omega) (by omega)

/-- C02/C07 -/
theorem trix_aligned (close : List F) (window : Nat) (hw : 1 ≤ window)
    (hn : 3 * (window - 1) < close.length) :
    Aligned close.length (3 * (window - 1) + 1) (trix close window) := by
  obtain ⟨a, ea, la, -, wa⟩ := Smooth.ewma_aligned close window hw (by omega)
  obtain ⟨b, eb, lb, -, wb⟩ := Smooth.ewma_aligned (a.drop (window - 1)) window hw (by simp; omega)
  simp at lb
  obtain ⟨c, ec, lc, -, wc⟩ := Smooth.ewma_aligned (b.drop (window - 1)) window hw (by simp; omega)
  simp at lc
  refine ⟨_, by run_model [trix, ea, eb, ec]; rfl, by simp; omega, by omega, fun hF => ?_⟩
  apply warmUp_append
  refine (warmUp_zip_left (wc hF) ?_).mono (by omega)
  intros; nanp

/-- C02/C07 -/
theorem tii_aligned (data : List F) (window : Nat) (hw : 1 ≤ window) (hn : window ≤ data.length + 1) :
    Aligned data.length ((window + 1) / 2 - 1) (tii data window) := by
  obtain ⟨m, em, lm, -, -⟩ := Smooth.sma_aligned data window hw hn
  run_model [tii, em, divCeil_two]
  exact aligned_of_nans (by simp; omega) (by omega)

theorem stoch_aligned (high low close : List F) (window smooth : Nat) (hl : low.length = high.length)
    (hc : close.length = high.length) (hw : 1 ≤ window) (hs : 1 ≤ smooth)
    (hn : window - 1 + 2 * (smooth - 1) ≤ high.length) :
    Aligned2 high.length (window - 1 + (smooth - 1)) (window - 1 + 2 * (smooth - 1))
      (stoch high low close window smooth) := by
  obtain ⟨f, ef, lf, -, wf⟩ := Smooth.sma_aligned ((zip3 (windowsOf window high) (windowsOf window low)
    (close.drop (window - 1))).map fun (h, l, c) =>
      100 * (c - Volatility.foldMin l) / (Volatility.foldMax h - Volatility.foldMin l)) smooth hs
      (by simp; omega)
  simp at lf
  obtain ⟨k, ek, lk, -, wk⟩ := Smooth.sma_aligned (f.drop (smooth - 1)) smooth hs (by simp; omega)
  simp at lk
  refine ⟨(nans (window - 1) ++ f).zip (nans (window - 1 + (smooth - 1)) ++ k), ?_,
    by simp; omega, by omega, by omega, fun hF => ⟨?_, ?_⟩⟩
  · run_model [stoch]
    erw [ef]
    rw [Option.bind_some]
    run_model [ek]
  · exact warmUp_zip_fst (warmUp_append ((wf hF).mono (by omega)))
  · exact warmUp_zip_snd (warmUp_append ((wk hF).mono (by omega)))

/-- C02/C07: %K and %D. -/
theorem stochastic_aligned (high low close : List F) (window : Nat) (hl : low.length = high.length)
    (hc : close.length = high.length) (hw : 1 ≤ window) (hn : window + 3 ≤ high.length) :
    Aligned2 high.length (window + 1) (window + 3) (stochastic high low close window) := by
  have := stoch_aligned high low close window 3 hl hc hw (by omega) (by omega)
  rwa [show window - 1 + (3 - 1) = window + 1 by omega,
    show window - 1 + 2 * (3 - 1) = window + 3 by omega] at this

/-- C02/C07: k, d, j. -/
theorem kdj_aligned (high low close : List F) (kWin dWin : Nat) (kf df : Option F)
    (hl : low.length = high.length)
    (hc : close.length = high.length) (hw : 1 ≤ kWin) (hs : 1 ≤ dWin)
    (hn : kWin - 1 + 2 * (dWin - 1) ≤ high.length) :
    Aligned3 high.length (kWin - 1 + (dWin - 1)) (kWin - 1 + 2 * (dWin - 1)) (kWin - 1 + 2 * (dWin - 1))
      (kdj high low close kWin dWin kf df) := by
  obtain ⟨s, es, ls, h1, h2, ws⟩ := stoch_aligned high low close kWin dWin hl hc hw hs hn
  refine ⟨_, by run_model [kdj, es]; rfl, by simp [ls], h1, h2, h2, fun hF => ?_⟩
  simp only [List.map_map, Function.comp_def]
  refine ⟨(ws hF).1, (ws hF).2, ?_⟩
  apply warmUp_map_of
  rintro i hi ⟨x, y⟩ hb
  have := warmUp_iff.1 (ws hF).2 i hi y (by simp [hb])
  nanp

theorem stcRaw_yields (series : List F) (window : Nat) (hw : 1 ≤ window) (hn : window ≤ series.length) :
    Yields (series.length + 1 - window) (stcRaw series window 2) := by
  have : ∃ o, mapP (fun (w : List F) => (do
      let hh := Volatility.foldMax w
      let ll := Volatility.foldMin w
      let last ← w[w.length - 1]?
      some (100 * (last - ll) / (hh - ll)) : Option F)) (windowsOf window series) = some o := by
    apply mapP_isSome
    intro x hx
    have := windowsOf_mem_length hx
    simp (disch := omega) only [getElem?_of_lt, Option.bind_eq_bind, Option.bind_some,
      Option.isSome_some]
  obtain ⟨o, ho⟩ := this
  have lo := mapP_length ho
  simp at lo
  obtain ⟨w, ew, lw, -, -⟩ := Smooth.wilder_aligned o 2 (by omega) (by omega)
  refine ⟨w, ?_, by omega⟩
  unfold stcRaw
  rw [windows_of_pos (by omega), Option.bind_eq_bind, Option.bind_some, ho]
  exact ew

/-- C02/C07 -/
theorem stc_aligned (close : List F) (window short long : Nat) (hw : 1 ≤ window) (h1 : 1 ≤ short)
    (h2 : 1 ≤ long) (hs : short ≤ close.length)
    (hn : long - 1 + 2 * (window - 1) + 2 ≤ close.length) :
    Aligned close.length (long - 1 + 2 * (window - 1) + 2) (stc close window short long) := by
  obtain ⟨m, em, lm, -, -⟩ := macd_aligned close short long h1 h2 (by omega)
  obtain ⟨a, ea, la⟩ := stcRaw_yields (m.drop (long - 1)) window hw (by simp; omega)
  simp at la
  obtain ⟨b, eb, lb⟩ := stcRaw_yields (a.drop 1) window hw (by simp; omega)
  simp at lb
  run_model [stc, em, ea, eb]
  exact aligned_of_nans (by simp; omega) (by omega)

@[simp] theorem vigorSmooth_length (l : List F) : (vigorSmooth l).length = l.length + 1 - 4 := by
  simp [vigorSmooth]

/-- C02/C07 -/
theorem relative_vigor_aligned (openp high low close : List F) (window : Nat)
    (ho : openp.length = high.length) (hl : low.length = high.length)
    (hc : close.length = high.length) (hw : 1 ≤ window) (hn : window + 2 ≤ high.length) :
    Aligned high.length (window + 2) (relative_vigor openp high low close window) := by
  obtain ⟨n, en, ln, -, wn⟩ := Smooth.sma_aligned
    (vigorSmooth ((openp.zip close).map fun (o, c) => c - o)) window hw (by simp; omega)
  obtain ⟨d, ed, ld, -, wd⟩ := Smooth.sma_aligned
    (vigorSmooth ((high.zip low).map fun (h, l) => h - l)) window hw (by simp; omega)
  simp at ln ld
  refine ⟨_, by run_model [relative_vigor]; erw [en]; rw [Option.bind_some]; erw [ed]; rfl,
    by simp; omega, by omega, fun hF => ?_⟩
  apply warmUp_append
  refine (warmUp_zip_left (wn hF) ?_).mono (by omega)
  intros; nanp

/-- C02/C07 -/
theorem fisher_aligned (high low : List F) (window : Nat) (hl : low.length = high.length)
    (hw : 1 ≤ window) (hn : window ≤ high.length + 1) :
    Aligned high.length (window - 1) (fisher high low window) := by
  run_model [fisher]
  refine aligned_scanM ?_ (by simp; omega) (by omega)
  intro s x hx
  have := windowsOf_mem_length hx
  simp (disch := omega) only [fisherStep, getElem?_of_lt, Option.bind_eq_bind, Option.bind_some,
    Option.isSome_some]

theorem smaChain_ok (window n : Nat) (data : List F) (hw : 1 ≤ window) (hn : window ≤ data.length + 1) :
    ∃ ms, smaChain window n data = some ms ∧ ms.length = n ∧ ∀ m ∈ ms, m.length = data.length := by
  induction n generalizing data with
  | zero => exact ⟨[], rfl, rfl, by simp⟩
  | succ n ih =>
    obtain ⟨m, em, lm, -, -⟩ := Smooth.sma_aligned data window hw hn
    obtain ⟨ms, e, l, h⟩ := ih m (by omega)
    refine ⟨m :: ms, by run_model [smaChain, em, e], by simp [l], ?_⟩
    intro x hx
    rcases List.mem_cons.1 hx with rfl | hx
    · exact lm
    · rw [h x hx, lm]

/-- C02/C07: oscillator and bandwidth. The lookback must not exceed the warm-up. -/
theorem rainbow_aligned (data : List F) (window lookback : Nat) (hw : 1 ≤ window) (hl : 1 ≤ lookback)
    (hlb : lookback ≤ (window - 1) * 10 + 1) (hn : (window - 1) * 10 < data.length) :
    Aligned2 data.length ((window - 1) * 10) ((window - 1) * 10) (rainbow data window lookback) := by
  obtain ⟨ms, e, l, h⟩ := smaChain_ok window 10 data hw (by omega)
  run_model [rainbow, e]
  refine aligned2_mapP ?_ (by simp; omega) (by omega)
  intro i hi
  rw [mem_range_drop] at hi
  obtain ⟨v, hv⟩ := mapP_isSome (f := fun (sma : List F) => sma[i]?) (l := ms) (by
    intro m hm
    have := h m hm
    simp; omega)
  simp (disch := omega) only [hv, getElem?_of_lt, sliceTo_of_le, usub_of_le, Option.bind_some,
    Option.isSome_some]

/-- C02/C07 -/
theorem coppock_aligned (data : List F) (window short long : Nat) (hw : 1 ≤ window) (hs : short ≤ long)
    (hn : long + (window - 1) ≤ data.length) :
    Aligned data.length (long + (window - 1)) (coppock data window short long) := by
  have : ∃ o, mapP (fun x => (do
      let d ← data[x]?
      let i ← usub x short
      let ds ← data[i]?
      let j ← usub x long
      let dl ← data[j]?
      some (100 * (d / ds + d / dl - 2)) : Option F)) ((List.range data.length).drop long) = some o := by
    apply mapP_isSome
    intro i hi
    rw [mem_range_drop] at hi
    simp (disch := omega) only [getElem?_of_lt, usub_of_le, Option.bind_eq_bind, Option.bind_some,
      Option.isSome_some]
  obtain ⟨o, ho⟩ := this
  have lo := mapP_length ho
  simp at lo
  obtain ⟨m, em, lm, -, wm⟩ := Smooth.wma_aligned o window hw (by omega)
  refine ⟨nans long ++ m, by unfold coppock; rw [ho]; run_model [em], by simp; omega, by omega,
    fun hF => ?_⟩
  exact warmUp_append ((wm hF).mono (by omega))

/-- C02/C07 -/
theorem roc_aligned (data : List F) (window : Nat) (hw : 1 ≤ window) (hn : window ≤ data.length + 1) :
    Aligned data.length (window - 1) (roc data window) := by
  run_model [roc]
  refine aligned_mapP ?_ (by simp; omega) (by omega)
  intro x hx
  have := windowsOf_mem_length hx
  simp (disch := omega) only [getElem?_of_lt, Option.bind_some, Option.isSome_some]

/-- C02/C07 -/
theorem bal_power_aligned (openp high low close : List F) (window : Nat)
    (ho : openp.length = high.length) (hl : low.length = high.length)
    (hc : close.length = high.length) (hw : 1 ≤ window) (hn : window ≤ high.length) :
    Aligned high.length (window - 1) (bal_power openp high low close window) := by
  have := Smooth.ewma_aligned ((zip4 openp high low close).map fun (o, h, l, c) => (c - o) / (h - l))
    window hw (by simp; omega)
  simp only [List.length_map, zip4_length] at this
  rw [show min openp.length (min high.length (min low.length close.length)) = high.length by omega] at this
  exact this

/-- C02/C07 -/
theorem disparity_aligned (data : List F) (window : Nat) (hw : 1 ≤ window) (hn : window ≤ data.length) :
    Aligned data.length (window - 1) (disparity data window) := by
  obtain ⟨a, ea, la, -, wa⟩ := Smooth.ewma_aligned data window hw hn
  refine ⟨_, by run_model [disparity, ea]; rfl, by simp; omega, by omega, fun hF => ?_⟩
  refine warmUp_zip_right (wa hF) ?_
  intros; nanp

/-- C02/C07 -/
theorem qstick_aligned (openp close : List F) (window : Nat) (ho : openp.length = close.length)
    (hw : 1 ≤ window) (hn : window ≤ close.length) :
    Aligned close.length (window - 1) (qstick openp close window) := by
  have := Smooth.ewma_aligned ((close.zip openp).map fun (c, o) => c - o) window hw (by simp; omega)
  simp only [List.length_map, List.length_zip, ho, Nat.min_self] at this
  exact this

/-- C02/C07 -/
theorem cog_aligned (data : List F) (window : Nat) (hw : 1 ≤ window) (hn : window ≤ data.length + 1) :
    Aligned data.length (window - 1) (cog data window) := by
  run_model [cog]
  exact aligned_of_nans (by simp; omega) (by omega)

/-- C02/C07 -/
theorem psych_aligned (data : List F) (window : Nat) (hw : 1 ≤ window) (hn : window ≤ data.length) :
    Aligned data.length window (psych data window) := by
  run_model [psych]
  exact aligned_of_nans (by simp; omega) (by omega)

/-- C02/C07 -/
theorem tsi_aligned (data : List F) (short long : Nat) (h1 : 1 ≤ short) (h2 : 1 ≤ long)
    (hn : long + short ≤ data.length) :
    Aligned data.length (long + (short - 1)) (tsi data short long) := by
  obtain ⟨a, ea, la, -, -⟩ := Smooth.ewma_aligned ((pairs data).map fun (p0, p1) => p1 - p0) long h2
    (by simp; omega)
  simp at la
  obtain ⟨b, eb, lb, -, wb⟩ := Smooth.ewma_aligned (a.drop (long - 1)) short h1 (by simp; omega)
  simp at lb
  obtain ⟨c, ec, lc, -, -⟩ := Smooth.ewma_aligned (((pairs data).map fun (p0, p1) => p1 - p0).map fabs)
    long h2 (by simp; omega)
  simp at lc
  obtain ⟨d, ed, ld, -, -⟩ := Smooth.ewma_aligned (c.drop (long - 1)) short h1 (by simp; omega)
  simp at ld
  refine ⟨nans long ++ (b.zip d).map fun (pcd, apcd) => 100 * pcd / apcd, ?_, by simp; omega, by omega,
    fun hF => ?_⟩
  · run_model [tsi]
    erw [ea]
    run_model [eb]
    erw [ec]
    run_model [ed]
  · apply warmUp_append
    refine (warmUp_zip_left (wb hF) ?_).mono (by omega)
    intros; nanp

/-! ### prings, special_k, kst -/

theorem pringRoc_yields (data : List F) (r : Nat) : Yields (data.length - r) (pringRoc data r) := by
  obtain ⟨o, ho⟩ := mapP_isSome (f := fun (w : List F) => (do
    let last ← w[r]?
    let first ← w[0]?
    some (100 * (last / first - 1)) : Option F)) (l := windowsOf (r + 1) data) (by
      intro x hx
      have := windowsOf_mem_length hx
      simp (disch := omega) only [getElem?_of_lt, Option.bind_eq_bind, Option.bind_some,
        Option.isSome_some])
  exact ⟨o, ho, by rw [mapP_length ho]; simp⟩

theorem addAt_ok {l : List F} {i : Nat} {v : F} (h : i < l.length) :
    ∃ l', addAt l i v = some l' ∧ l'.length = l.length :=
  ⟨_, by run_model [addAt, getElem?_of_lt]; rfl, by simp⟩

/-- A fold of panicking steps with an invariant. -/
theorem foldlM_inv {α σ : Type} {f : σ → α → Option σ} {I : σ → Prop} {l : List α}
    (h : ∀ s, I s → ∀ x ∈ l, ∃ s', f s x = some s' ∧ I s') {s : σ} (hs : I s) :
    ∃ o, l.foldlM f s = some o ∧ I o := by
  induction l generalizing s with
  | nil => exact ⟨s, rfl, hs⟩
  | cons x l ih =>
    obtain ⟨y, hy, hi⟩ := h s hs x (by simp)
    obtain ⟨o, ho, h2⟩ := ih (fun s hs z hz => h s hs z (by simp [hz])) hi
    exact ⟨o, by simp [List.foldlM_cons, hy, ho], h2⟩

theorem pringStep_ok (data : List F) (roc0 period0 : Nat) (result : List F) (p : Nat × Nat × F)
    (h0 : 1 ≤ period0) (h1 : roc0 ≤ p.1) (h2 : period0 ≤ p.2.1)
    (hl : result.length = data.length - roc0 - (period0 - 1)) :
    ∃ r', pringStep data roc0 period0 result p = some r' ∧ r'.length = result.length := by
  obtain ⟨rocWin, maWin, mult⟩ := p
  simp only at h1 h2
  obtain ⟨roc, er, lr⟩ := pringRoc_yields data rocWin
  simp only [pringStep, er, Option.bind_eq_bind, Option.bind_some]
  split
  · exact ⟨_, rfl, rfl⟩
  · have hne : 1 ≤ roc.length := by
      rename_i h
      cases roc with
      | nil => simp at h
      | cons => simp
    have hm : Smooth.sma roc maWin = some (nans (maWin - 1) ++ (windowsOf maWin roc).map fun w =>
        fsum w / flt maWin) := by run_model [Smooth.sma]
    simp (disch := omega) only [hm, usub_of_le, Option.bind_some]
    rw [List.drop_left' (by simp)]
    have := foldlM_inv (I := fun r : List F => r.length = result.length)
      (f := fun (res : List F) (x : Nat × F) => (usub rocWin roc0).bind fun a =>
        (usub maWin period0).bind fun b => addAt res (x.1 + a + b) (x.2 * mult))
      (l := (List.range ((windowsOf maWin roc).map fun w => fsum w / flt maWin).length).zip
        ((windowsOf maWin roc).map fun w => fsum w / flt maWin)) (s := result) (by
        rintro s hs ⟨c, v⟩ hx
        have hc := (List.of_mem_zip hx).1
        simp at hc
        obtain ⟨l', el, ll⟩ := addAt_ok (l := s) (i := c + (rocWin - roc0) + (maWin - period0))
          (v := v * mult) (by omega)
        exact ⟨l', by simp (disch := omega) only [usub_of_le, Option.bind_some, el], by omega⟩) rfl
    obtain ⟨o, ho, lo⟩ := this
    refine ⟨o, ?_, lo⟩
    simp (disch := omega) only [usub_of_le, Option.bind_some] at ho ⊢
    exact ho

theorem prings_ok (data : List F) (rocs periods : List Nat) (mult : List F) (roc0 period0 : Nat)
    (e1 : rocs[0]? = some roc0) (e2 : periods[0]? = some period0) (h0 : 1 ≤ period0)
    (h1 : ∀ r ∈ rocs, roc0 ≤ r) (h2 : ∀ p ∈ periods, period0 ≤ p)
    (hn : roc0 + (period0 - 1) ≤ data.length) :
    Aligned data.length (roc0 + (period0 - 1)) (prings data rocs periods mult) := by
  have := foldlM_inv (I := fun r : List F => r.length = data.length - roc0 - (period0 - 1))
    (f := pringStep data roc0 period0) (l := zip3 rocs periods mult)
    (s := List.replicate (data.length - roc0 - (period0 - 1)) (0 : F)) (by
      rintro s hs ⟨r, p, m⟩ hx
      rw [zip3_eq] at hx
      obtain ⟨a, b⟩ := List.of_mem_zip hx
      obtain ⟨b, c⟩ := List.of_mem_zip b
      obtain ⟨r', er, lr⟩ := pringStep_ok data roc0 period0 s (r, p, m) h0 (h1 r a) (h2 p b) hs
      exact ⟨r', er, by rw [lr, hs]⟩) (by simp)
  obtain ⟨o, ho, lo⟩ := this
  run_model [prings, e1, e2, ho]
  exact aligned_of_nans (by omega) (by omega)

/-- C02/C07. The long rates of change contribute nothing until enough history exists. -/
theorem special_k_aligned (data : List F) (hn : 19 ≤ data.length) :
    Aligned data.length 19 (special_k data) :=
  prings_ok data _ _ _ 10 10 rfl rfl (by decide) (by decide) (by decide) (by omega)

/-- C02/C07. The first rate of change and the first period must be the shortest ones. -/
theorem kst_aligned (data : List F) (rocs periods : Option (Nat × Nat × Nat × Nat)) (r1 r2 r3 r4 p1 p2 p3 p4 : Nat)
    (e1 : rocs.getD (10, 15, 20, 30) = (r1, r2, r3, r4))
    (e2 : periods.getD (10, 10, 10, 15) = (p1, p2, p3, p4))
    (hp : 1 ≤ p1) (hr : r1 ≤ r2 ∧ r1 ≤ r3 ∧ r1 ≤ r4) (hpp : p1 ≤ p2 ∧ p1 ≤ p3 ∧ p1 ≤ p4)
    (hn : r1 + (p1 - 1) ≤ data.length) :
    Aligned data.length (r1 + (p1 - 1)) (kst data rocs periods) := by
  unfold kst
  rw [e1, e2]
  exact prings_ok data _ _ _ r1 p1 rfl rfl hp (by simp; omega) (by simp; omega) hn

/-- C02/C07 -/
theorem derivative_aligned (data : List F) (win1 win2 signal : Nat) (h1 : 1 ≤ win1) (h2 : 1 ≤ win2)
    (h3 : 1 ≤ signal) (hn : 2 * win1 - 1 + (win2 - 1) + (signal - 1) < data.length) :
    Aligned data.length (2 * win1 - 1 + (win2 - 1) + (signal - 1)) (derivative data win1 win2 signal) := by
  obtain ⟨r, er, lr, -, -⟩ := rsi_aligned data win1 h1 (by omega)
  obtain ⟨a, ea, la, -, -⟩ := Smooth.ewma_aligned (r.drop win1) win1 h1 (by simp; omega)
  simp at la
  obtain ⟨b, eb, lb, -, wb⟩ := Smooth.ewma_aligned (a.drop (win1 - 1)) win2 h2 (by simp; omega)
  simp at lb
  obtain ⟨c, ec, lc, -, -⟩ := Smooth.sma_aligned b signal h3 (by omega)
  refine ⟨_, by run_model [derivative, er, ea, eb, ec]; rfl, by simp; omega, by omega, fun hF => ?_⟩
  apply warmUp_append
  refine (warmUp_zip_left (Smooth.sma_warmUp h3 (wb hF) ec) ?_).mono (by omega)
  intros; nanp

/-- C02/C07 -/
theorem cci_aligned (high low close : List F) (window : Nat) (hl : low.length = high.length)
    (hc : close.length = high.length) (hw : 1 ≤ window) (hn : window ≤ high.length + 1) :
    Aligned high.length (window - 1) (cci high low close window) := by
  run_model [cci]
  refine aligned_mapP ?_ (by simp; omega) (by omega)
  intro x hx
  have := windowsOf_mem_length hx
  rw [List.getLast?_eq_getElem?]
  simp (disch := omega) only [getElem?_of_lt, Option.bind_some, Option.isSome_some]

/-- C02/C07 -/
theorem qqe_aligned (data : List F) (window smoothing : Nat) (hw : 1 ≤ window) (hs : 1 ≤ smoothing)
    (hn : 3 * window + (smoothing - 1) ≤ data.length) :
    Aligned data.length (3 * window + (smoothing - 1)) (qqe data window smoothing) := by
  obtain ⟨r, er, lr, -, -⟩ := rsi_aligned data window hw (by omega)
  obtain ⟨e, ee, le, -, -⟩ := Smooth.ewma_aligned (r.drop window) smoothing hs (by simp; omega)
  simp at le
  obtain ⟨w1, ew1, lw1, -, -⟩ := Smooth.wilder_aligned
    ((pairs (e.drop (smoothing - 1))).map fun (p0, p1) => fabs (p1 - p0)) window hw (by simp; omega)
  simp at lw1
  obtain ⟨w2, ew2, lw2, -, -⟩ := Smooth.wilder_aligned (w1.drop (window - 1)) window hw (by simp; omega)
  simp at lw2
  run_model [qqe, er, ee]
  erw [ew1]
  run_model [ew2]
  refine aligned_scanM ?_ (by simp; omega) (by omega)
  intro s x hx
  rw [mem_range_drop] at hx
  simp at hx
  simp (disch := (simp; omega)) only [qqeStep, getElem?_of_lt, Option.bind_eq_bind, Option.bind_some,
    Option.isSome_some]

/-- C02/C07 -/
theorem deli_aligned (high low : List F) (window : Nat) (hl : low.length = high.length)
    (hw : 1 ≤ window) (hn : 3 * window ≤ high.length) :
    Aligned high.length (2 * window + (window - 1)) (deli high low window) := by
  obtain ⟨a, ea, la, -, -⟩ := Smooth.ewma_aligned (((pairs high).zip (pairs low)).map fun (h, l) =>
    (fmax h.1 h.2 + fmin l.1 l.2) / 2) window hw (by simp; omega)
  obtain ⟨b, eb, lb, -, -⟩ := Smooth.ewma_aligned (((pairs high).zip (pairs low)).map fun (h, l) =>
    (fmax h.1 h.2 + fmin l.1 l.2) / 2) (2 * window) (by omega) (by simp; omega)
  simp at la lb
  obtain ⟨c, ec, lc, -, wc⟩ := Smooth.ewma_aligned
    (((a.zip b).map fun (ma1, ma2) => ma1 - ma2).drop (2 * window - 1)) window hw (by simp; omega)
  simp at lc
  refine ⟨_, by run_model [deli]; erw [ea]; rw [Option.bind_some]; erw [eb]; run_model [ec]; rfl,
    by simp; omega, by omega, fun hF => ?_⟩
  apply warmUp_append
  refine (warmUp_zip_right (wc hF) ?_).mono (by omega)
  intros; nanp

/-- C02/C07: the two distances, extended `max offset` bars into the future. -/
theorem gator_aligned (data : List F) (jw jo tw to_ lw lo : Nat) (h1 : 1 ≤ jw) (h2 : 1 ≤ tw)
    (h3 : 1 ≤ lw) (n1 : jw ≤ data.length + 1) (n2 : tw ≤ data.length + 1) (n3 : lw ≤ data.length + 1) :
    Aligned2 (data.length + max (max jo to_) lo) (max (jo + (jw - 1)) (to_ + (tw - 1)))
      (max (to_ + (tw - 1)) (lo + (lw - 1))) (gator data jw jo tw to_ lw lo) := by
  obtain ⟨o, eo, lo', k1, k2, k3, w⟩ := Trend.alligator_aligned data jw jo tw to_ lw lo h1 h2 h3 n1 n2 n3
  refine ⟨_, by run_model [gator, eo]; rfl, by simp [lo'], by omega, by omega, fun hF => ?_⟩
  obtain ⟨wa, wb, wc⟩ := w hF
  simp only [List.map_map, Function.comp_def]
  constructor
  · apply warmUp_map_of
    rintro i hi ⟨x, y, z⟩ hb
    rcases Nat.lt_or_ge i (jo + (jw - 1)) with h | h
    · have := warmUp_iff.1 wa i h x (by simp [hb]); nanp
    · have := warmUp_iff.1 wb i (by omega) y (by simp [hb]); nanp
  · apply warmUp_map_of
    rintro i hi ⟨x, y, z⟩ hb
    rcases Nat.lt_or_ge i (to_ + (tw - 1)) with h | h
    · have := warmUp_iff.1 wb i h y (by simp [hb]); nanp
    · have := warmUp_iff.1 wc i (by omega) z (by simp [hb]); nanp

/-! ## The hypotheses are met by ordinary calls -/

section
variable (a b c d e : F)
example : Aligned 5 3 (rsi [a, b, c, d, e] 3) := rsi_aligned _ _ (by decide) (by simp)
example : Aligned 5 4 (crsi [a, b, c, d, e] 3 2 4) :=
  crsi_aligned _ _ _ _ (by decide) (by decide) (by decide) (by simp) (by simp) (by simp)
example : Aligned 5 3 (macd [a, b, c, d, e] 2 4) := macd_aligned _ _ _ (by decide) (by decide) (by simp)
example : Aligned 5 3 (ppo [a, b, c, d, e] 2 4) := ppo_aligned _ _ _ (by decide) (by decide) (by simp)
example : Aligned 5 3 (apo [a, b, c, d, e] 2 4) := apo_aligned _ _ _ (by decide) (by decide) (by simp)
example : Aligned 5 3 (cmo [a, b, c, d, e] 3) := cmo_aligned _ _ (by simp) (by simp)
example : Aligned 5 2 (cfo [a, b, c, d, e] 3) := cfo_aligned _ _ (by decide) (by simp)
example : Aligned2 5 2 2 (elder_ray [a, b, c, d, e] [b, c, d, e, a] [c, d, e, a, b] 3) :=
  elder_ray_aligned _ _ _ _ rfl rfl (by decide) (by simp)
example : Aligned 5 2 (wpr [a, b, c, d, e] [b, c, d, e, a] [c, d, e, a, b] 3) :=
  wpr_aligned _ _ _ _ rfl rfl (by decide) (by simp)
example : Aligned 5 3 (pmo [a, b, c, d, e] 2 2) := pmo_aligned _ _ _ (by decide) (by decide) (by simp)
example : Aligned 5 3 (ultimate [a, b, c, d, e] [b, c, d, e, a] [c, d, e, a, b] 1 2 3) :=
  ultimate_aligned _ _ _ _ _ _ rfl rfl (by decide) (by decide) (by decide) (by simp)
example : Aligned 5 3 (pgo [a, b, c, d, e] [b, c, d, e, a] [c, d, e, a, b] 3) :=
  pgo_aligned _ _ _ _ rfl rfl (by decide) (by simp)
example : Aligned 5 1 (si [d, e, a, b, c] [a, b, c, d, e] [b, c, d, e, a] [c, d, e, a, b] a) :=
  si_aligned _ _ _ _ _ rfl rfl rfl (by simp)
example : Aligned 5 4 (trix [a, b, c, d, e] 2) := trix_aligned _ _ (by decide) (by simp)
example : Aligned 5 1 (tii [a, b, c, d, e] 4) := tii_aligned _ _ (by decide) (by simp)
example : Aligned2 5 3 5 (stochastic [a, b, c, d, e] [b, c, d, e, a] [c, d, e, a, b] 2) :=
  stochastic_aligned _ _ _ _ rfl rfl (by decide) (by simp)
example : Aligned3 5 2 3 3 (kdj [a, b, c, d, e] [b, c, d, e, a] [c, d, e, a, b] 2 2 none none) :=
  kdj_aligned _ _ _ _ _ _ _ rfl rfl (by decide) (by decide) (by simp)
example : Aligned 30 18 (stc (List.replicate 30 a) 5 3 9) := by
  simpa using stc_aligned (List.replicate 30 a) 5 3 9 (by decide) (by decide) (by decide) (by simp) (by simp)
example : Aligned 5 4 (relative_vigor [d, e, a, b, c] [a, b, c, d, e] [b, c, d, e, a] [c, d, e, a, b] 2) :=
  relative_vigor_aligned _ _ _ _ _ rfl rfl rfl (by decide) (by simp)
example : Aligned 5 2 (fisher [a, b, c, d, e] [b, c, d, e, a] 3) :=
  fisher_aligned _ _ _ rfl (by decide) (by simp)
example : Aligned2 30 20 20 (rainbow (List.replicate 30 a) 3 10) := by
  simpa using rainbow_aligned (List.replicate 30 a) 3 10 (by decide) (by decide) (by decide) (by simp)
example : Aligned 5 4 (coppock [a, b, c, d, e] 2 1 3) := coppock_aligned _ _ _ _ (by decide) (by decide) (by simp)
example : Aligned 5 2 (roc [a, b, c, d, e] 3) := roc_aligned _ _ (by decide) (by simp)
example : Aligned 5 2 (bal_power [d, e, a, b, c] [a, b, c, d, e] [b, c, d, e, a] [c, d, e, a, b] 3) :=
  bal_power_aligned _ _ _ _ _ rfl rfl rfl (by decide) (by simp)
example : Aligned 5 2 (disparity [a, b, c, d, e] 3) := disparity_aligned _ _ (by decide) (by simp)
example : Aligned 5 2 (qstick [a, b, c, d, e] [b, c, d, e, a] 3) :=
  qstick_aligned _ _ _ rfl (by decide) (by simp)
example : Aligned 5 2 (cog [a, b, c, d, e] 3) := cog_aligned _ _ (by decide) (by simp)
example : Aligned 5 3 (psych [a, b, c, d, e] 3) := psych_aligned _ _ (by decide) (by simp)
example : Aligned 5 3 (tsi [a, b, c, d, e] 2 2) := tsi_aligned _ _ _ (by decide) (by decide) (by simp)
example : Aligned 40 19 (special_k (List.replicate 40 a)) := by
  simpa using special_k_aligned (List.replicate 40 a) (by simp)
example : Aligned 60 19 (kst (List.replicate 60 a) none none) := by
  simpa using kst_aligned (List.replicate 60 a) none none 10 15 20 30 10 10 10 15 rfl rfl (by decide)
    (by decide) (by decide) (by simp)
example : Aligned 30 18 (derivative (List.replicate 30 a) 5 3 8) := by
  simpa using derivative_aligned (List.replicate 30 a) 5 3 8 (by decide) (by decide) (by decide) (by simp)
example : Aligned 5 2 (cci [a, b, c, d, e] [b, c, d, e, a] [c, d, e, a, b] 3) :=
  cci_aligned _ _ _ _ rfl rfl (by decide) (by simp)
example : Aligned 30 17 (qqe (List.replicate 30 a) 5 3) := by
  simpa using qqe_aligned (List.replicate 30 a) 5 3 (by decide) (by decide) (by simp)
example : Aligned 30 14 (deli (List.replicate 30 a) (List.replicate 30 b) 5) := by
  simpa using deli_aligned (List.replicate 30 a) (List.replicate 30 b) 5 (by simp) (by decide) (by simp)
example : Aligned2 7 4 2 (gator [a, b, c, d, e] 3 2 2 1 2 0) :=
  gator_aligned _ _ _ _ _ _ _ (by decide) (by decide) (by decide) (by simp) (by simp) (by simp)
end

end Traquer.Momentum
