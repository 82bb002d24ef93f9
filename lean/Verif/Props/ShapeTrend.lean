import Verif.Props.ShapeMomentum
import Verif.Model.Trend
/-!
# C04, C07: one output per bar and warm-up of the trend indicators
-/

namespace Traquer.Trend
open FloatLit
open Traquer.Volatility (trueRange_yields atr_aligned argBest_isSome)
variable {F : Type} [FloatOps F]

/-- C04/C07: strong and weak ratio. -/
theorem shinohara_aligned (high low close : List F) (window : Nat) (hl : low.length = high.length)
    (hc : close.length = high.length) (hw : 1 ≤ window) (hn : window ≤ high.length) :
    Aligned2 high.length window (window - 1) (shinohara high low close window) := by
  refine ⟨_, by run_model [shinohara]; rfl, by simp; omega, by omega, by omega, fun hF => ⟨?_, ?_⟩⟩
  · exact warmUp_zip_fst (warmUp_nans_append (Nat.le_refl _))
  · exact warmUp_zip_snd (warmUp_nans_append (Nat.le_refl _))

omit [FloatOps F] in
theorem dmBars_yields (high low close : List F) (hl : low.length = high.length)
    (hc : close.length = high.length) (hn : 1 ≤ high.length) :
    Yields (high.length - 1) (dmBars high low close) :=
  ⟨_, by run_model [dmBars]; rfl, by simp; omega⟩

/-- C04/C07: +DI, -DI, ADX. -/
theorem adx_aligned (high low close : List F) (window smoothing : Nat) (hl : low.length = high.length)
    (hc : close.length = high.length) (hw : 1 ≤ window) (hs : 1 ≤ smoothing)
    (hn : window + (smoothing - 1) ≤ high.length) :
    Aligned3 high.length window window (window + (smoothing - 1))
      (adx high low close window smoothing) := by
  obtain ⟨v, ev, lv⟩ := dmBars_yields high low close hl hc (by omega)
  obtain ⟨a, ea, la, -, wa⟩ := Smooth.wilder_aligned ((v.map dmTerm).map (·.2.2)) window hw (by simp; omega)
  obtain ⟨p, ep, lp, -, wp⟩ := Smooth.wilder_aligned ((v.map dmTerm).map (·.1)) window hw (by simp; omega)
  obtain ⟨n, en, ln, -, wn⟩ := Smooth.wilder_aligned ((v.map dmTerm).map (·.2.1)) window hw (by simp; omega)
  simp at la lp ln
  obtain ⟨s, es, ls, -, ws⟩ := Smooth.wilder_aligned
    (((((p.zip a).map fun (di, tr) => di / tr * 100).drop (window - 1)).zip
      (((n.zip a).map fun (di, tr) => di / tr * 100).drop (window - 1))).map fun (pos, neg) =>
        fabs (pos - neg) / (pos + neg) * 100) smoothing hs (by simp; omega)
  simp at ls
  refine ⟨(nan, nan, nan) :: zip3 ((p.zip a).map fun (di, tr) => di / tr * 100)
    ((n.zip a).map fun (di, tr) => di / tr * 100) (nans (window - 1) ++ s), ?_, by simp; omega,
    by omega, by omega, by omega, fun hF => ?_⟩
  · run_model [adx, ev]
    erw [ea]; rw [Option.bind_some]
    erw [ep]; rw [Option.bind_some]
    erw [en]; run_model [es]
  · simp only [List.map_cons, zip3_eq]
    refine ⟨warmUp_cons ?_, warmUp_cons ?_, warmUp_cons ?_⟩
    · refine warmUp_zip_left (warmUp_zip_left (wp hF) (by intros; nanp)) (by intros; nanp)
    · apply warmUp_map_of
      rintro i hi ⟨x, y, z⟩ hb
      simp only [List.getElem?_zip_eq_some] at hb
      exact warmUp_iff.1 (warmUp_zip_left (wn hF) (f := fun (di, tr) => di / tr * 100) (by intros; nanp))
        i hi y hb.2.1
    · apply warmUp_map_of
      rintro i hi ⟨x, y, z⟩ hb
      simp only [List.getElem?_zip_eq_some] at hb
      exact warmUp_iff.1 (warmUp_append (k := window - 1 + (smoothing - 1)) ((ws hF).mono (by omega)))
        i (by omega) z hb.2.2

/-- C04/C07: VI+ and VI-. -/
theorem vortex_aligned (high low close : List F) (window : Nat) (hl : low.length = high.length)
    (hc : close.length = high.length) (hw : 1 ≤ window) (hn : window ≤ high.length) :
    Aligned2 high.length window window (vortex high low close window) := by
  obtain ⟨v, ev, lv⟩ := dmBars_yields high low close hl hc (by omega)
  run_model [vortex, ev]
  refine aligned2_mapP ?_ (by simp; omega) (by omega)
  intro x hx
  have := windowsOf_mem_length hx
  cases x with
  | nil => simp at this; omega
  | cons y ys => simp [reduce3]

/-- C04/C07 -/
theorem asi_aligned (openp high low close : List F) (limit : F) (ho : openp.length = high.length)
    (hl : low.length = high.length) (hc : close.length = high.length) (hn : 1 ≤ high.length) :
    Aligned high.length 1 (asi openp high low close limit) := by
  obtain ⟨s, es, ls⟩ := Momentum.swing_yields openp high low close limit ho hl hc hn
  run_model [asi, es]
  exact aligned_of_nan (by simp; omega) (by omega)

/-- C04/C07 -/
theorem ulcer_aligned (data : List F) (window : Nat) (hw : 1 ≤ window)
    (hn : 2 * (window - 1) ≤ data.length) :
    Aligned data.length (2 * (window - 1)) (ulcer data window) := by
  obtain ⟨m, em, lm, -, wm⟩ := Smooth.sma_aligned ((((windowsOf window data).map Volatility.foldMax).zip
    (data.drop (window - 1))).map fun (high, c) => powi (100 * (c - high) / high) 2) window hw
    (by simp; omega)
  simp at lm
  refine ⟨_, by run_model [ulcer]; erw [em]; rfl, by simp; omega, by omega, fun hF => ?_⟩
  apply warmUp_append
  refine (warmUp_map (wm hF) ?_).mono (by omega)
  intros; nanp

/-- C04/C07: until the average true range exists the line is NaN. -/
theorem supertrend_aligned (high low close : List F) (window : Nat) (multiplier : F)
    (hl : low.length = high.length) (hc : close.length = high.length) (hw : 1 ≤ window)
    (hn : window ≤ high.length) :
    Aligned high.length window (supertrend high low close window multiplier) := by
  obtain ⟨t, et, lt⟩ := trueRange_yields high low close hl hc (by omega)
  obtain ⟨w, ew, lw, -, ww⟩ := Smooth.wilder_aligned t window hw (by omega)
  refine ⟨_, by run_model [supertrend, et, ew]; rfl, by simp; omega, hn, fun hF => ?_⟩
  have wt : WarmUp window (nan :: w) := warmUp_cons (ww hF)
  have key : ∀ (k : Nat) (high low close tr : List F) (s : StState F), WarmUp k tr →
      WarmUp k (scan (supertrendStep multiplier) s (zip4 high low close tr)) := by
    intro k
    induction k with
    | zero => intros; exact warmUp_zero _
    | succ k ih =>
      intro high low close tr s h
      match high, low, close, tr with
      | [], _, _, _ => simpa [zip4_eq, scan] using warmUp_nil _
      | _ :: _, [], _, _ => simpa [zip4_eq, scan] using warmUp_nil _
      | _ :: _, _ :: _, [], _ => simpa [zip4_eq, scan] using warmUp_nil _
      | _ :: _, _ :: _, _ :: _, [] => simpa [zip4_eq, scan] using warmUp_nil _
      | x :: xs, y :: ys, z :: zs, t :: ts =>
        have ht : isNaN t = true := h t (by simp)
        have hts : WarmUp k ts := by
          intro a ha
          exact h a (by simp [ha])
        have hlow : isNaN ((x + y) / 2 - multiplier * t) = true := by nanp
        have hup : isNaN ((x + y) / 2 + multiplier * t) = true := by nanp
        rw [show zip4 (x :: xs) (y :: ys) (z :: zs) (t :: ts) = (x, y, z, t) :: zip4 xs ys zs ts by
          simp [zip4_eq]]
        simp only [scan]
        intro a ha
        rw [List.take_succ_cons, List.mem_cons] at ha
        rcases ha with rfl | ha
        · simp only [supertrendStep, NaNLaws.lt_left _ _ hlow, NaNLaws.lt_right _ _ hup,
            Bool.and_false, Bool.false_eq_true, if_false]
          repeat' split
          all_goals assumption
        · exact ih _ _ _ _ _ hts a ha
  exact key _ _ _ _ _ _ wt

/-- C04/C07: high and low index. -/
theorem rwi_aligned (high low close : List F) (window : Nat) (hl : low.length = high.length)
    (hc : close.length = high.length) (hw : 1 ≤ window) (hn : window ≤ high.length) :
    Aligned2 high.length window window (rwi high low close window) := by
  obtain ⟨t, et, lt⟩ := trueRange_yields high low close hl hc (by omega)
  run_model [rwi, et]
  refine aligned2_mapP ?_ (by simp; omega) (by omega)
  rintro ⟨h, l, tr⟩ hx
  rw [zip3_eq] at hx
  obtain ⟨a, b⟩ := List.of_mem_zip hx
  obtain ⟨b, c⟩ := List.of_mem_zip b
  have la := windowsOf_mem_length a
  have lb := windowsOf_mem_length b
  have lc := windowsOf_mem_length c
  obtain ⟨o, ho, -⟩ := Momentum.foldlM_inv (I := fun _ => True) (f := rwiStep window h l tr)
    (l := List.range' 2 (window - 1)) (s := (0, 0, 0)) (by
      intro s _ i hi
      rw [List.mem_range'_1] at hi
      simp (disch := omega) only [rwiStep, usub_of_le, getElem?_of_lt, Option.bind_eq_bind,
        Option.bind_some]
      exact ⟨_, rfl, trivial⟩) trivial
  simp [ho]

/-- C04/C07 -/
theorem psar_aligned (high low : List F) (af afMax : Option F) (hl : low.length = high.length)
    (hn : 1 ≤ high.length) : Aligned high.length 1 (psar high low af afMax) := by
  run_model [psar, getElem?_of_lt]
  obtain ⟨o, ho⟩ := scanM_isSome (f := fun (s : SarState F) i => (high[i + 1]?).bind fun h =>
    (low[i + 1]?).bind fun l => (high[max i 1 - 1]?).bind fun hp => (low[max i 1 - 1]?).bind fun lp =>
    some (psarStep (af.getD 0.02) (afMax.getD 0.2) s hp lp h l,
      (psarStep (af.getD 0.02) (afMax.getD 0.2) s hp lp h l).sar)) (l := List.range (high.length - 1)) (by
      intro s i hi
      rw [List.mem_range] at hi
      simp (disch := omega) only [getElem?_of_lt, Option.bind_some, Option.isSome_some])
      { af := af.getD 0.02, fall := true, sar := high[0], ep := low[0] }
  have lo := scanM_length ho
  simp at lo
  erw [ho]
  exact aligned_of_nan (by omega) (by omega)

/-- C04/C07, for every averaging mode. Windows below 3 panic, see `dpo_panics`. -/
theorem dpo_aligned (data : List F) (window r : Nat) (mode : Option Smooth.MaMode) (h : 3 ≤ window)
    (hr : toUsize (floor (sqrt (flt window : F))) = r) (h1 : 1 ≤ r)
    (hp : mode.getD .SMA = .Pascal → window ≤ 63)
    (hn : Smooth.maWarmUp window r (mode.getD .SMA) < data.length) (hn' : window ≤ data.length + 1) :
    Aligned data.length (window - 1) (dpo data window mode) := by
  obtain ⟨m, em, lm, -, -⟩ := Smooth.ma_aligned data window r (mode.getD .SMA) (by omega) hr h1 hp hn
  run_model [dpo, em]
  exact aligned_of_nans (by simp; omega) (by omega)

/-- C15: detrended price with a window of 1 or 2 panics on every input. -/
theorem dpo_panics (data : List F) (window : Nat) (mode : Option Smooth.MaMode) (h : window ≤ 2) :
    dpo data window mode = none := by
  simp only [dpo, Option.bind_eq_bind, Option.bind_eq_none_iff]
  intro m _ k hk a ha b hb
  have h1 : window - (window / 2 + 1) = a := by
    simp [usub] at ha; exact ha.2
  have h2 : 1 ≤ a := by
    simp [usub] at hb; exact hb.1
  omega

/-- C04/C07: up and down. -/
theorem aroon_aligned (high low : List F) (window : Nat) (hl : low.length = high.length)
    (hn : window ≤ high.length) :
    Aligned2 high.length window window (aroon high low window) := by
  run_model [aroon]
  refine aligned2_mapP ?_ (by simp; omega) (by omega)
  rintro ⟨h, l⟩ hx
  obtain ⟨a, b⟩ := List.of_mem_zip hx
  have la := windowsOf_mem_length a
  have lb := windowsOf_mem_length b
  obtain ⟨i, ei⟩ := argBest_isSome (fun (x y : F) => x >=. y) (l := h) (by omega)
  obtain ⟨j, ej⟩ := argBest_isSome (fun (x y : F) => x <=. y) (l := l) (by omega)
  simp only [ei, ej, Option.bind_some, Option.isSome_some]

/-- C04/C07: long and short stop. -/
theorem chandelier_aligned (high low close : List F) (window : Nat) (mult : Option F)
    (hl : low.length = high.length) (hc : close.length = high.length) (hw : 1 ≤ window)
    (hn : window ≤ high.length) :
    Aligned2 high.length window window (chandelier high low close window mult) := by
  obtain ⟨a, ea, la, -, -⟩ := atr_aligned high low close window hl hc hw hn
  run_model [chandelier, ea]
  exact aligned2_of_replicate (by simp; omega) (by omega)

/-! ### zigzag -/

theorem zigInit_ok (distance h0 l0 : F) (high low : List F) (n : Nat) (hh : high.length = n)
    (hl : low.length = n) (idx : List Nat) (hi : ∀ i ∈ idx, i < n) (s : ZigState F)
    (hs : s.result.length = n) :
    ∃ s', zigInit distance h0 l0 high low idx s = some s' ∧ s'.result.length = n := by
  induction idx with
  | nil => exact ⟨s, rfl, hs⟩
  | cons i rest ih =>
    have := hi i (by simp)
    simp (disch := omega) only [zigInit, getElem?_of_lt, Option.bind_eq_bind, Option.bind_some]
    split
    · exact ⟨_, rfl, by simpa using hs⟩
    · split
      · exact ⟨_, rfl, by simpa using hs⟩
      · exact ih (fun j hj => hi j (by simp [hj]))

/-- One step where the bar has a high and a low. -/
theorem zigStep_of (distance : F) {high low : List F} (s : ZigState F) {i : Nat} {h l : F} (eh : high[i]? = some h) (el : low[i]? = some l) :
    zigStep distance high low s i =
      if (s.fin.2 >. s.start.2) && (h >. s.fin.2) then some { s with fin := (i, h) }
      else if (s.fin.2 <. s.start.2) && ((h - s.fin.2) / h * 100 >=. distance) then
        some { result := s.result.set s.fin.1 s.fin.2, start := s.fin, fin := (i, h) }
      else if (s.fin.2 <. s.start.2) && (l <. s.fin.2) then some { s with fin := (i, l) }
      else if (s.fin.2 >. s.start.2) && ((s.fin.2 - l) / l * 100 >=. distance) then
        some { result := s.result.set s.fin.1 s.fin.2, start := s.fin, fin := (i, l) }
      else some s := by
  have ha : ∀ a b : Bool, andThen a (some b) = some (a && b) := fun a b => by cases a <;> rfl
  simp only [zigStep, eh, el, Option.bind_eq_bind, Option.bind_some, Option.map_some, ha]

theorem zigStep_ok (distance : F) (high low : List F) (n : Nat) (hh : high.length = n)
    (hl : low.length = n) (i : Nat) (hi : i < n) (s : ZigState F) (hs : s.result.length = n) :
    ∃ s', zigStep distance high low s i = some s' ∧ s'.result.length = n := by
  rw [zigStep_of distance s (getElem?_of_lt (by omega)) (getElem?_of_lt (by omega))]
  split
  · exact ⟨_, rfl, hs⟩
  split
  · exact ⟨_, rfl, by simpa using hs⟩
  split
  · exact ⟨_, rfl, hs⟩
  split
  · exact ⟨_, rfl, by simpa using hs⟩
  · exact ⟨_, rfl, hs⟩

/-- C04 -/
theorem zigzag_yields (high low : List F) (distance : Option F) (hl : low.length = high.length)
    (hn : 1 ≤ high.length) : Yields high.length (zigzag high low distance) := by
  have hlast : high.getLast? = some (high.getLast (by intro h; simp [h] at hn)) :=
    List.getLast?_eq_some_getLast _
  have llast : low.getLast? = some (low.getLast (by intro h; simp [h] at hl; omega)) :=
    List.getLast?_eq_some_getLast _
  obtain ⟨s, es, ls⟩ := zigInit_ok (distance.getD 5) high[0] low[0] high low high.length rfl hl
    ((List.range high.length).drop 1) (fun i hi => (mem_range_drop.1 hi).2)
    { result := (List.replicate high.length nan).set 0 low[0], start := (0, low[0]),
      fin := (high.length - 1, high.getLast (by intro h; simp [h] at hn)) } (by simp)
  have step2 : ∃ s2, (if s.fin.1 < high.length - 1 then
      ((List.range high.length).drop s.fin.1).foldlM (zigStep (distance.getD 5) high low) s
      else some s) = some s2 ∧ s2.result.length = high.length := by
    split
    · exact Momentum.foldlM_inv (I := fun s : ZigState F => s.result.length = high.length)
        (fun s hs i hi => zigStep_ok _ _ _ _ rfl hl i (mem_range_drop.1 hi).2 s hs) ls
    · exact ⟨s, rfl, ls⟩
  obtain ⟨s2, es2, ls2⟩ := step2
  have e0 : high[0]? = some high[0] := getElem?_of_lt (by omega)
  have e1 : low[0]? = some low[0] := getElem?_of_lt (by omega)
  have e2 : s2.result.getLast? = some (s2.result.getLast (by intro h; simp [h] at ls2; omega)) :=
    List.getLast?_eq_some_getLast _
  have tot : ∀ last : F, Yields high.length (if isNaN last = true then
      (if (s2.start.2 >. s2.fin.2) = true then high.getLast? else low.getLast?).bind fun v =>
        some (s2.result.set (s2.result.length - 1) v) else some s2.result) := by
    intro last
    rw [hlast, llast]
    split
    · split
      · exact ⟨_, rfl, by simpa using ls2⟩
      · exact ⟨_, rfl, by simpa using ls2⟩
    · exact ⟨_, rfl, ls2⟩
  have : zigzag high low distance = (if isNaN (s2.result.getLast (by intro h; simp [h] at ls2; omega)) = true then
      (if (s2.start.2 >. s2.fin.2) = true then high.getLast? else low.getLast?).bind fun v =>
        some (s2.result.set (s2.result.length - 1) v) else some s2.result) := by
    unfold zigzag
    simp only [Option.bind_eq_bind, e0, e1, hlast, Option.bind_some, usub_of_le hn, es]
    by_cases hc : s.fin.1 < high.length - 1
    · rw [if_pos hc] at es2 ⊢
      simp only [es2, Option.bind_some, e2]
      split
      · split <;> rfl
      · rfl
    · rw [if_neg hc] at es2 ⊢
      cases es2
      simp only [Option.bind_some, e2]
      split
      · split <;> rfl
      · rfl
  rw [this]
  exact tot _

/-- C04 -/
@[simp] theorem decay_length (data : List F) (window : Nat) : (decay data window).length = data.length := by
  simp [decay]

/-- C04/C07: long and short Kase stop. -/
theorem cks_aligned (high low close : List F) (win1 win2 : Nat) (mult : Option F)
    (hl : low.length = high.length) (hc : close.length = high.length) (h1 : 1 ≤ win1) (h2 : 1 ≤ win2)
    (hn : win1 + (win2 - 1) ≤ high.length) :
    Aligned2 high.length (win1 + (win2 - 1)) (win1 + (win2 - 1)) (cks high low close win1 win2 mult) := by
  obtain ⟨a, ea, la, -, -⟩ := atr_aligned high low close win1 hl hc h1 (by omega)
  run_model [cks, ea]
  exact aligned2_of_replicate (by simp; omega) (by omega)

/-- C04/C07 -/
theorem atr_stop_aligned (high low close : List F) (window : Nat) (mult : Option F)
    (hl : low.length = high.length) (hc : close.length = high.length) (hw : 1 ≤ window)
    (hn : window ≤ high.length) :
    Aligned high.length window (atr_stop high low close window mult) := by
  obtain ⟨a, ea, la, -, -⟩ := atr_aligned high low close window hl hc hw hn
  run_model [atr_stop, ea]
  refine aligned_scanM ?_ (by simp; omega) (by omega)
  rintro s ⟨c, x⟩ hx
  have := windowsOf_mem_length (List.mem_of_mem_drop (List.of_mem_zip hx).1)
  simp (disch := omega) only [getElem?_of_lt, Option.bind_some, Option.isSome_some]

theorem midLine_ok (high low : List F) (win pad : Nat) (hl : low.length = high.length) (hw : 1 ≤ win) :
    ∃ o, midLine high low win pad = some o ∧ o.length = pad + (high.length + 1 - win) ∧
      (NaNLaws F → WarmUp pad o) :=
  ⟨_, by run_model [midLine]; rfl, by simp; omega, fun _ => warmUp_nans_append (Nat.le_refl _)⟩

/-- C04/C07: conversion, base, leading A, leading B, lagging. The output extends `baseWin` bars into
the future; the first four lines have their own warm-up, the lagging line has none. -/
theorem ichimoku_aligned (high low close : List F) (cw bw lw gw : Nat) (hl : low.length = high.length)
    (hc : close.length = high.length) (h1 : 1 ≤ cw) (h2 : 1 ≤ bw) (h3 : 1 ≤ lw)
    (n1 : cw ≤ high.length + 1) (n2 : bw ≤ high.length + 1) (n3 : lw ≤ high.length + 1)
    (n4 : gw ≤ high.length) :
    ∃ out, ichimoku high low close cw bw lw gw = some out ∧ out.length = high.length + bw ∧
      (NaNLaws F → WarmUp (cw - 1) (out.map fun x => x.1) ∧ WarmUp (bw - 1) (out.map fun x => x.2.1) ∧
        WarmUp (bw + (max cw bw - 1)) (out.map fun x => x.2.2.1) ∧
        WarmUp (bw + (lw - 1)) (out.map fun x => x.2.2.2.1)) := by
  obtain ⟨c, ec, lc, wc⟩ := midLine_ok high low cw (cw - 1) hl h1
  obtain ⟨b, eb, lb, wb⟩ := midLine_ok high low bw (bw - 1) hl h2
  obtain ⟨d, ed, ld, wd⟩ := midLine_ok high low lw (lw - 1 + bw) hl h3
  refine ⟨_, by run_model [ichimoku, ec, eb, ed]; rfl, by simp; omega, fun hF => ?_⟩
  simp only [zip5_eq]
  refine ⟨?_, ?_, ?_, ?_⟩
  all_goals
    apply warmUp_map_of
    rintro i hi ⟨x, y, z, u, v⟩ hb
    simp only [List.getElem?_zip_eq_some] at hb
    simp only
  · exact warmUp_iff.1 ((wc hF).append_right (by omega)) i hi x hb.1
  · exact warmUp_iff.1 ((wb hF).append_right (by omega)) i hi y hb.2.1
  · refine warmUp_iff.1 (warmUp_append (k := bw + (max cw bw - 1)) ?_) i hi z hb.2.2.1
    refine (Momentum.warmUp_zip2 (wc hF) (wb hF) ?_ ?_).mono (by omega) <;> intros <;> nanp
  · exact warmUp_iff.1 (wd hF) i (by omega) u hb.2.2.2.1

omit [FloatOps F] in
theorem chunksExact_mem {x : Nat} {l : List F} {cs : List (List F)} (h : chunksExact x l = some cs)
    {c : List F} (hc : c ∈ cs) : c.length = x := by
  unfold chunksExact at h
  split at h
  · cases h
  · simp only [Option.some.injEq] at h
    subst h
    simp only [List.mem_map, List.mem_range] at hc
    obtain ⟨i, hi, rfl⟩ := hc
    simp
    have := Nat.div_mul_le_self l.length x
    have h2 : (i + 1) * x ≤ l.length / x * x := Nat.mul_le_mul_right _ hi
    rw [Nat.add_mul] at h2
    omega

/-- C04/C07/C61: once the list of chunk sizes exists (the loop that builds it ends) and its entries are
positive, `hurst` yields one value per bar. -/
theorem hurst_aligned (data : List F) (window : Nat) (minWin : Option Nat) (sizes : List Nat)
    (hs : hurstSizes window (log10 (flt (minWin.getD 4) : F)) = some sizes) (hp : ∀ x ∈ sizes, 1 ≤ x)
    (hw : 1 ≤ window) (hn : window ≤ data.length + 1) :
    Aligned data.length (window - 1) (hurst data window minWin) := by
  run_model [hurst, hs]
  refine aligned_mapP ?_ (by simp; omega) (by omega)
  intro w hw'
  obtain ⟨o, ho⟩ := mapP_isSome (f := fun x => (chunksExact x w).bind fun chunks =>
      (mapP hurst_rs chunks).bind fun vals =>
      some (log10 (vals.foldl (fun acc v => acc + v) 0 / flt chunks.length))) (l := sizes ++ [window]) (by
    intro x hx
    have hx1 : 1 ≤ x := by
      rcases List.mem_append.1 hx with h | h
      · exact hp x h
      · simp at h; omega
    have hcs : ∃ cs, chunksExact x w = some cs := ⟨_, by simp only [chunksExact]; rw [if_neg (by omega)]⟩
    obtain ⟨cs, hcs⟩ := hcs
    obtain ⟨v, hv⟩ := mapP_isSome (f := hurst_rs) (l := cs) (by
      intro c hc
      have := chunksExact_mem hcs hc
      simp only [hurst_rs, Option.bind_eq_bind, usub_of_le (show 1 ≤ c.length by omega), Option.bind_some,
        Option.isSome_some])
    simp [hcs, hv])
  erw [ho]
  simp

/-! ## The hypotheses are met by ordinary calls -/

section
variable (a b c d e : F)
example : Aligned2 5 3 2 (shinohara [a, b, c, d, e] [b, c, d, e, a] [c, d, e, a, b] 3) :=
  shinohara_aligned _ _ _ _ rfl rfl (by decide) (by simp)
example : Aligned3 5 2 2 4 (adx [a, b, c, d, e] [b, c, d, e, a] [c, d, e, a, b] 2 3) :=
  adx_aligned _ _ _ _ _ rfl rfl (by decide) (by decide) (by simp)
example : Aligned2 5 3 3 (vortex [a, b, c, d, e] [b, c, d, e, a] [c, d, e, a, b] 3) :=
  vortex_aligned _ _ _ _ rfl rfl (by decide) (by simp)
example : Aligned 5 1 (asi [d, e, a, b, c] [a, b, c, d, e] [b, c, d, e, a] [c, d, e, a, b] a) :=
  asi_aligned _ _ _ _ _ rfl rfl rfl (by simp)
example : Aligned 5 4 (ulcer [a, b, c, d, e] 3) := ulcer_aligned _ _ (by decide) (by simp)
example : Aligned 5 3 (supertrend [a, b, c, d, e] [b, c, d, e, a] [c, d, e, a, b] 3 a) :=
  supertrend_aligned _ _ _ _ _ rfl rfl (by decide) (by simp)
example : Aligned2 5 3 3 (rwi [a, b, c, d, e] [b, c, d, e, a] [c, d, e, a, b] 3) :=
  rwi_aligned _ _ _ _ rfl rfl (by decide) (by simp)
example : Aligned 5 1 (psar [a, b, c, d, e] [b, c, d, e, a] none none) :=
  psar_aligned _ _ _ _ rfl (by simp)
example (r : Nat) (hr : toUsize (floor (sqrt (flt 4 : F))) = r) (h1 : 1 ≤ r) :
    Aligned 5 3 (dpo [a, b, c, d, e] 4 none) :=
  dpo_aligned _ _ r _ (by decide) hr h1 (fun _ => by decide) (by simp [Smooth.maWarmUp]) (by simp)
example : Aligned2 5 3 3 (aroon [a, b, c, d, e] [b, c, d, e, a] 3) := aroon_aligned _ _ _ rfl (by simp)
example : Aligned2 5 3 3 (chandelier [a, b, c, d, e] [b, c, d, e, a] [c, d, e, a, b] 3 none) :=
  chandelier_aligned _ _ _ _ _ rfl rfl (by decide) (by simp)
example : Yields 5 (zigzag [a, b, c, d, e] [b, c, d, e, a] none) := zigzag_yields _ _ _ rfl (by simp)
example : Aligned2 5 4 4 (cks [a, b, c, d, e] [b, c, d, e, a] [c, d, e, a, b] 2 3 none) :=
  cks_aligned _ _ _ _ _ _ rfl rfl (by decide) (by decide) (by simp)
example : Aligned 5 3 (atr_stop [a, b, c, d, e] [b, c, d, e, a] [c, d, e, a, b] 3 none) :=
  atr_stop_aligned _ _ _ _ _ rfl rfl (by decide) (by simp)
example : ∃ out, ichimoku [a, b, c, d, e] [b, c, d, e, a] [c, d, e, a, b] 2 3 4 3 = some out ∧
    out.length = 8 := by
  obtain ⟨o, h1, h2, -⟩ := ichimoku_aligned [a, b, c, d, e] [b, c, d, e, a] [c, d, e, a, b] 2 3 4 3
    rfl rfl (by decide) (by decide) (by decide) (by simp) (by simp) (by simp) (by simp)
  exact ⟨o, h1, h2⟩
end

end Traquer.Trend
