import Verif.Lemmas.RoundsTo
import Verif.Lemmas.Items
import Verif.Props.ShapeVolatility
/-!
# C36: true range and its average
-/

namespace Traquer.Volatility
open FP FloatLit
variable {ρ : Rounding}

theorem isNaN_roundsTo {x : FP ρ} {a : ℝ} (h : RoundsTo x a) : Traquer.isNaN x = false := h.1

theorem trTerm_roundsTo {h l c : FP ρ} {a b d : ℝ} (ha : h ⇓ a) (hb : l ⇓ b) (hc : c ⇓ d) :
    RoundsTo (fmax (fmax (h - l) (fabs (h - c))) (fabs (l - c))) (trueRangeOf a b d) := by
  have := ((rounds_sub ha hb).to.fmax (rounds_sub ha hc).to.abs).fmax (rounds_sub hb hc).to.abs
  rwa [max_assoc] at this

theorem fmax_or (x y : FP ρ) : fmax x y = x ∨ fmax x y = y := by
  unfold fmax
  split
  · exact Or.inr rfl
  · split
    · exact Or.inl rfl
    · split
      · exact Or.inr rfl
      · exact Or.inl rfl

/-- Items of `trueRange`. -/
theorem trueRange_items {high low close : List (FP ρ)} {t : List (FP ρ)} (e : trueRange high low close = some t) {j : ℕ} {y : FP ρ}
    (hy : t[j]? = some y) : ∃ h l c, high[j + 1]? = some h ∧ low[j + 1]? = some l ∧ close[j]? = some c ∧
      y = fmax (fmax (h - l) (fabs (h - c))) (fabs (l - c)) := by
  obtain ⟨h1, eh, e⟩ := Option.bind_eq_some_iff.1 e
  obtain ⟨-, rfl⟩ := sliceFrom_some eh
  obtain ⟨l1, el, e⟩ := Option.bind_eq_some_iff.1 e
  obtain ⟨-, rfl⟩ := sliceFrom_some el
  obtain ⟨n, en, e⟩ := Option.bind_eq_some_iff.1 e
  obtain ⟨-, rfl⟩ := usub_some en
  obtain ⟨p, ep, e⟩ := Option.bind_eq_some_iff.1 e
  obtain ⟨-, rfl⟩ := sliceTo_some ep
  cases e
  rw [List.getElem?_map] at hy
  obtain ⟨⟨h, l, c⟩, hp, rfl⟩ := Option.map_eq_some_iff.1 hy
  obtain ⟨e1, e2, e3⟩ := zip3_getElem?.1 hp
  rw [List.getElem?_drop] at e1 e2
  rw [List.getElem?_take] at e3
  split at e3
  · exact ⟨h, l, c, by rw [Nat.add_comm]; exact e1, by rw [Nat.add_comm]; exact e2, e3, rfl⟩
  · cases e3

/-- C36: in every rounding, from bar 1 on `tr` is the largest of the three (rounded) distances high - low,
|high - previous close| and |low - previous close|: it is one of them, at least each of them, and not negative. -/
theorem tr_largest (high low close : List (FP ρ)) (hl : low.length = high.length) (hc : close.length = high.length)
    (hn : 1 ≤ high.length) (fh : Fins high) (fl : Fins low) (fc : Fins close) :
    Items high.length 1 (fun i y => ∃ h l c, high[i]? = some h ∧ low[i]? = some l ∧ close[i - 1]? = some c ∧
      (y = h - l ∨ y = fabs (h - c) ∨ y = fabs (l - c)) ∧ (h - l <=. y) = true ∧ (fabs (h - c) <=. y) = true ∧
      (fabs (l - c) <=. y) = true ∧ (y = inf false ∨ ∃ r, y ⇓ r ∧ 0 ≤ r)) (tr high low close) := by
  obtain ⟨t, e, lt⟩ := trueRange_yields high low close hl hc hn
  refine ⟨nan :: t, by run_model [tr, e], by simp; omega, fun i y hi hy => ?_⟩
  obtain ⟨j, rfl⟩ : ∃ j, i = j + 1 := ⟨i - 1, by omega⟩
  rw [List.getElem?_cons_succ] at hy
  obtain ⟨h, l, c, eh, el, ec, rfl⟩ := trueRange_items e hy
  refine ⟨h, l, c, eh, el, ec, ?_, ?_⟩
  · rcases fmax_or (fmax (h - l) (fabs (h - c))) (fabs (l - c)) with h1 | h1
    · rw [h1]
      rcases fmax_or (h - l) (fabs (h - c)) with h2 | h2
      · exact Or.inl h2
      · exact Or.inr (Or.inl h2)
    · exact Or.inr (Or.inr h1)
  · have ih := (fh.isAt eh)
    have il := (fl.isAt el)
    have ic := (fc.isAt ec)
    have T := trTerm_roundsTo ih il ic
    refine ⟨(rounds_sub ih il).to.le T (le_max_left _ _), (rounds_sub ih ic).to.abs.le T ?_,
      (rounds_sub il ic).to.abs.le T ?_, T.nonNegInf ?_⟩
    · exact (le_max_left _ _).trans (le_max_right _ _)
    · exact (le_max_right _ _).trans (le_max_right _ _)
    · exact (abs_nonneg _).trans ((le_max_left _ _).trans (le_max_right _ _))

theorem trueRange_is {high low close : List XF} (hl : low.length = high.length) (hc : close.length = high.length)
    (hn : 1 ≤ high.length) (fh : Fins high) (fl : Fins low) (fc : Fins close) :
    ∃ t, trueRange high low close = some t ∧ Fins t ∧ vals t = trueRanges (vals high) (vals low) (vals close) := by
  obtain ⟨t, e, lt⟩ := trueRange_yields high low close hl hc hn
  have key : ∀ j y, t[j]? = some y → ∃ v, (trueRanges (vals high) (vals low) (vals close))[j]? = some v ∧ y ⇓ v := fun j y hy => by
    obtain ⟨h, l, c, eh, el, ec, rfl⟩ := trueRange_items e hy
    refine ⟨trueRangeOf h.val l.val c.val, ?_, (trTerm_roundsTo (fh.isAt eh) (fl.isAt el) (fc.isAt ec)).is⟩
    rw [trueRanges, List.getElem?_map, (zip3_getElem? (x := h.val) (y := l.val) (z := c.val)).2 ⟨?_, ?_, ?_⟩]
    · rfl
    · rw [List.getElem?_tail, vals_getElem?, eh]; rfl
    · rw [List.getElem?_tail, vals_getElem?, el]; rfl
    · rw [vals_getElem?, ec]; rfl
  refine ⟨t, e, fun y hy => ?_, ?_⟩
  · obtain ⟨j, hj⟩ := List.mem_iff_getElem?.1 hy
    obtain ⟨v, -, hv⟩ := key j y hj
    exact hv.1
  · apply List.ext_getElem?
    intro j
    rw [vals_getElem?]
    cases ht : t[j]? with
    | none =>
      rw [Option.map_none, eq_comm, List.getElem?_eq_none_iff]
      rw [List.getElem?_eq_none_iff] at ht
      simp [trueRanges]
      omega
    | some y =>
      obtain ⟨v, h1, h2⟩ := key j y ht
      rw [h1, Option.map_some, h2.2]

/-- C36: in exact arithmetic `tr` at bar `i ≥ 1` is `max (high - low, |high - previous close|, |low - previous close|)`. -/
theorem tr_reports (high low close : List XF) (hl : low.length = high.length) (hc : close.length = high.length)
    (hn : 1 ≤ high.length) (fh : Fins high) (fl : Fins low) (fc : Fins close) :
    Reports high.length 1 (fun i => (trueRanges (vals high) (vals low) (vals close))[i - 1]?.getD 0) (tr high low close) := by
  obtain ⟨t, e, ft, ev⟩ := trueRange_is hl hc hn fh fl fc
  have lt : t.length = high.length - 1 := by
    have := congrArg List.length ev
    simp [trueRanges] at this
    omega
  run_model [tr, e]
  have := (ft.reports.pad 1).cast (n' := high.length) (k' := 1) (by omega) (by omega)
  rw [ev] at this
  exact this

/-- C36: `atr` is never negative, in every rounding: from bar `w` on it is a non-negative number, or `+∞` after an overflow. -/
theorem atr_nonneg (high low close : List (FP ρ)) (w : ℕ) (hl : low.length = high.length) (hc : close.length = high.length)
    (hw : 1 ≤ w) (hw' : w ≤ 2 ^ 53) (hn : w ≤ high.length) (fh : Fins high) (fl : Fins low) (fc : Fins close) :
    Items high.length w (fun _ y => y = inf false ∨ ∃ r, y ⇓ r ∧ 0 ≤ r) (atr high low close w) := by
  obtain ⟨o, eo, lo, -⟩ := atr_aligned high low close w hl hc hw hn
  refine ⟨o, eo, lo, fun i y hi hy => ?_⟩
  obtain ⟨t, e, lt⟩ := trueRange_yields high low close hl hc (by omega)
  obtain ⟨t', et, eo⟩ := Option.bind_eq_some_iff.1 eo
  cases e.symm.trans et
  obtain ⟨u, eu, eo⟩ := Option.bind_eq_some_iff.1 eo
  cases eo
  obtain ⟨j, rfl⟩ : ∃ j, i = j + 1 := ⟨i - 1, by omega⟩
  rw [List.getElem?_cons_succ] at hy
  refine NonNegInf.wilder hw hw' (fun x hx => ?_) eu (by omega) hy
  obtain ⟨j, hj⟩ := List.mem_iff_getElem?.1 hx
  obtain ⟨h, l, c, eh, el, ec, rfl⟩ := trueRange_items e hj
  exact (trTerm_roundsTo (fh.isAt eh) (fl.isAt el) (fc.isAt ec)).nonNegInf
    ((abs_nonneg _).trans ((le_max_left _ _).trans (le_max_right _ _)))

/-- C36: in exact arithmetic `atr` is Wilder's average of the true ranges, and not negative. -/
theorem atr_reports (high low close : List XF) (w : ℕ) (hl : low.length = high.length) (hc : close.length = high.length)
    (hw : 1 ≤ w) (hn : w + 1 ≤ high.length) (fh : Fins high) (fl : Fins low) (fc : Fins close) :
    Reports high.length w (fun i => wilderOf w (trueRanges (vals high) (vals low) (vals close)) (i - 1)) (atr high low close w) := by
  obtain ⟨t, e, ft, ev⟩ := trueRange_is hl hc (by omega) fh fl fc
  have lt : t.length = high.length - 1 := by
    have := congrArg List.length ev
    simp [trueRanges] at this
    omega
  obtain ⟨u, eu, ru, lu⟩ := (wilder_is t w hw (by omega) ft).some
  run_model [atr, e, eu]
  have := (ru.pad 1).cast (n' := high.length) (k' := w) (by omega) (by omega)
  rw [ev] at this
  exact this

example (ρ : Rounding) : Items 5 2 (fun _ y => y = inf false ∨ ∃ r, y ⇓ r ∧ 0 ≤ r)
    (atr ([3, 5, 6, 6, 9].map (fin : ℝ → FP ρ)) ([1, 2, 4, 3, 5].map fin) ([2, 4, 5, 3, 9].map fin) 2) :=
  atr_nonneg _ _ _ 2 rfl rfl (by decide) (by norm_num) (by simp) (fins_map_fin _) (fins_map_fin _) (fins_map_fin _)

end Traquer.Volatility
