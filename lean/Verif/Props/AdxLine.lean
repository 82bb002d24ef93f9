import Verif.Props.Adx
import Verif.Props.Rsi
/-!
# C33: the average directional index itself
-/

namespace Traquer.Trend
open Traquer FP FloatLit

/-- The directional movement index of bar `i`: how one-sided the averaged directional movements are, in percent. -/
noncomputable def dxAt (high low : List ℝ) (w i : ℕ) : ℝ :=
  100 * |wilderOf w (plusMoves high low) (i - 1) - wilderOf w (minusMoves high low) (i - 1)| /
    (wilderOf w (plusMoves high low) (i - 1) + wilderOf w (minusMoves high low) (i - 1))

/-- The directional movement indices of bars `w`, `w + 1`, ... -/
noncomputable def dxSeries (high low : List ℝ) (w : ℕ) : List ℝ := (List.range (high.length - w)).map fun j => dxAt high low w (w + j)

/-- What `adx` computes on the way: the three averages and the list it averages once more. -/
theorem adx_parts (high low close : List XF) (w s : ℕ) (hw : 1 ≤ w) (hs' : 1 ≤ s) (hn : w + s ≤ high.length)
    (ll : low.length = high.length) (lc : close.length = high.length) (fh : Fins high) (fl : Fins low) (fc : Fins close) :
    ∃ a p n x : List XF, Reports (high.length - 1) (w - 1) (wilderOf w (trueRanges (vals high) (vals low) (vals close))) (some a) ∧
      Reports (high.length - 1) (w - 1) (wilderOf w (plusMoves (vals high) (vals low))) (some p) ∧
      Reports (high.length - 1) (w - 1) (wilderOf w (minusMoves (vals high) (vals low))) (some n) ∧
      Smooth.wilder (((((p.zip a).map fun (x : XF × XF) => x.1 / x.2 * 100).drop (w - 1)).zip
        (((n.zip a).map fun (x : XF × XF) => x.1 / x.2 * 100).drop (w - 1))).map
          fun (x : XF × XF) => fabs (x.1 - x.2) / (x.1 + x.2) * 100) s = some x ∧
      adx high low close w s = some ((nan, nan, nan) :: zip3 ((p.zip a).map fun (x : XF × XF) => x.1 / x.2 * 100)
        ((n.zip a).map fun (x : XF × XF) => x.1 / x.2 * 100) (nans (w - 1) ++ x)) := by
  obtain ⟨out, eo, lo, -⟩ := adx_aligned high low close w s ll lc hw hs' (by omega)
  have eo' := eo
  obtain ⟨v, ev, eo⟩ := Option.bind_eq_some_iff.1 eo
  obtain ⟨v', ev', lv⟩ := dmBars_yields high low close ll lc (by omega)
  cases ev.symm.trans ev'
  have lp : (plusMoves (vals high) (vals low)).length = high.length - 1 := by simp [plusMoves]; omega
  have lm : (minusMoves (vals high) (vals low)).length = high.length - 1 := by simp [minusMoves]; omega
  have lt : (trueRanges (vals high) (vals low) (vals close)).length = high.length - 1 := by simp [trueRanges]; omega
  have terms : ∀ (j : ℕ) b, v[j]? = some b →
      (plusMoves (vals high) (vals low))[j]? = some (plusMove b.1.val b.2.1.val b.2.2.1.val b.2.2.2.1.val) ∧
      (minusMoves (vals high) (vals low))[j]? = some (minusMove b.1.val b.2.1.val b.2.2.1.val b.2.2.2.1.val) ∧
      (trueRanges (vals high) (vals low) (vals close))[j]? = some (trueRangeOf b.2.1.val b.2.2.2.1.val b.2.2.2.2.val) ∧
      (dmTerm b).1 ⇓ plusMove b.1.val b.2.1.val b.2.2.1.val b.2.2.2.1.val ∧
      (dmTerm b).2.1 ⇓ minusMove b.1.val b.2.1.val b.2.2.1.val b.2.2.2.1.val ∧
      (dmTerm b).2.2 ⇓ trueRangeOf b.2.1.val b.2.2.2.1.val b.2.2.2.2.val := fun j b hj => by
    obtain ⟨e1, e2, e3, e4, e5⟩ := dmBars_items ev hj
    have z : (zip4 (vals high) (vals high).tail (vals low) (vals low).tail)[j]? =
        some (b.1.val, b.2.1.val, b.2.2.1.val, b.2.2.2.1.val) := by
      apply zip4_getElem?.2
      simp [List.getElem?_tail, vals_getElem?, e1, e2, e3, e4]
    have z' : (zip3 (vals high).tail (vals low).tail (vals close))[j]? = some (b.2.1.val, b.2.2.2.1.val, b.2.2.2.2.val) := by
      apply zip3_getElem?.2
      simp [List.getElem?_tail, vals_getElem?, e2, e4, e5]
    obtain ⟨t1, t2, t3⟩ := dmTerm_is (fh.isAt e1).1 (fh.isAt e2).1 (fl.isAt e3).1 (fl.isAt e4).1 (fc.isAt e5).1
    exact ⟨by rw [plusMoves, List.getElem?_map, z]; rfl, by rw [minusMoves, List.getElem?_map, z]; rfl,
      by rw [trueRanges, List.getElem?_map, z']; rfl, t1, t2, t3⟩
  obtain ⟨fp, vp⟩ := vals_map_of (v := v) (f := fun b => (dmTerm b).1) (r := plusMoves (vals high) (vals low)) (by omega)
    fun j b hj => ⟨_, (terms j b hj).1, (terms j b hj).2.2.2.1⟩
  obtain ⟨fm, vm⟩ := vals_map_of (v := v) (f := fun b => (dmTerm b).2.1) (r := minusMoves (vals high) (vals low)) (by omega)
    fun j b hj => ⟨_, (terms j b hj).2.1, (terms j b hj).2.2.2.2.1⟩
  obtain ⟨ft, vt⟩ := vals_map_of (v := v) (f := fun b => (dmTerm b).2.2) (r := trueRanges (vals high) (vals low) (vals close)) (by omega)
    fun j b hj => ⟨_, (terms j b hj).2.2.1, (terms j b hj).2.2.2.2.2⟩
  obtain ⟨a, ea, eo⟩ := Option.bind_eq_some_iff.1 eo
  obtain ⟨p, ep, eo⟩ := Option.bind_eq_some_iff.1 eo
  obtain ⟨n, en, eo⟩ := Option.bind_eq_some_iff.1 eo
  obtain ⟨k, ek, eo⟩ := Option.bind_eq_some_iff.1 eo
  obtain ⟨dp, edp, eo⟩ := Option.bind_eq_some_iff.1 eo
  obtain ⟨dn, edn, eo⟩ := Option.bind_eq_some_iff.1 eo
  obtain ⟨x, ex, ez⟩ := Option.bind_eq_some_iff.1 eo
  rw [List.map_map] at ea ep en
  obtain ⟨a', ea', ra, -⟩ := (wilder_is _ w hw (by simp; omega) ft).some
  obtain ⟨p', ep', rp, -⟩ := (wilder_is _ w hw (by simp; omega) fp).some
  obtain ⟨n', en', rn, -⟩ := (wilder_is _ w hw (by simp; omega) fm).some
  cases ea'.symm.trans ea
  cases ep'.symm.trans ep
  cases en'.symm.trans en
  rw [vt] at ra
  rw [vp] at rp
  rw [vm] at rn
  simp only [List.length_map, lv] at ra rp rn
  rw [usub_of_le hw] at ek
  cases ek
  have la := ra.length
  have lp' := rp.length
  have ln := rn.length
  rw [sliceFrom_of_le (by simp; omega)] at edp edn
  cases edp
  cases edn
  exact ⟨a, p, n, x, ra, rp, rn, ex, eo'.trans ez.symm⟩

/-- C33: `adx` itself is Wilder's average of the directional movement indices of bars `w`, `w + 1`, ... (as long as no bar has an
average true range of 0 or no directional movement at all). -/
theorem adx_line (high low close : List XF) (w s : ℕ) (hw : 1 ≤ w) (hs' : 1 ≤ s) (hn : w + s ≤ high.length)
    (ll : low.length = high.length) (lc : close.length = high.length) (fh : Fins high) (fl : Fins low) (fc : Fins close)
    (ht : ∀ i, w ≤ i → i < high.length → wilderOf w (trueRanges (vals high) (vals low) (vals close)) (i - 1) ≠ 0)
    (hm : ∀ i, w ≤ i → i < high.length →
      wilderOf w (plusMoves (vals high) (vals low)) (i - 1) + wilderOf w (minusMoves (vals high) (vals low)) (i - 1) ≠ 0) :
    Items high.length (w + s - 1) (fun i p => p.2.2 ⇓ wilderOf s (dxSeries (vals high) (vals low) w) (i - w)) (adx high low close w s) := by
  obtain ⟨a, p, n, x, ra, rp, rn, ex, eo⟩ := adx_parts high low close w s hw hs' hn ll lc fh fl fc
  have la := ra.length
  have lp := rp.length
  have ln := rn.length
  set dx := ((((p.zip a).map fun (x : XF × XF) => x.1 / x.2 * 100).drop (w - 1)).zip
        (((n.zip a).map fun (x : XF × XF) => x.1 / x.2 * 100).drop (w - 1))).map
          fun (x : XF × XF) => fabs (x.1 - x.2) / (x.1 + x.2) * 100 with hdx
  have ldx : dx.length = high.length - w := by simp [hdx, la, lp, ln]; omega
  have hd : ∀ j y, dx[j]? = some y → y ⇓ dxAt (vals high) (vals low) w (w + j) := fun j y hy => by
    rw [hdx, List.getElem?_map] at hy
    obtain ⟨⟨u, v⟩, g, rfl⟩ := Option.map_eq_some_iff.1 hy
    obtain ⟨g1, g2⟩ := List.getElem?_zip_eq_some.1 g
    rw [List.getElem?_drop, List.getElem?_map] at g1 g2
    obtain ⟨⟨u1, u2⟩, k1, rfl⟩ := Option.map_eq_some_iff.1 g1
    obtain ⟨⟨u3, u4⟩, k2, rfl⟩ := Option.map_eq_some_iff.1 g2
    obtain ⟨q1, q2⟩ := List.getElem?_zip_eq_some.1 k1
    obtain ⟨q3, q4⟩ := List.getElem?_zip_eq_some.1 k2
    cases q2.symm.trans q4
    have hl := (List.getElem?_eq_some_iff.1 q2).1
    have i1 := rp.at q1 (by omega)
    have i2 := ra.at q2 (by omega)
    have i3 := rn.at q3 (by omega)
    have e : w - 1 + j = w + j - 1 := by omega
    rw [e] at i1 i2 i3
    have h1 := ht (w + j) (by omega) (by omega)
    have h0 : 0 ≤ wilderOf w (trueRanges (vals high) (vals low) (vals close)) (w + j - 1) :=
      Momentum.wilderOf_nonneg hw (by omega) (by simp [trueRanges]; omega) fun z hz => by
        obtain ⟨q, -, rfl⟩ := List.mem_map.1 hz
        exact trueRangeOf_nonneg _ _ _
    have h2 := hm (w + j) (by omega) (by omega)
    have d1 := is_mul (is_div i1 i2 h1) (is_lit 100)
    have d2 := is_mul (is_div i3 i2 h1) (is_lit 100)
    generalize wilderOf w (trueRanges (vals high) (vals low) (vals close)) (w + j - 1) = T at *
    rw [dxAt]
    generalize wilderOf w (plusMoves (vals high) (vals low)) (w + j - 1) = P at *
    generalize wilderOf w (minusMoves (vals high) (vals low)) (w + j - 1) = N at *
    have e1 : P / T * 100 + N / T * 100 = (P + N) * (100 / T) := by ring
    have e2 : P / T * 100 - N / T * 100 = (P - N) * (100 / T) := by ring
    have h3 : P / T * 100 + N / T * 100 ≠ 0 := by rw [e1]; exact mul_ne_zero h2 (div_ne_zero (by norm_num) h1)
    refine (is_mul (is_div (is_abs (is_sub d1 d2)) (is_add d1 d2) h3) (is_lit 100)).congr ?_
    have h4 : 0 < (100 : ℝ) / T := div_pos (by norm_num) (lt_of_le_of_ne h0 h1.symm)
    rw [e1, e2, abs_mul, abs_of_pos h4, mul_div_mul_right _ _ h4.ne']
    ring
  clear_value dx
  have fdx : Fins dx := fun y hy => by
    obtain ⟨j, hj⟩ := List.mem_iff_getElem?.1 hy
    exact (hd j y hj).1
  have vdx : vals dx = dxSeries (vals high) (vals low) w := by
    refine List.ext_getElem? fun j => ?_
    rw [vals_getElem?, dxSeries, List.getElem?_map]
    by_cases hj : j < dx.length
    · rw [List.getElem?_eq_getElem hj, List.getElem?_range (by simp; omega), Option.map_some, Option.map_some,
        (hd j _ (List.getElem?_eq_getElem hj)).2]
    · rw [List.getElem?_eq_none (by omega), List.getElem?_eq_none (by simp; omega)]; rfl
  have rx := wilder_is dx s hs' (by omega) fdx
  rw [ex, vdx, ldx] at rx
  have lx := rx.length
  rw [eo]
  refine ⟨_, rfl, by simp [la, lp, ln, lx]; omega, fun i y hi hy => ?_⟩
  obtain ⟨j, rfl⟩ : ∃ j, i = j + 1 := ⟨i - 1, by omega⟩
  rw [List.getElem?_cons_succ] at hy
  obtain ⟨y1, y2, y3⟩ := y
  obtain ⟨-, -, e3⟩ := zip3_getElem?.1 hy
  rw [List.getElem?_append_right (by simp; omega)] at e3
  have := rx.at e3 (by simp; omega)
  rwa [show j - (nans (F := XF) (w - 1)).length = j + 1 - w by simp; omega] at this

end Traquer.Trend
