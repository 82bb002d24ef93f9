import Verif.Props.TrueRange
import Verif.Props.ShapeTrend
import Verif.Props.Rsi
import Verif.Lemmas.Bars
/-!
# C33: directional movement
-/

namespace Traquer.Trend
open FP FloatLit
variable {ρ : Rounding}

theorem dmBars_items {high low close : List (FP ρ)} {v : List (FP ρ × FP ρ × FP ρ × FP ρ × FP ρ)}
    (e : dmBars high low close = some v) {j : ℕ} {b : FP ρ × FP ρ × FP ρ × FP ρ × FP ρ} (hb : v[j]? = some b) :
    high[j]? = some b.1 ∧ high[j + 1]? = some b.2.1 ∧ low[j]? = some b.2.2.1 ∧ low[j + 1]? = some b.2.2.2.1 ∧
      close[j]? = some b.2.2.2.2 := by
  obtain ⟨n, en, e⟩ := Option.bind_eq_some_iff.1 e
  obtain ⟨-, rfl⟩ := usub_some en
  obtain ⟨p1, ep, e⟩ := Option.bind_eq_some_iff.1 e
  obtain ⟨-, rfl⟩ := sliceTo_some ep
  obtain ⟨p2, ep, e⟩ := Option.bind_eq_some_iff.1 e
  obtain ⟨-, rfl⟩ := sliceFrom_some ep
  obtain ⟨n, en, e⟩ := Option.bind_eq_some_iff.1 e
  obtain ⟨-, rfl⟩ := usub_some en
  obtain ⟨p3, ep, e⟩ := Option.bind_eq_some_iff.1 e
  obtain ⟨-, rfl⟩ := sliceTo_some ep
  obtain ⟨p4, ep, e⟩ := Option.bind_eq_some_iff.1 e
  obtain ⟨-, rfl⟩ := sliceFrom_some ep
  obtain ⟨n, en, e⟩ := Option.bind_eq_some_iff.1 e
  obtain ⟨-, rfl⟩ := usub_some en
  obtain ⟨p5, ep, e⟩ := Option.bind_eq_some_iff.1 e
  obtain ⟨-, rfl⟩ := sliceTo_some ep
  cases e
  obtain ⟨b1, b2, b3, b4, b5⟩ := b
  obtain ⟨e1, e2, e3, e4, e5⟩ := zip5_getElem?.1 hb
  rw [List.getElem?_take] at e1 e3 e5
  rw [List.getElem?_drop, Nat.add_comm] at e2 e4
  refine ⟨?_, e2, ?_, e4, ?_⟩
  · split at e1; · exact e1
    · cases e1
  · split at e3; · exact e3
    · cases e3
  · split at e5; · exact e5
    · cases e5

theorem plusMove_nonneg (ph h pl l : ℝ) : 0 ≤ plusMove ph h pl l := by
  unfold plusMove
  split
  · exact le_max_left _ _
  · exact le_rfl

theorem minusMove_nonneg (ph h pl l : ℝ) : 0 ≤ minusMove ph h pl l := by
  unfold minusMove
  split
  · exact le_max_left _ _
  · exact le_rfl

theorem abs_le_tr1 (h l c : ℝ) : |h - c| ≤ trueRangeOf h l c := (le_max_left _ _).trans (le_max_right _ _)
theorem abs_le_tr2 (h l c : ℝ) : |l - c| ≤ trueRangeOf h l c := (le_max_right _ _).trans (le_max_right _ _)
theorem trueRangeOf_nonneg (h l c : ℝ) : 0 ≤ trueRangeOf h l c := (abs_nonneg _).trans (abs_le_tr1 h l c)

theorem up_le_tr {ph h l c : ℝ} (h1 : c ≤ ph) : max 0 (h - ph) ≤ trueRangeOf h l c :=
  max_le (trueRangeOf_nonneg _ _ _) ((by linarith [le_abs_self (h - c)] : h - ph ≤ |h - c|).trans (abs_le_tr1 _ _ _))

theorem down_le_tr {pl h l c : ℝ} (h1 : pl ≤ c) : max 0 (pl - l) ≤ trueRangeOf h l c :=
  max_le (trueRangeOf_nonneg _ _ _) ((by linarith [neg_abs_le (l - c)] : pl - l ≤ |l - c|).trans (abs_le_tr2 _ _ _))

/-- The two movements of a bar exclude each other and together do not exceed the true range. -/
theorem moves_le_tr {ph h pl l c : ℝ} (h1 : c ≤ ph) (h2 : pl ≤ c) :
    plusMove ph h pl l + minusMove ph h pl l ≤ trueRangeOf h l c := by
  have a := up_le_tr (h := h) (l := l) h1
  have b := down_le_tr (h := h) (l := l) h2
  have d := trueRangeOf_nonneg h l c
  unfold plusMove minusMove
  split <;> split <;> linarith

theorem dmTerm_dominated {ph h pl l c : FP ρ} (f1 : ph.Finite) (f2 : h.Finite) (f3 : pl.Finite) (f4 : l.Finite) (f5 : c.Finite)
    (h1 : c.val ≤ ph.val) (h2 : pl.val ≤ c.val) :
    Dominated (dmTerm (ph, h, pl, l, c)).1 (dmTerm (ph, h, pl, l, c)).2.2 ∧
      Dominated (dmTerm (ph, h, pl, l, c)).2.1 (dmTerm (ph, h, pl, l, c)).2.2 := by
  have T := Volatility.trTerm_roundsTo f2.is f4.is f5.is
  have up := roundsTo_zero.fmax (rounds_sub f2.is f1.is).to
  have dn := roundsTo_zero.fmax (rounds_sub f3.is f4.is).to
  have z : Dominated (0 : FP ρ) (fmax (fmax (h - l) (fabs (h - c))) (fabs (l - c))) :=
    roundsTo_zero.dominated T le_rfl (trueRangeOf_nonneg _ _ _)
  constructor
  · unfold dmTerm
    dsimp only
    split
    · exact up.dominated T (le_max_left _ _) (up_le_tr h1)
    · exact z
  · unfold dmTerm
    dsimp only
    split
    · exact dn.dominated T (le_max_left _ _) (down_le_tr h2)
    · exact z

theorem dmTerms_dominated {high low close : List (FP ρ)} {v : List (FP ρ × FP ρ × FP ρ × FP ρ × FP ρ)}
    (e : dmBars high low close = some v) (fh : Fins high) (fl : Fins low) (fc : Fins close)
    (hs : SaneBars (vals high) (vals low) (vals close)) :
    List.Forall₂ Dominated ((v.map dmTerm).map (·.1)) ((v.map dmTerm).map (·.2.2)) ∧
      List.Forall₂ Dominated ((v.map dmTerm).map (·.2.1)) ((v.map dmTerm).map (·.2.2)) := by
  have key : ∀ b ∈ v, Dominated (dmTerm b).1 (dmTerm b).2.2 ∧ Dominated (dmTerm b).2.1 (dmTerm b).2.2 := fun b hb => by
    obtain ⟨j, hj⟩ := List.mem_iff_getElem?.1 hb
    obtain ⟨e1, e2, e3, e4, e5⟩ := dmBars_items e hj
    exact dmTerm_dominated (fh.isAt e1).1 (fh.isAt e2).1 (fl.isAt e3).1 (fl.isAt e4).1 (fc.isAt e5).1
      (hs.le_high j _ _ (by rw [vals_getElem?, e5]; rfl) (by rw [vals_getElem?, e1]; rfl))
      (hs.low_le j _ _ (by rw [vals_getElem?, e3]; rfl) (by rw [vals_getElem?, e5]; rfl))
  simp only [List.map_map, List.forall₂_map_left_iff, List.forall₂_map_right_iff]
  exact ⟨List.forall₂_same.2 fun b hb => (key b hb).1, List.forall₂_same.2 fun b hb => (key b hb).2⟩

theorem share_zip {p a : List (FP ρ)} (h : List.Forall₂ Dominated p a) :
    ∀ y ∈ (p.zip a).map (fun (di, tr) => di / tr * 100), InRange 0 100 y := by
  intro y hy
  obtain ⟨⟨u, v⟩, hp, rfl⟩ := List.mem_map.1 hy
  exact inRange_pct ((List.forall₂_iff_zip.1 h).2 hp).share

/-- C33: in every rounding all three lines of `adx` are NaN or between 0 and 100, for sane bars. -/
theorem adx_range (high low close : List (FP ρ)) (w s : ℕ) (hw : 1 ≤ w) (hs' : 1 ≤ s) (hn : w + (s - 1) ≤ high.length)
    (hw' : w ≤ 2 ^ 53) (hs'' : 100 * s ≤ 2 ^ 53) (fh : Fins high) (fl : Fins low) (fc : Fins close)
    (hs : SaneBars (vals high) (vals low) (vals close)) :
    Items high.length 0 (fun _ p => InRange 0 100 p.1 ∧ InRange 0 100 p.2.1 ∧ InRange 0 100 p.2.2) (adx high low close w s) := by
  have ll : low.length = high.length := by simpa [vals] using hs.low_length
  have lc : close.length = high.length := by simpa [vals] using hs.close_length
  obtain ⟨out, eo, lo, -⟩ := adx_aligned high low close w s ll lc hw hs' hn
  refine ⟨out, eo, lo, fun i y _ hy => ?_⟩
  obtain ⟨v, ev, eo⟩ := Option.bind_eq_some_iff.1 eo
  obtain ⟨d1, d2⟩ := dmTerms_dominated ev fh fl fc hs
  obtain ⟨a, ea, eo⟩ := Option.bind_eq_some_iff.1 eo
  obtain ⟨p, ep, eo⟩ := Option.bind_eq_some_iff.1 eo
  obtain ⟨n, en, eo⟩ := Option.bind_eq_some_iff.1 eo
  obtain ⟨k, ek, eo⟩ := Option.bind_eq_some_iff.1 eo
  obtain ⟨dp, edp, eo⟩ := Option.bind_eq_some_iff.1 eo
  obtain ⟨-, rfl⟩ := sliceFrom_some edp
  obtain ⟨dn, edn, eo⟩ := Option.bind_eq_some_iff.1 eo
  obtain ⟨-, rfl⟩ := sliceFrom_some edn
  obtain ⟨x, ex, eo⟩ := Option.bind_eq_some_iff.1 eo
  cases eo
  have rp := share_zip (Dominated.wilder hw hw' d1 ep ea)
  have rn := share_zip (Dominated.wilder hw hw' d2 en ea)
  cases i with
  | zero =>
    simp at hy
    subst hy
    exact ⟨Or.inl rfl, Or.inl rfl, Or.inl rfl⟩
  | succ i =>
    rw [List.getElem?_cons_succ] at hy
    obtain ⟨y1, y2, y3⟩ := y
    obtain ⟨e1, e2, e3⟩ := zip3_getElem?.1 hy
    refine ⟨rp _ (List.mem_of_getElem? e1), rn _ (List.mem_of_getElem? e2), ?_⟩
    have := InRange.wilder (m := 0) (n := 100) hs' (fun z hz => ?_) (by omega) (by omega) hs'' ex
    · rcases List.mem_append.1 (List.mem_of_getElem? e3) with h | h
      · exact Or.inl (List.eq_of_mem_replicate h)
      · simpa using this y3 h
    · obtain ⟨⟨u, v⟩, hp, rfl⟩ := List.mem_map.1 hz
      have hu := rp u (List.mem_of_mem_drop (List.of_mem_zip hp).1)
      have hv := rn v (List.mem_of_mem_drop (List.of_mem_zip hp).2)
      have : InRange 0 100 (fabs (u - v) / (u + v) * 100) := by
        apply inRange_pct
        rcases hu with rfl | ⟨a, ha, a0, a1⟩
        · exact Or.inl rfl
        rcases hv with rfl | ⟨b, hb, b0, b1⟩
        · exact Or.inl (by show fabs (u - FP.nan) / (u + FP.nan) = FP.nan; rw [FP.add_nan, FP.div_nan])
        · refine Dominated.share ((rounds_sub ha hb).to.abs.dominated (rounds_add ha hb).to (abs_nonneg _) ?_)
          rw [abs_le]; constructor <;> linarith
      simpa using this

/-- The positive directional movements of bars 1, 2, ... -/
noncomputable def plusMoves (high low : List ℝ) : List ℝ := (zip4 high high.tail low low.tail).map fun p => plusMove p.1 p.2.1 p.2.2.1 p.2.2.2
/-- The negative directional movements of bars 1, 2, ... -/
noncomputable def minusMoves (high low : List ℝ) : List ℝ := (zip4 high high.tail low low.tail).map fun p => minusMove p.1 p.2.1 p.2.2.1 p.2.2.2

theorem dmTerm_is {ph h pl l c : XF} (f1 : ph.Finite) (f2 : h.Finite) (f3 : pl.Finite) (f4 : l.Finite) (f5 : c.Finite) :
    (dmTerm (ph, h, pl, l, c)).1 ⇓ plusMove ph.val h.val pl.val l.val ∧
    (dmTerm (ph, h, pl, l, c)).2.1 ⇓ minusMove ph.val h.val pl.val l.val ∧
    (dmTerm (ph, h, pl, l, c)).2.2 ⇓ trueRangeOf h.val l.val c.val := by
  have e1 := is_sub f2.is f1.is
  have e2 := is_sub f3.is f4.is
  refine ⟨?_, ?_, (Volatility.trTerm_roundsTo f2.is f4.is f5.is).is⟩
  · unfold dmTerm plusMove
    dsimp only
    have hl := is_lt e2 e1
    by_cases hc : pl.val - l.val < h.val - ph.val
    · rw [if_pos hc, if_pos (show (pl - l <. h - ph) = true by simpa [hl] using hc)]; exact is_fmax is_zero e1
    · rw [if_neg hc, if_neg (show ¬ (pl - l <. h - ph) = true by simpa [hl] using hc)]; exact is_zero
  · unfold dmTerm minusMove
    dsimp only
    have hl := is_lt e1 e2
    by_cases hc : h.val - ph.val < pl.val - l.val
    · rw [if_pos hc, if_pos (show (h - ph <. pl - l) = true by simpa [hl] using hc)]; exact is_fmax is_zero e2
    · rw [if_neg hc, if_neg (show ¬ (h - ph <. pl - l) = true by simpa [hl] using hc)]; exact is_zero

theorem wilderOf_add_le {l l' m : List ℝ} {w : ℕ} (hw : 1 ≤ w) (h1 : l.length = m.length) (h2 : l'.length = m.length)
    (h : ∀ (j : ℕ) a b c, l[j]? = some a → l'[j]? = some b → m[j]? = some c → a + b ≤ c) (i : ℕ) (hi : i < m.length) :
    wilderOf w l i + wilderOf w l' i ≤ wilderOf w m i := by
  have hp := Smooth.natCast_pos hw
  have hw1 : (0 : ℝ) ≤ w - 1 := by
    have : (1 : ℝ) ≤ w := by exact_mod_cast hw
    linarith
  have hsum : ∀ (l l' m : List ℝ), l.length = m.length → l'.length = m.length →
      (∀ (j : ℕ) a b c, l[j]? = some a → l'[j]? = some b → m[j]? = some c → a + b ≤ c) → l.sum + l'.sum ≤ m.sum := by
    intro l
    induction l with
    | nil => intro l' m g1 g2 _; cases m <;> simp at g1; cases l' <;> simp at g2; simp
    | cons a l ih =>
      intro l' m g1 g2 g
      cases m with
      | nil => simp at g1
      | cons c m =>
        cases l' with
        | nil => simp at g2
        | cons b l' =>
          have := ih l' m (by simpa using g1) (by simpa using g2) fun j => g (j + 1)
          have h0 := g 0 a b c rfl rfl rfl
          simp only [List.sum_cons]
          linarith
  have hmean : mean (l.take w) + mean (l'.take w) ≤ mean (m.take w) := by
    unfold mean
    rw [List.length_take, List.length_take, List.length_take, h1, h2, ← add_div]
    apply div_le_div_of_nonneg_right _ (by positivity)
    apply hsum
    · simp [h1]
    · simp [h2]
    · intro j a b c ha hb hc
      rw [List.getElem?_take] at ha hb hc
      split at ha
      · rename_i hj
        rw [if_pos hj] at hb hc
        exact h j a b c ha hb hc
      · cases ha
  induction i with
  | zero => exact hmean
  | succ i ih =>
    have ih := ih (by omega)
    simp only [wilderOf]
    split
    · exact hmean
    · rw [← add_div]
      apply div_le_div_of_nonneg_right _ hp.le
      have := h (i + 1) _ _ _ (List.getElem?_eq_getElem (by omega)) (List.getElem?_eq_getElem (by omega)) (List.getElem?_eq_getElem hi)
      rw [List.getElem?_eq_getElem (by omega : i + 1 < l.length), List.getElem?_eq_getElem (by omega : i + 1 < l'.length),
        List.getElem?_eq_getElem hi, Option.getD_some, Option.getD_some, Option.getD_some]
      nlinarith

/-- C33: in exact arithmetic the directional indices are `100 * average movement / average true range` (Wilder's averages;
NaN where the average true range is 0), and for sane bars their sum does not exceed 100. -/
theorem adx_items (high low close : List XF) (w s : ℕ) (hw : 1 ≤ w) (hs' : 1 ≤ s) (hn : w + (s - 1) ≤ high.length)
    (hn' : w + 1 ≤ high.length) (fh : Fins high) (fl : Fins low) (fc : Fins close)
    (hs : SaneBars (vals high) (vals low) (vals close)) :
    Items high.length w (fun i p =>
      QuotIs (100 * wilderOf w (plusMoves (vals high) (vals low)) (i - 1))
        (wilderOf w (trueRanges (vals high) (vals low) (vals close)) (i - 1)) p.1 ∧
      QuotIs (100 * wilderOf w (minusMoves (vals high) (vals low)) (i - 1))
        (wilderOf w (trueRanges (vals high) (vals low) (vals close)) (i - 1)) p.2.1 ∧
      (∀ a b, p.1 ⇓ a → p.2.1 ⇓ b → a + b ≤ 100)) (adx high low close w s) := by
  have ll : low.length = high.length := by simpa [vals] using hs.low_length
  have lc : close.length = high.length := by simpa [vals] using hs.close_length
  obtain ⟨out, eo, lo, -⟩ := adx_aligned high low close w s ll lc hw hs' hn
  refine ⟨out, eo, lo, fun i y hi hy => ?_⟩
  obtain ⟨v, ev, eo⟩ := Option.bind_eq_some_iff.1 eo
  obtain ⟨v', ev', lv⟩ := dmBars_yields high low close ll lc (by omega)
  cases ev.symm.trans ev'
  have lp : (plusMoves (vals high) (vals low)).length = high.length - 1 := by simp [plusMoves]; omega
  have lm : (minusMoves (vals high) (vals low)).length = high.length - 1 := by simp [minusMoves]; omega
  have lt : (trueRanges (vals high) (vals low) (vals close)).length = high.length - 1 := by simp [trueRanges]; omega
  have terms : ∀ (j : ℕ) b, v[j]? = some b →
      (plusMoves (vals high) (vals low))[j]? = some (plusMove b.1.val b.2.1.val b.2.2.1.val b.2.2.2.1.val) ∧
      (minusMoves (vals high) (vals low))[j]? = some (minusMove b.1.val b.2.1.val b.2.2.1.val b.2.2.2.1.val) ∧
      (trueRanges (vals high) (vals low) (vals close))[j]? = some (trueRangeOf b.2.1.val b.2.2.2.1.val b.2.2.2.2.val) ∧
      (dmTerm b).1 ⇓ plusMove b.1.val b.2.1.val b.2.2.1.val b.2.2.2.1.val ∧
      (dmTerm b).2.1 ⇓ minusMove b.1.val b.2.1.val b.2.2.1.val b.2.2.2.1.val ∧
      (dmTerm b).2.2 ⇓ trueRangeOf b.2.1.val b.2.2.2.1.val b.2.2.2.2.val := fun j b hj => by
    obtain ⟨e1, e2, e3, e4, e5⟩ := dmBars_items ev hj
    have z : (zip4 (vals high) (vals high).tail (vals low) (vals low).tail)[j]? =
        some (b.1.val, b.2.1.val, b.2.2.1.val, b.2.2.2.1.val) := by
      apply zip4_getElem?.2
      simp [List.getElem?_tail, vals_getElem?, e1, e2, e3, e4]
    have z' : (zip3 (vals high).tail (vals low).tail (vals close))[j]? = some (b.2.1.val, b.2.2.2.1.val, b.2.2.2.2.val) := by
      apply zip3_getElem?.2
      simp [List.getElem?_tail, vals_getElem?, e2, e4, e5]
    obtain ⟨t1, t2, t3⟩ := dmTerm_is (fh.isAt e1).1 (fh.isAt e2).1 (fl.isAt e3).1 (fl.isAt e4).1 (fc.isAt e5).1
    exact ⟨by rw [plusMoves, List.getElem?_map, z]; rfl, by rw [minusMoves, List.getElem?_map, z]; rfl,
      by rw [trueRanges, List.getElem?_map, z']; rfl, t1, t2, t3⟩
  obtain ⟨fp, vp⟩ := vals_map_of (v := v) (f := fun b => (dmTerm b).1) (r := plusMoves (vals high) (vals low)) (by omega)
    fun j b hj => ⟨_, (terms j b hj).1, (terms j b hj).2.2.2.1⟩
  obtain ⟨fm, vm⟩ := vals_map_of (v := v) (f := fun b => (dmTerm b).2.1) (r := minusMoves (vals high) (vals low)) (by omega)
    fun j b hj => ⟨_, (terms j b hj).2.1, (terms j b hj).2.2.2.2.1⟩
  obtain ⟨ft, vt⟩ := vals_map_of (v := v) (f := fun b => (dmTerm b).2.2) (r := trueRanges (vals high) (vals low) (vals close)) (by omega)
    fun j b hj => ⟨_, (terms j b hj).2.2.1, (terms j b hj).2.2.2.2.2⟩
  obtain ⟨a, ea, eo⟩ := Option.bind_eq_some_iff.1 eo
  obtain ⟨p, ep, eo⟩ := Option.bind_eq_some_iff.1 eo
  obtain ⟨n, en, eo⟩ := Option.bind_eq_some_iff.1 eo
  obtain ⟨k, ek, eo⟩ := Option.bind_eq_some_iff.1 eo
  obtain ⟨dp, edp, eo⟩ := Option.bind_eq_some_iff.1 eo
  obtain ⟨dn, edn, eo⟩ := Option.bind_eq_some_iff.1 eo
  obtain ⟨x, ex, eo⟩ := Option.bind_eq_some_iff.1 eo
  cases eo
  rw [List.map_map] at ea ep en
  obtain ⟨a', ea', ra, -⟩ := (wilder_is _ w hw (by simp; omega) ft).some
  obtain ⟨p', ep', rp, -⟩ := (wilder_is _ w hw (by simp; omega) fp).some
  obtain ⟨n', en', rn, -⟩ := (wilder_is _ w hw (by simp; omega) fm).some
  cases ea'.symm.trans ea
  cases ep'.symm.trans ep
  cases en'.symm.trans en
  rw [vt] at ra
  rw [vp] at rp
  rw [vm] at rn
  obtain ⟨j, rfl⟩ : ∃ j, i = j + 1 := ⟨i - 1, by omega⟩
  rw [List.getElem?_cons_succ] at hy
  obtain ⟨y1, y2, y3⟩ := y
  obtain ⟨e1, e2, -⟩ := zip3_getElem?.1 hy
  rw [List.getElem?_map] at e1 e2
  obtain ⟨⟨u1, u2⟩, g1, rfl⟩ := Option.map_eq_some_iff.1 e1
  obtain ⟨⟨u3, u4⟩, g2, rfl⟩ := Option.map_eq_some_iff.1 e2
  obtain ⟨g3, g4⟩ := List.getElem?_zip_eq_some.1 g1
  obtain ⟨g5, g6⟩ := List.getElem?_zip_eq_some.1 g2
  cases g4.symm.trans g6
  have i1 := rp.at g3 (by omega)
  have i2 := ra.at g4 (by omega)
  have i3 := rn.at g5 (by omega)
  have hj : j < high.length - 1 := by
    have := (List.getElem?_eq_some_iff.1 g4).1
    have := ra.length
    simp at this
    omega
  have bound := wilderOf_add_le hw (l := plusMoves (vals high) (vals low)) (l' := minusMoves (vals high) (vals low))
    (m := trueRanges (vals high) (vals low) (vals close)) (by omega) (by omega) (fun q a b c ha hb hc => by
      have hq : q < v.length := by have := (List.getElem?_eq_some_iff.1 hc).1; omega
      obtain ⟨t1, t2, t3, -⟩ := terms q _ (List.getElem?_eq_getElem hq)
      rw [t1] at ha; rw [t2] at hb; rw [t3] at hc
      cases ha; cases hb; cases hc
      obtain ⟨e1, e2, e3, e4, e5⟩ := dmBars_items ev (List.getElem?_eq_getElem hq)
      exact moves_le_tr (hs.le_high q _ _ (by rw [vals_getElem?, e5]; rfl) (by rw [vals_getElem?, e1]; rfl))
        (hs.low_le q _ _ (by rw [vals_getElem?, e3]; rfl) (by rw [vals_getElem?, e5]; rfl))) j (by omega)
  have tn : 0 ≤ wilderOf w (trueRanges (vals high) (vals low) (vals close)) j :=
    Momentum.wilderOf_nonneg hw (by omega) (by omega) fun x hx => by
      obtain ⟨q, -, rfl⟩ := List.mem_map.1 hx
      exact trueRangeOf_nonneg _ _ _
  have pct : ∀ {x y : XF} {a b : ℝ}, x ⇓ a → y ⇓ b → QuotIs (100 * a) b (x / y * 100) := fun hx hy =>
    (quotIs hx hy).mul_const (is_lit 100) (by norm_num)
  refine ⟨pct i1 i2, pct i3 i2, fun a b ha hb => ?_⟩
  by_cases h0 : wilderOf w (trueRanges (vals high) (vals low) (vals close)) j = 0
  · by_cases h1 : wilderOf w (plusMoves (vals high) (vals low)) j = 0
    · exact absurd ((pct i1 i2).2.1 h0 (by rw [h1, mul_zero])) ha.ne_nan
    · obtain ⟨s, hs⟩ := (pct i1 i2).2.2 h0 (by simpa using h1)
      rw [show (u1 / u2 * 100, u3 / u2 * 100, y3).1 = u1 / u2 * 100 from rfl, hs] at ha
      exact ha.1.elim
  · have A := ((pct i1 i2).1 h0).unique ha
    have B := ((pct i3 i2).1 h0).unique hb
    have tp : 0 < wilderOf w (trueRanges (vals high) (vals low) (vals close)) j := lt_of_le_of_ne tn (Ne.symm h0)
    rw [← A, ← B, ← add_div, div_le_iff₀ tp]
    linarith

example : Items 5 2 (fun _ p => InRange 0 100 p.1 ∧ InRange 0 100 p.2.1 ∧ InRange 0 100 p.2.2)
    (adx ([3, 5, 6, 6, 9].map (fin : ℝ → FP ρ)) ([1, 2, 4, 3, 5].map fin) ([2, 4, 5, 3, 9].map fin) 2 2) :=
  let ⟨o, e, l, h⟩ := adx_range _ _ _ 2 2 (by decide) (by decide) (by simp) (by norm_num) (by norm_num) (fins_map_fin _) (fins_map_fin _)
    (fins_map_fin _) (by simp only [vals_map_fin]; exact saneBars_example)
  ⟨o, e, l, fun i y _ hy => h i y (by omega) hy⟩

end Traquer.Trend
