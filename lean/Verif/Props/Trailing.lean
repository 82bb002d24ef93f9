import Verif.Spec.Stops
import Verif.Lemmas.Order
import Verif.Lemmas.Indexed
import Verif.Props.TrueRange
import Verif.Props.Bands
import Verif.Props.Sar
/-!
# C55: trailing stops
-/

namespace Traquer.Trend
open FP FloatLit Volatility

theorem is_bar {l : List XF} (hf : Fins l) {i : ℕ} {x : XF} (h : l[i]? = some x) : x ⇓ bar (vals l) i :=
  (hf _ (List.mem_of_getElem? h)).is.congr (by simp [bar, vals, h])

/-! ## supertrend -/

theorem bandsAt_start (high low close : List ℝ) (w : ℕ) (k : ℝ) {i : ℕ} (h : i ≤ w) : bandsAt high low close w k i =
    ⟨(bar high i + bar low i) / 2 - k * atrOf high low close w i, (bar high i + bar low i) / 2 + k * atrOf high low close w i, true⟩ := by
  cases i with
  | zero => rfl
  | succ i => rw [bandsAt, if_pos h]

theorem bandsAt_succ (high low close : List ℝ) (w : ℕ) (k : ℝ) {i : ℕ} (h : w ≤ i) : bandsAt high low close w k (i + 1) =
    (bandsAt high low close w k i).next k (atrOf high low close w (i + 1)) (bar high (i + 1)) (bar low (i + 1)) (bar close (i + 1))
      (bar close i) := by
  rw [bandsAt, if_neg (by omega)]

/-- The variables of the code hold the values of the specification. -/
def BandsIs (s : StState XF) (r : Bands) : Prop := s.lower ⇓ r.lower ∧ s.upper ⇓ r.upper ∧ s.up = r.rising

theorem supertrendStep_is {m h l c tr : XF} {k h' l' c' a p : ℝ} {s : StState XF} {r : Bands} (hm : m ⇓ k) (hh : h ⇓ h') (hl : l ⇓ l')
    (hc : c ⇓ c') (ha : tr ⇓ a) (hp : s.prevc ⇓ p) (hs : BandsIs s r) :
    BandsIs (supertrendStep m s (h, l, c, tr)).1 (r.next k a h' l' c' p) ∧ (supertrendStep m s (h, l, c, tr)).1.prevc ⇓ c' ∧
      (supertrendStep m s (h, l, c, tr)).2 ⇓ (r.next k a h' l' c' p).stop := by
  obtain ⟨h1, h2, h3⟩ := hs
  have hmid := is_div (is_add hh hl) (is_lit 2) (by norm_num)
  have lo := is_sub hmid (is_mul hm ha)
  have up := is_add hmid (is_mul hm ha)
  have hlow : (if ((s.prevc >. s.lower) && (s.lower >. ((h + l) / 2 - m * tr))) = true then s.lower else ((h + l) / 2 - m * tr)) ⇓
      (r.next k a h' l' c' p).lower := by
    simp only [is_lt h1 hp, is_lt lo h1, Bands.next]
    by_cases g1 : r.lower < p <;> by_cases g2 : (h' + l') / 2 - k * a < r.lower <;> simp [g1, g2]
    · exact h1.congr (by simpa using g2.le)
    · exact lo.congr (by simpa using g2)
    · exact lo
    · exact lo
  have hupp : (if ((s.prevc <. s.upper) && (s.upper <. ((h + l) / 2 + m * tr))) = true then s.upper else ((h + l) / 2 + m * tr)) ⇓
      (r.next k a h' l' c' p).upper := by
    simp only [is_lt hp h2, is_lt h2 up, Bands.next]
    by_cases g1 : p < r.upper <;> by_cases g2 : r.upper < (h' + l') / 2 + k * a <;> simp [g1, g2]
    · exact h2.congr (by simpa using g2.le)
    · exact up.congr (by simpa using g2)
    · exact up
    · exact up
  have hdir : (if (c >. s.upper) = true then true else if (c <. s.lower) = true then false else s.up) = (r.next k a h' l' c' p).rising := by
    simp only [is_lt h2 hc, is_lt hc h1, Bands.next, decide_eq_true_eq, h3]
  refine ⟨⟨hlow, hupp, hdir⟩, hc, ?_⟩
  simp only [supertrendStep, Bands.stop]
  rw [hdir]
  cases (r.next k a h' l' c' p).rising
  · simpa using hupp
  · simpa using hlow

/-- The first bars: no average true range yet, or no previous band. -/
theorem supertrendStep_first {m : XF} {h l c tr : XF} {s : StState XF} (h1 : s.lower = FP.nan) (h2 : s.upper = FP.nan) (h3 : s.up = true) :
    supertrendStep m s (h, l, c, tr) = (⟨(h + l) / 2 - m * tr, (h + l) / 2 + m * tr, c, true⟩, (h + l) / 2 - m * tr) := by
  have e1 : ∀ x : XF, (FP.nan <. x) = false := fun x => by cases x <;> rfl
  have e2 : ∀ x : XF, (x <. FP.nan) = false := fun x => by cases x <;> rfl
  simp [supertrendStep, h1, h2, h3, e1, e2]

theorem mul_nan (m x : XF) : m - x * FP.nan = FP.nan ∧ m + x * FP.nan = FP.nan := by
  constructor <;> cases x <;> cases m <;> rfl

/-- C55 in exact arithmetic: for finite bars `supertrend` reports the stop of the supertrend rules from bar `window` on. -/
theorem supertrend_reports (high low close : List XF) (w : ℕ) (mult : XF) (k : ℝ) (hl : low.length = high.length)
    (hc : close.length = high.length) (hw : 1 ≤ w) (hn : w + 1 ≤ high.length) (fh : Fins high) (fl : Fins low) (fc : Fins close)
    (hk : mult ⇓ k) :
    Reports high.length w (fun i => (bandsAt (vals high) (vals low) (vals close) w k i).stop) (supertrend high low close w mult) := by
  obtain ⟨a, ea, ra, la⟩ := (atr_reports high low close w hl hc hw hn fh fl fc).some
  have e : supertrend high low close w mult = some (scan (supertrendStep mult)
      { lower := nan, upper := nan, prevc := minPositive, up := true } (zip4 high low close a)) := by
    simp only [atr, Option.bind_eq_bind, Option.bind_eq_some_iff, Option.some.injEq] at ea
    obtain ⟨t, e1, v, e2, rfl⟩ := ea
    simp [supertrend, e1, e2]
  have P := scan_idx (f := supertrendStep mult) (l := zip4 high low close a)
    (s := { lower := nan, upper := nan, prevc := minPositive, up := true })
    (I := fun i s => if i ≤ w then s.lower = FP.nan ∧ s.upper = FP.nan ∧ s.up = true else
      BandsIs s (bandsAt (vals high) (vals low) (vals close) w k (i - 1)) ∧ s.prevc ⇓ bar (vals close) (i - 1))
    (P := fun i y => if i < w then y = FP.nan else y ⇓ (bandsAt (vals high) (vals low) (vals close) w k i).stop) (by
      intro i s ⟨h, l, c, t⟩ hx hs
      obtain ⟨z1, z2, z3, z4⟩ := zip4_getElem?.1 hx
      have b1 := is_bar fh z1
      have b2 := is_bar fl z2
      have b3 := is_bar fc z3
      rcases lt_trichotomy i w with g | g | g
      · simp only [if_pos g.le] at hs
        have ht : t = FP.nan := isNaN_iff.1 (ra.at_nan z4 g)
        rw [supertrendStep_first hs.1 hs.2.1 hs.2.2, if_pos (show i + 1 ≤ w from g), if_pos g, ht]
        exact ⟨⟨(mul_nan _ _).1, (mul_nan _ _).2, rfl⟩, (mul_nan _ _).1⟩
      · simp only [if_pos g.le] at hs
        have i2 := ra.at z4 (by omega)
        have hmid := is_div (is_add b1 b2) (is_lit 2) (by norm_num)
        rw [supertrendStep_first hs.1 hs.2.1 hs.2.2, if_neg (by omega), if_neg (by omega), Nat.add_sub_cancel,
          bandsAt_start _ _ _ _ _ g.le]
        exact ⟨⟨⟨is_sub hmid (is_mul hk i2), is_add hmid (is_mul hk i2), rfl⟩, b3⟩, is_sub hmid (is_mul hk i2)⟩
      · rw [if_neg (by omega)] at hs
        rw [if_neg (by omega), if_neg (by omega), Nat.add_sub_cancel]
        obtain ⟨j, rfl⟩ : ∃ j, i = j + 1 := ⟨i - 1, by omega⟩
        rw [bandsAt_succ _ _ _ _ _ (by omega)]
        obtain ⟨q1, q2, q3⟩ := supertrendStep_is hk b1 b2 b3 (ra.at z4 (by omega)) hs.2 hs.1
        exact ⟨⟨q1, q2⟩, q3⟩) (by simp [nan_def])
  have len : (scan (supertrendStep mult) { lower := nan, upper := nan, prevc := minPositive, up := true }
      (zip4 high low close a)).length = high.length := by simp; omega
  refine ⟨_, e, len, fun i h1 h2 => ?_, fun i h1 h2 => ?_⟩
  · have := P i _ (List.getElem?_eq_getElem (by omega))
    rw [if_pos h1] at this
    rw [List.getElem?_eq_getElem (by omega), this]; rfl
  · refine ⟨_, List.getElem?_eq_getElem (by omega), ?_⟩
    have := P i _ (List.getElem?_eq_getElem (by omega))
    rwa [if_neg (by omega)] at this

/-- C55: while the trend keeps rising and the close of the earlier bar is above the stop, supertrend's stop does not fall. -/
theorem supertrend_ratchet_up (high low close : List ℝ) (w : ℕ) (k : ℝ) {i : ℕ} (hi : w ≤ i)
    (h1 : (bandsAt high low close w k i).rising = true) (h2 : (bandsAt high low close w k (i + 1)).rising = true)
    (hc : (bandsAt high low close w k i).stop < bar close i) :
    (bandsAt high low close w k i).stop ≤ (bandsAt high low close w k (i + 1)).stop := by
  simp only [Bands.stop, h1, h2, if_true] at hc ⊢
  rw [bandsAt_succ _ _ _ _ _ hi, Bands.next]
  simp [hc]

/-- C55: while the trend keeps falling and the close of the earlier bar is below the stop, supertrend's stop does not rise. -/
theorem supertrend_ratchet_down (high low close : List ℝ) (w : ℕ) (k : ℝ) {i : ℕ} (hi : w ≤ i)
    (h1 : (bandsAt high low close w k i).rising = false) (h2 : (bandsAt high low close w k (i + 1)).rising = false)
    (hc : bar close i < (bandsAt high low close w k i).stop) :
    (bandsAt high low close w k (i + 1)).stop ≤ (bandsAt high low close w k i).stop := by
  simp only [Bands.stop, h1, h2, Bool.false_eq_true, if_false] at hc ⊢
  rw [bandsAt_succ _ _ _ _ _ hi, Bands.next]
  simp [hc]

/-- Bars on which supertrend's stop falls in a rising trend. The third bar closes at its low, inside the band of the bar before but
below its own. -/
def stopFalls : List ℝ × List ℝ × List ℝ := ([10, 11, 20, 14], [10, 9, 10, 6], [10, 10, 10, 13])

/-- C55 is false without the condition on the close: the trend rises over the three reported bars, yet the stop goes 9.5, 12.5, 8. -/
theorem supertrend_stop_can_fall :
    (∀ i, i < 3 → (bandsAt stopFalls.1 stopFalls.2.1 stopFalls.2.2 1 (1 / 4) (i + 1)).rising = true) ∧
    Reports 4 1 (fun i => [0, 9.5, 12.5, 8].getD i 0)
      (supertrend (stopFalls.1.map (fin : ℝ → XF)) (stopFalls.2.1.map fin) (stopFalls.2.2.map fin) 1 (fin (1 / 4))) := by
  have t : trueRanges stopFalls.1 stopFalls.2.1 stopFalls.2.2 = [2, 10, 8] := by
    norm_num [trueRanges, stopFalls, trueRangeOf, zip3]
  have a1 : atrOf stopFalls.1 stopFalls.2.1 stopFalls.2.2 1 1 = 2 := by
    rw [atrOf, t]; norm_num [wilderOf, mean]
  have a2 : atrOf stopFalls.1 stopFalls.2.1 stopFalls.2.2 1 2 = 10 := by
    rw [atrOf, t]; norm_num [wilderOf, mean]
  have a3 : atrOf stopFalls.1 stopFalls.2.1 stopFalls.2.2 1 3 = 8 := by
    rw [atrOf, t]; norm_num [wilderOf, mean]
  have b1 : bandsAt stopFalls.1 stopFalls.2.1 stopFalls.2.2 1 (1 / 4) 1 = ⟨9.5, 10.5, true⟩ := by
    rw [bandsAt_start _ _ _ _ _ le_rfl, a1]; norm_num [stopFalls, bar]
  have b2 : bandsAt stopFalls.1 stopFalls.2.1 stopFalls.2.2 1 (1 / 4) 2 = ⟨12.5, 10.5, true⟩ := by
    rw [bandsAt_succ _ _ _ _ _ le_rfl, a2, b1]; norm_num [stopFalls, bar, Bands.next]
  have b3 : bandsAt stopFalls.1 stopFalls.2.1 stopFalls.2.2 1 (1 / 4) 3 = ⟨8, 10.5, true⟩ := by
    rw [bandsAt_succ _ _ _ _ _ (by norm_num), a3, b2]; norm_num [stopFalls, bar, Bands.next]
  refine ⟨fun i hi => ?_, ?_⟩
  · match i, hi with
    | 0, _ => rw [b1]
    | 1, _ => rw [b2]
    | 2, _ => rw [b3]
  · have := supertrend_reports (stopFalls.1.map (fin : ℝ → XF)) (stopFalls.2.1.map fin) (stopFalls.2.2.map fin) 1 (fin (1 / 4)) (1 / 4)
      rfl rfl le_rfl (by simp [stopFalls]) (fins_map_fin _) (fins_map_fin _) (fins_map_fin _) (is_fin _)
    simp only [vals_map_fin] at this
    refine this.congr fun i h1 h2 => ?_
    match i, h1, h2 with
    | 1, _, _ => rw [b1]; simp [Bands.stop]
    | 2, _, _ => rw [b2]; simp [Bands.stop]
    | 3, _, _ => rw [b3]; simp [Bands.stop]

/-! ## atr_stop -/

/-- The variables of the code hold the values of the specification. -/
def TrailIs (s : Bool × XF) (r : Trail) : Prop := s.2 ⇓ r.stop ∧ s.1 = r.rising

theorem atrStopStep_is {m c a : XF} {k c' a' : ℝ} {s : Bool × XF} {r : Trail} (hm : m ⇓ k) (hc : c ⇓ c') (ha : a ⇓ a')
    (hs : TrailIs s r) : TrailIs (atrStopStep m s c a) (r.next c' (k * a')) := by
  obtain ⟨h1, h2⟩ := hs
  have up := is_add hc (is_mul hm ha)
  have lo := is_sub hc (is_mul hm ha)
  have mx := is_fmax h1 lo
  have mn := is_fmin h1 up
  cases hr : r.rising <;> rw [hr] at h2 <;> simp only [atrStopStep, Trail.next, h2, hr, if_true, Bool.false_eq_true, if_false]
  · by_cases g : min r.stop (c' + k * a') < c' <;> simp only [is_lt mn hc, g, decide_true, decide_false, if_true, Bool.false_eq_true, if_false]
    · exact ⟨lo, rfl⟩
    · exact ⟨mn, rfl⟩
  · by_cases g : c' < max r.stop (c' - k * a') <;> simp only [is_lt hc mx, g, decide_true, decide_false, if_true, Bool.false_eq_true, if_false]
    · exact ⟨up, rfl⟩
    · exact ⟨mx, rfl⟩

theorem trailAt_start (high low close : List ℝ) (w : ℕ) (k : ℝ) {i : ℕ} (h : i < w) : trailAt high low close w k i = ⟨0, true⟩ := by
  cases i with
  | zero => rfl
  | succ i => rw [trailAt, if_pos h]

theorem trailAt_succ (high low close : List ℝ) (w : ℕ) (k : ℝ) {i : ℕ} (h : w ≤ i + 1) : trailAt high low close w k (i + 1) =
    (trailAt high low close w k i).next (bar close (i + 1)) (k * atrOf high low close w (i + 1)) := by
  rw [trailAt, if_neg (by omega)]

/-- C55 in exact arithmetic: for finite bars `atr_stop` reports a stop that trails the close by the multiple (3 if none is given) of the
average true range. -/
theorem atr_stop_reports (high low close : List XF) (w : ℕ) (mult : Option XF) (k : ℝ) (hl : low.length = high.length)
    (hc : close.length = high.length) (hw : 1 ≤ w) (hn : w + 1 ≤ high.length) (fh : Fins high) (fl : Fins low) (fc : Fins close)
    (hk : mult.getD 3 ⇓ k) :
    Reports high.length w (fun i => (trailAt (vals high) (vals low) (vals close) w k i).stop) (atr_stop high low close w mult) := by
  obtain ⟨a, ea, ra, la⟩ := (atr_reports high low close w hl hc hw hn fh fl fc).some
  have lz : (((windowsOf w close).drop 1).zip (a.drop w)).length = high.length - w := by
    simp; omega
  have zi : ∀ i x, (((windowsOf w close).drop 1).zip (a.drop w))[i]? = some x → ∃ c t, x.1[w - 1]? = some c ∧ close[w + i]? = some c ∧
      x.2 = t ∧ a[w + i]? = some t := by
    rintro i ⟨v, t⟩ hx
    obtain ⟨z1, z2⟩ := List.getElem?_zip_eq_some.1 hx
    rw [List.getElem?_drop] at z1 z2
    have hb := (List.getElem?_eq_some_iff.1 z2).1
    rw [show (1 + i : ℕ) = w + i - (w - 1) by omega, windowsOf_recent hw (by omega) (by omega)] at z1
    cases z1
    refine ⟨close[w + i]'(by omega), t, ?_, List.getElem?_eq_getElem _, rfl, z2⟩
    show ((close.drop (w + i + 1 - w)).take w)[w - 1]? = _
    rw [List.getElem?_take_of_lt (by omega), List.getElem?_drop, show w + i + 1 - w + (w - 1) = w + i by omega,
      List.getElem?_eq_getElem]
  obtain ⟨o, eo, ho⟩ := scanM_idx_some (l := ((windowsOf w close).drop 1).zip (a.drop w)) (s := (true, (0 : XF)))
    (f := fun (s : Bool × XF) ((c, atr) : List XF × XF) => do
      let cl ← c[w - 1]?
      let s := atrStopStep (mult.getD 3) s cl atr
      some (s, s.2))
    (I := fun i s => TrailIs s (trailAt (vals high) (vals low) (vals close) w k (w + i - 1)))
    (P := fun i y => y ⇓ (trailAt (vals high) (vals low) (vals close) w k (w + i)).stop) (by
      intro i s x hx hs
      obtain ⟨c, t, e1, e2, rfl, e4⟩ := zi i x hx
      have i2 := ra.at e4 (by omega)
      obtain ⟨j, hj⟩ : ∃ j, w + i = j + 1 := ⟨w + i - 1, by omega⟩
      have := atrStopStep_is hk (is_bar fc e2) i2 hs
      rw [hj, Nat.add_sub_cancel] at this
      rw [← Nat.add_assoc, Nat.add_sub_cancel, hj, trailAt_succ _ _ _ _ _ (by omega)]
      exact ⟨_, _, by simp only [e1]; rfl, this, this.1⟩) (by
      rw [Nat.add_zero, trailAt_start _ _ _ _ _ (by omega)]; exact ⟨isZero, rfl⟩)
  have lo := scanM_length eo
  have e : atr_stop high low close w mult = some (nans w ++ o) := by
    simp only [atr_stop, windows_of_pos hw, ea, Option.bind_eq_bind, Option.bind_some] at eo ⊢
    rw [eo]; rfl
  rw [e]
  refine reports_nans (by omega) fun i hi => ⟨_, List.getElem?_eq_getElem hi, ho i _ (List.getElem?_eq_getElem hi)⟩

/-- C55: while the trend keeps rising, atr_stop's stop does not fall. -/
theorem atr_stop_ratchet_up (high low close : List ℝ) (w : ℕ) (k : ℝ) {i : ℕ} (hi : w ≤ i + 1)
    (h1 : (trailAt high low close w k i).rising = true) (h2 : (trailAt high low close w k (i + 1)).rising = true) :
    (trailAt high low close w k i).stop ≤ (trailAt high low close w k (i + 1)).stop := by
  rw [trailAt_succ _ _ _ _ _ hi] at h2 ⊢
  simp only [Trail.next, h1, if_true] at h2 ⊢
  split at h2
  · cases h2
  · rename_i g; rw [if_neg g]; exact le_max_left _ _

/-- C55: while the trend keeps falling, atr_stop's stop does not rise. -/
theorem atr_stop_ratchet_down (high low close : List ℝ) (w : ℕ) (k : ℝ) {i : ℕ} (hi : w ≤ i + 1)
    (h1 : (trailAt high low close w k i).rising = false) (h2 : (trailAt high low close w k (i + 1)).rising = false) :
    (trailAt high low close w k (i + 1)).stop ≤ (trailAt high low close w k i).stop := by
  rw [trailAt_succ _ _ _ _ _ hi] at h2 ⊢
  simp only [Trail.next, h1, Bool.false_eq_true, if_false] at h2 ⊢
  split at h2
  · cases h2
  · rename_i g; rw [if_neg g]; exact min_le_left _ _

/-- C55: for a multiplier that is not negative atr_stop's stop is never on the wrong side of the close. -/
theorem atr_stop_side (high low close : List ℝ) (w : ℕ) (k : ℝ) (hk : 0 ≤ k) (hl : low.length = high.length)
    (hc : close.length = high.length) (hw : 1 ≤ w) {i : ℕ} (h1 : w ≤ i) (h2 : i < high.length) :
    if (trailAt high low close w k i).rising then (trailAt high low close w k i).stop ≤ bar close i
    else bar close i ≤ (trailAt high low close w k i).stop := by
  obtain ⟨j, rfl⟩ : ∃ j, i = j + 1 := ⟨i - 1, by omega⟩
  have hd := mul_nonneg hk (wilder_trueRanges_nonneg hl hc hw h1 h2)
  rw [trailAt_succ _ _ _ _ _ (by omega), Trail.next]
  change 0 ≤ k * atrOf high low close w (j + 1) at hd
  by_cases g : (trailAt high low close w k j).rising = true
  · rw [if_pos g]
    by_cases q : bar close (j + 1) < max (trailAt high low close w k j).stop (bar close (j + 1) - k * atrOf high low close w (j + 1))
    · rw [if_pos q, if_neg (by simp)]; simpa using hd
    · rw [if_neg q, if_pos rfl]; exact not_lt.1 q
  · rw [if_neg g]
    by_cases q : min (trailAt high low close w k j).stop (bar close (j + 1) + k * atrOf high low close w (j + 1)) < bar close (j + 1)
    · rw [if_pos q, if_pos rfl]; simpa using hd
    · rw [if_neg q, if_neg (by simp)]; exact not_lt.1 q

/-! ## Examples -/

example : Reports 4 1 (fun i => (trailAt [10, 11, 20, 14] [10, 9, 10, 6] [10, 10, 10, 13] 1 3 i).stop)
    (atr_stop ([10, 11, 20, 14].map (fin : ℝ → XF)) ([10, 9, 10, 6].map fin) ([10, 10, 10, 13].map fin) 1 none) := by
  have := atr_stop_reports ([10, 11, 20, 14].map (fin : ℝ → XF)) ([10, 9, 10, 6].map fin) ([10, 10, 10, 13].map fin) 1 none 3
      rfl rfl le_rfl (by simp) (fins_map_fin _) (fins_map_fin _) (fins_map_fin _) (is_lit 3)
  simp only [vals_map_fin] at this
  exact this

/-- The stop starts at the larger of zero and three ranges below the close, which is 4. -/
example : trailAt [10, 11, 20, 14] [10, 9, 10, 6] [10, 10, 10, 13] 1 3 1 = ⟨4, true⟩ := by
  have t : trueRanges [10, 11, 20, 14] [10, 9, 10, 6] [10, 10, 10, 13] = [2, 10, 8] := by norm_num [trueRanges, trueRangeOf, zip3]
  rw [trailAt_succ _ _ _ _ _ le_rfl, trailAt_start _ _ _ _ _ (by norm_num), atrOf, t]
  norm_num [wilderOf, mean, bar, Trail.next]

/-- The hypotheses of the ratchet hold at the first reported bar of the bars above, whose stop is 9.5 and close 10. -/
example : (bandsAt stopFalls.1 stopFalls.2.1 stopFalls.2.2 1 (1 / 4) 1).stop ≤ (bandsAt stopFalls.1 stopFalls.2.1 stopFalls.2.2 1 (1 / 4) 2).stop := by
  refine supertrend_ratchet_up _ _ _ 1 _ le_rfl (supertrend_stop_can_fall.1 0 (by norm_num)) (supertrend_stop_can_fall.1 1 (by norm_num)) ?_
  have t : trueRanges stopFalls.1 stopFalls.2.1 stopFalls.2.2 = [2, 10, 8] := by norm_num [trueRanges, stopFalls, trueRangeOf, zip3]
  rw [bandsAt_start _ _ _ _ _ le_rfl, atrOf, t]
  norm_num [wilderOf, mean, bar, Bands.stop, stopFalls]

end Traquer.Trend
