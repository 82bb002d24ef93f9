import Verif.Props.Trailing
import Mathlib.Tactic.IntervalCases
/-!
# C117: the side of the close supertrend's stop is on

The documentation reads a value above the close as a downtrend. The trend turns against the last reported stop, but only for multipliers that are
large compared with the window is the stop always on the side of the close the trend asks for.
-/

namespace Traquer.Trend
open FP FloatLit Volatility

section
variable {high low close : List ℝ} {w : ℕ} {k : ℝ}

/-- The close lies within the bar. -/
def InBars (high low close : List ℝ) : Prop := ∀ i, i < high.length → bar low i ≤ bar close i ∧ bar close i ≤ bar high i

theorem trueRangeOf_nonneg (h l pc : ℝ) : 0 ≤ trueRangeOf h l pc := (abs_nonneg (h - pc)).trans ((le_max_left _ _).trans (le_max_right _ _))

theorem trueRanges_at (hl : low.length = high.length) (hc : close.length = high.length) {i : ℕ} (hi : i + 1 < high.length) :
    (trueRanges high low close)[i]? = some (trueRangeOf (bar high (i + 1)) (bar low (i + 1)) (bar close i)) := by
  have e : (zip3 high.tail low.tail close)[i]? = some (bar high (i + 1), bar low (i + 1), bar close i) := by
    refine zip3_getElem?.2 ⟨?_, ?_, ?_⟩
    · simp [bar, List.getElem?_eq_getElem hi]
    · simp [bar, List.getElem?_eq_getElem (hl ▸ hi : i + 1 < low.length)]
    · simp [bar, List.getElem?_eq_getElem (by omega : i < close.length)]
  rw [trueRanges, List.getElem?_map, e]; rfl

theorem trueRanges_nonneg : ∀ x ∈ trueRanges high low close, 0 ≤ x := by
  intro x hx
  obtain ⟨p, -, rfl⟩ := List.mem_map.1 hx
  exact trueRangeOf_nonneg _ _ _

theorem wilderOf_nonneg {l : List ℝ} (h : ∀ x ∈ l, 0 ≤ x) (hw : 1 ≤ w) (i : ℕ) : 0 ≤ wilderOf w l i := by
  have hw' : (1 : ℝ) ≤ w := by exact_mod_cast hw
  have hm : 0 ≤ mean (l.take w) := div_nonneg (List.sum_nonneg fun x hx => h x (List.mem_of_mem_take hx)) (Nat.cast_nonneg _)
  induction i with
  | zero => exact hm
  | succ i ih =>
      rw [wilderOf]; split
      · exact hm
      · have : 0 ≤ l[i + 1]?.getD 0 := by
          cases e : l[i + 1]? with
          | none => simp
          | some x => exact h x (List.mem_of_getElem? e)
        exact div_nonneg (add_nonneg (mul_nonneg ih (by linarith)) this) (by linarith)

/-- Wilder's average of numbers that are not negative is at least the newest one divided by the window. -/
theorem wilderOf_share {l : List ℝ} (h : ∀ x ∈ l, 0 ≤ x) (hw : 1 ≤ w) {i : ℕ} (hi : w ≤ i + 1) {x : ℝ} (e : l[i]? = some x) :
    x / w ≤ wilderOf w l i := by
  have hw' : (1 : ℝ) ≤ w := by exact_mod_cast hw
  have first : w = i + 1 → x / w ≤ mean (l.take w) := by
    intro hiw
    have hlen := (List.getElem?_eq_some_iff.1 e).1
    have hlt : (l.take w).length = w := by simp; omega
    rw [mean, hlt]
    refine div_le_div_of_nonneg_right ?_ (by linarith)
    refine List.single_le_sum (fun y hy => h y (List.mem_of_mem_take hy)) x ?_
    exact List.mem_of_getElem? (i := i) (by rw [List.getElem?_take_of_lt (by omega)]; exact e)
  cases i with
  | zero => exact first (by omega)
  | succ i =>
      rw [wilderOf]; split
      · exact first (by omega)
      · rw [e]
        refine div_le_div_of_nonneg_right ?_ (by linarith)
        have := mul_nonneg (wilderOf_nonneg h hw i) (by linarith : (0 : ℝ) ≤ w - 1)
        simpa using this

variable (hl : low.length = high.length) (hc : close.length = high.length) (hw : 1 ≤ w) (hb : InBars high low close)
include hl hc hw

/-- The average true range is at least the true range of the bar divided by the window. -/
theorem atr_share {i : ℕ} (h1 : w ≤ i) (hi : i < high.length) : trueRangeOf (bar high i) (bar low i) (bar close (i - 1)) / w ≤ atrOf high low close w i := by
  obtain ⟨j, rfl⟩ : ∃ j, i = j + 1 := ⟨i - 1, by omega⟩
  exact wilderOf_share trueRanges_nonneg hw h1 (trueRanges_at hl hc hi)

/-- With `2 k ≥ w` a bar lies within the bands drawn around it. -/
theorem band_covers {i : ℕ} (h1 : w ≤ i) (hi : i < high.length) (hk : (w : ℝ) ≤ 2 * k) :
    (bar high i - bar low i) / 2 ≤ k * atrOf high low close w i := by
  have hw' : (1 : ℝ) ≤ w := by exact_mod_cast hw
  have a := atr_share (low := low) (close := close) hl hc hw h1 hi
  have r : bar high i - bar low i ≤ trueRangeOf (bar high i) (bar low i) (bar close (i - 1)) := le_max_left _ _
  have t0 := trueRangeOf_nonneg (bar high i) (bar low i) (bar close (i - 1))
  rw [div_le_iff₀ (by linarith)] at a
  have a0 : 0 ≤ atrOf high low close w i := wilderOf_nonneg trueRanges_nonneg hw _
  nlinarith

include hb

/-- C117: with `2 k ≥ window`, the close is never above the stop in a falling trend. -/
theorem falling_stop {i : ℕ} (h1 : w ≤ i) (hi : i < high.length) (hk : (w : ℝ) ≤ 2 * k) (hr : (bandsAt high low close w k i).rising = false) :
    bar close i ≤ (bandsAt high low close w k i).stop := by
  have cover := band_covers (k := k) hl hc hw h1 hi hk
  have hbar := hb i hi
  rcases Nat.lt_or_ge w i with g | g
  · obtain ⟨j, rfl⟩ : ∃ j, i = j + 1 := ⟨i - 1, by omega⟩
    rw [Bands.stop, hr]
    rw [bandsAt_succ _ _ _ _ _ (by omega)] at hr ⊢
    simp only [Bands.next, Bool.false_eq_true, if_false] at hr ⊢
    split at hr
    · cases hr
    · rename_i hnot
      split
      · exact le_min (not_lt.1 hnot) (by linarith)
      · linarith
  · rw [bandsAt_start _ _ _ _ _ g] at hr
    cases hr

/-- With `k ≥ w` the bands do not cross. -/
theorem bands_ordered (hk : (w : ℝ) ≤ k) {i : ℕ} (h1 : w ≤ i) (hi : i < high.length) :
    (bandsAt high low close w k i).lower ≤ (bandsAt high low close w k i).upper := by
  have hw' : (1 : ℝ) ≤ w := by exact_mod_cast hw
  induction i, h1 using Nat.le_induction with
  | base =>
      rw [bandsAt_start _ _ _ _ _ le_rfl]
      have := band_covers (k := k) hl hc hw le_rfl hi (by linarith)
      have := hb w hi
      dsimp only
      linarith
  | succ i h1 ih =>
      have ih := ih (by omega)
      have cover := band_covers (k := k) hl hc hw (show w ≤ i + 1 by omega) hi (by linarith)
      have hbar := hb (i + 1) hi
      have a := atr_share (low := low) (close := close) hl hc hw (show w ≤ i + 1 by omega) hi
      have t0 := trueRangeOf_nonneg (bar high (i + 1)) (bar low (i + 1)) (bar close (i + 1 - 1))
      have a0 : 0 ≤ atrOf high low close w (i + 1) := wilderOf_nonneg trueRanges_nonneg hw _
      rw [div_le_iff₀ (by linarith)] at a
      have ka : trueRangeOf (bar high (i + 1)) (bar low (i + 1)) (bar close (i + 1 - 1)) ≤ k * atrOf high low close w (i + 1) := by nlinarith
      simp only [Nat.add_sub_cancel] at ka
      have up : |bar high (i + 1) - bar close i| ≤ k * atrOf high low close w (i + 1) :=
        ((le_max_left _ _).trans (le_max_right _ _)).trans ka
      have dn : |bar low (i + 1) - bar close i| ≤ k * atrOf high low close w (i + 1) :=
        ((le_max_right _ _).trans (le_max_right _ _)).trans ka
      rw [abs_le] at up dn
      rw [bandsAt_succ _ _ _ _ _ h1]
      simp only [Bands.next]
      split <;> split
      · refine max_le (le_min ih ?_) (le_min ?_ ?_) <;> linarith
      · refine max_le ?_ ?_ <;> linarith
      · refine le_min ?_ ?_ <;> linarith
      · linarith

/-- C117: with `k ≥ window`, the close is never below the stop in a rising trend. -/
theorem rising_stop {i : ℕ} (h1 : w ≤ i) (hi : i < high.length) (hk : (w : ℝ) ≤ k) (hr : (bandsAt high low close w k i).rising = true) :
    (bandsAt high low close w k i).stop ≤ bar close i := by
  have hw' : (1 : ℝ) ≤ w := by exact_mod_cast hw
  have cover := band_covers (k := k) hl hc hw h1 hi (by linarith)
  have hbar := hb i hi
  rcases Nat.lt_or_ge w i with g | g
  · obtain ⟨j, rfl⟩ : ∃ j, i = j + 1 := ⟨i - 1, by omega⟩
    have ord := bands_ordered hl hc hw hb hk (show w ≤ j by omega) (by omega)
    rw [Bands.stop, hr]
    rw [bandsAt_succ _ _ _ _ _ (by omega)] at hr ⊢
    simp only [Bands.next, if_true] at hr ⊢
    have low_le : (bandsAt high low close w k j).lower ≤ bar close (j + 1) := by
      split at hr
      · linarith
      · split at hr
        · cases hr
        · linarith
    split
    · exact max_le low_le (by linarith)
    · linarith
  · rw [bandsAt_start _ _ _ _ _ g, Bands.stop]
    simp only [if_true]
    linarith

end

/-- What a stop has to do to be read as documented, for reported bars `w, …, n - 1`: it is below the close in an uptrend and above it in a downtrend,
and the trend turns exactly when the close crosses the stop of the bar before. -/
def FollowsStop (w n : ℕ) (stop close : ℕ → ℝ) (up : ℕ → Bool) : Prop :=
  (∀ i, w ≤ i → i < n → if up i then stop i ≤ close i else close i ≤ stop i) ∧
  ∀ i, w ≤ i → i + 1 < n → (up (i + 1) ≠ up i ↔ if up i then close (i + 1) < stop i else stop i < close (i + 1))

variable (high low close : List XF) (w : ℕ) (mult : XF) (k : ℝ)

/-- C117: for a multiplier of at least the window, `supertrend` is a stop that the close has to cross for the trend to turn, and that is on the side of
the close the trend asks for. The trend starts rising. -/
theorem supertrend_follows (hl : low.length = high.length) (hc : close.length = high.length) (hw : 1 ≤ w) (hn : w + 1 ≤ high.length)
    (fh : Fins high) (fl : Fins low) (fc : Fins close) (hm : mult ⇓ k) (hk : (w : ℝ) ≤ k)
    (hb : ∀ i, i < high.length → bar (vals low) i ≤ bar (vals close) i ∧ bar (vals close) i ≤ bar (vals high) i) :
    ∃ (stop : ℕ → ℝ) (up : ℕ → Bool), Reports high.length w stop (supertrend high low close w mult) ∧ up w = true ∧
      FollowsStop w high.length stop (bar (vals close)) up := by
  have l0 : (vals high).length = high.length := by simp [vals]
  have l1 : (vals low).length = (vals high).length := by simp [vals, hl]
  have l2 : (vals close).length = (vals high).length := by simp [vals, hc]
  have hb' : InBars (vals high) (vals low) (vals close) := fun i hi => hb i (by omega)
  have hw' : (1 : ℝ) ≤ w := by exact_mod_cast hw
  refine ⟨_, fun i => (bandsAt (vals high) (vals low) (vals close) w k i).rising, supertrend_reports high low close w mult k hl hc hw hn fh fl fc hm,
    by beta_reduce; rw [bandsAt_start _ _ _ _ _ le_rfl], fun i h1 hi => ?_, fun i h1 hi => ?_⟩
  · dsimp only
    split
    · exact rising_stop l1 l2 hw hb' h1 (by omega) hk ‹_›
    · rename_i hf
      exact falling_stop l1 l2 hw hb' h1 (by omega) (by linarith) (Bool.eq_false_iff.2 hf)
  · have ord := bands_ordered (k := k) l1 l2 hw hb' hk h1 (by omega)
    dsimp only
    rw [bandsAt_succ _ _ _ _ _ h1]
    rcases Bool.eq_false_or_eq_true (bandsAt (vals high) (vals low) (vals close) w k i).rising with hr | hr <;>
      simp only [Bands.next, Bands.stop, hr, if_true, Bool.false_eq_true, if_false]
    rotate_left
    · by_cases g : (bandsAt (vals high) (vals low) (vals close) w k i).upper < bar (vals close) (i + 1)
      · simp [g]
      · simp [g]
    · by_cases g : (bandsAt (vals high) (vals low) (vals close) w k i).upper < bar (vals close) (i + 1)
      · have : ¬ bar (vals close) (i + 1) < (bandsAt (vals high) (vals low) (vals close) w k i).lower := by linarith
        simp [g, this]
      · simp [g]

/-- C117: for every multiplier the trend turns up exactly when the close rises above the stop of the bar before, and turns down only when the close
falls below the stop of the bar before. -/
theorem supertrend_turns (hl : low.length = high.length) (hc : close.length = high.length) (hw : 1 ≤ w) (hn : w + 1 ≤ high.length)
    (fh : Fins high) (fl : Fins low) (fc : Fins close) (hm : mult ⇓ k) :
    ∃ (stop : ℕ → ℝ) (up : ℕ → Bool), Reports high.length w stop (supertrend high low close w mult) ∧ up w = true ∧
      (∀ i, w ≤ i → up i = false → (up (i + 1) = true ↔ stop i < bar (vals close) (i + 1))) ∧
      ∀ i, w ≤ i → up i = true → up (i + 1) = false → bar (vals close) (i + 1) < stop i := by
  refine ⟨_, fun i => (bandsAt (vals high) (vals low) (vals close) w k i).rising, supertrend_reports high low close w mult k hl hc hw hn fh fl fc hm,
    by beta_reduce; rw [bandsAt_start _ _ _ _ _ le_rfl], fun i h1 hr => ?_, fun i h1 hr => ?_⟩
  · dsimp only at hr ⊢
    rw [bandsAt_succ _ _ _ _ _ h1]
    simp only [Bands.next, Bands.stop, hr, Bool.false_eq_true, if_false]
    by_cases g : (bandsAt (vals high) (vals low) (vals close) w k i).upper < bar (vals close) (i + 1) <;> simp [g]
  · dsimp only at hr ⊢
    rw [bandsAt_succ _ _ _ _ _ h1]
    simp only [Bands.next, Bands.stop, hr, if_true]
    intro h
    split at h
    · cases h
    · split at h
      · assumption
      · cases h

/-! ### The usual settings: ten bars, three average true ranges -/

/-- Ten quiet bars, then a jump to 130 and half the way back. -/
def jump : List ℝ × List ℝ × List ℝ :=
  ([101, 101, 101, 101, 101, 101, 101, 101, 101, 101, 101, 130, 110], [99, 99, 99, 99, 99, 99, 99, 99, 99, 99, 99, 130, 110],
    [100, 100, 100, 100, 100, 100, 100, 100, 100, 100, 100, 130, 110])

/-- C117 is false for the usual settings. In an uptrend the close falls from 130 to 110, through the stop at 115.6: the trend does not turn and the
stop stays above the close. -/
theorem supertrend_holds_through :
    (∀ i, i < 3 → (bandsAt jump.1 jump.2.1 jump.2.2 10 3 (i + 10)).rising = true) ∧
    Reports 13 10 (fun i => [94, 115.6, 115.6].getD (i - 10) 0)
      (supertrend (jump.1.map (fin : ℝ → XF)) (jump.2.1.map fin) (jump.2.2.map fin) 10 (fin 3)) := by
  have t : trueRanges jump.1 jump.2.1 jump.2.2 = [2, 2, 2, 2, 2, 2, 2, 2, 2, 2, 30, 20] := by
    norm_num [trueRanges, jump, trueRangeOf, zip3]
  have a1 : atrOf jump.1 jump.2.1 jump.2.2 10 10 = 2 := by rw [atrOf, t]; norm_num [wilderOf, mean]
  have a2 : atrOf jump.1 jump.2.1 jump.2.2 10 11 = 4.8 := by rw [atrOf, t]; norm_num [wilderOf, mean]
  have a3 : atrOf jump.1 jump.2.1 jump.2.2 10 12 = 6.32 := by rw [atrOf, t]; norm_num [wilderOf, mean]
  have b1 : bandsAt jump.1 jump.2.1 jump.2.2 10 3 10 = ⟨94, 106, true⟩ := by
    rw [bandsAt_start _ _ _ _ _ le_rfl, a1]; norm_num [jump, bar]
  have b2 : bandsAt jump.1 jump.2.1 jump.2.2 10 3 11 = ⟨115.6, 106, true⟩ := by
    rw [bandsAt_succ _ _ _ _ _ le_rfl, a2, b1]; norm_num [jump, bar, Bands.next]
  have b3 : bandsAt jump.1 jump.2.1 jump.2.2 10 3 12 = ⟨115.6, 128.96, true⟩ := by
    rw [bandsAt_succ _ _ _ _ _ (by norm_num), a3, b2]; norm_num [jump, bar, Bands.next]
  refine ⟨fun i hi => ?_, ?_⟩
  · match i, hi with
    | 0, _ => rw [b1]
    | 1, _ => rw [b2]
    | 2, _ => rw [b3]
  · have := supertrend_reports (jump.1.map (fin : ℝ → XF)) (jump.2.1.map fin) (jump.2.2.map fin) 10 (fin 3) 3
      rfl rfl (by norm_num) (by simp [jump]) (fins_map_fin _) (fins_map_fin _) (fins_map_fin _) (is_fin _)
    simp only [vals_map_fin] at this
    refine this.congr fun i h1 h2 => ?_
    have : i = 10 ∨ i = 11 ∨ i = 12 := by simp [jump] at h2; omega
    rcases this with rfl | rfl | rfl
    · rw [b1]; simp [Bands.stop]
    · rw [b2]; simp [Bands.stop]
    · rw [b3]; simp [Bands.stop]

/-- Ten quiet bars, a fall that turns the trend, then a wide bar that closes at its high. -/
def wide : List ℝ × List ℝ × List ℝ :=
  ([101, 101, 101, 101, 101, 101, 101, 101, 101, 101, 101, 94, 100], [99, 99, 99, 99, 99, 99, 99, 99, 99, 99, 99, 92, 50],
    [100, 100, 100, 100, 100, 100, 100, 100, 100, 100, 100, 92, 100])

/-- C117 is false for the usual settings. In a downtrend the last bar closes at 100, below the stop of the bar before (100.8), so the trend does not
turn; its own stop is 97.02, below the close. -/
theorem supertrend_wrong_side :
    (∀ i, i < 2 → (bandsAt wide.1 wide.2.1 wide.2.2 10 3 (i + 11)).rising = false) ∧
    Reports 13 10 (fun i => [94, 100.8, 97.02].getD (i - 10) 0)
      (supertrend (wide.1.map (fin : ℝ → XF)) (wide.2.1.map fin) (wide.2.2.map fin) 10 (fin 3)) := by
  have t : trueRanges wide.1 wide.2.1 wide.2.2 = [2, 2, 2, 2, 2, 2, 2, 2, 2, 2, 8, 50] := by
    norm_num [trueRanges, wide, trueRangeOf, zip3]
  have a1 : atrOf wide.1 wide.2.1 wide.2.2 10 10 = 2 := by rw [atrOf, t]; norm_num [wilderOf, mean]
  have a2 : atrOf wide.1 wide.2.1 wide.2.2 10 11 = 2.6 := by rw [atrOf, t]; norm_num [wilderOf, mean]
  have a3 : atrOf wide.1 wide.2.1 wide.2.2 10 12 = 7.34 := by rw [atrOf, t]; norm_num [wilderOf, mean]
  have b1 : bandsAt wide.1 wide.2.1 wide.2.2 10 3 10 = ⟨94, 106, true⟩ := by
    rw [bandsAt_start _ _ _ _ _ le_rfl, a1]; norm_num [wide, bar]
  have b2 : bandsAt wide.1 wide.2.1 wide.2.2 10 3 11 = ⟨94, 100.8, false⟩ := by
    rw [bandsAt_succ _ _ _ _ _ le_rfl, a2, b1]; norm_num [wide, bar, Bands.next]
  have b3 : bandsAt wide.1 wide.2.1 wide.2.2 10 3 12 = ⟨52.98, 97.02, false⟩ := by
    rw [bandsAt_succ _ _ _ _ _ (by norm_num), a3, b2]; norm_num [wide, bar, Bands.next]
  refine ⟨fun i hi => ?_, ?_⟩
  · match i, hi with
    | 0, _ => rw [b2]
    | 1, _ => rw [b3]
  · have := supertrend_reports (wide.1.map (fin : ℝ → XF)) (wide.2.1.map fin) (wide.2.2.map fin) 10 (fin 3) 3
      rfl rfl (by norm_num) (by simp [wide]) (fins_map_fin _) (fins_map_fin _) (fins_map_fin _) (is_fin _)
    simp only [vals_map_fin] at this
    refine this.congr fun i h1 h2 => ?_
    have : i = 10 ∨ i = 11 ∨ i = 12 := by simp [wide] at h2; omega
    rcases this with rfl | rfl | rfl
    · rw [b1]; simp [Bands.stop]
    · rw [b2]; simp [Bands.stop]
    · rw [b3]; simp [Bands.stop]

/-- A series that meets the conditions of `supertrend_follows`: two bars to the window, two average true ranges. -/
example : ∃ (stop : ℕ → ℝ) (up : ℕ → Bool),
    Reports 4 2 stop (supertrend ([11, 12, 14, 9].map (fin : ℝ → XF)) ([9, 10, 12, 3].map fin) ([10, 11, 13, 4].map fin) 2 (fin 2)) ∧
      up 2 = true ∧ FollowsStop 2 4 stop (bar [10, 11, 13, 4]) up := by
  have := supertrend_follows ([11, 12, 14, 9].map (fin : ℝ → XF)) ([9, 10, 12, 3].map fin) ([10, 11, 13, 4].map fin) 2 (fin 2) 2
    rfl rfl (by norm_num) (by simp) (fins_map_fin _) (fins_map_fin _) (fins_map_fin _) (is_fin _) (by norm_num) (by
      intro i hi
      simp only [vals_map_fin]
      simp only [List.length_map, List.length_cons, List.length_nil] at hi
      have hi : i < 4 := by omega
      interval_cases i <;> norm_num [bar])
  simpa only [vals_map_fin, List.length_map, List.length_cons, List.length_nil] using this

end Traquer.Trend
