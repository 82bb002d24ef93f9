import Verif.Spec.Ribbon
import Verif.Props.Sar
import Verif.Props.Identities
/-!
# C137: the parabolic stop in a trend

While every bar lies above the one before, `psar` follows below the bars and never falls; while every bar lies below the one before, it follows
above them and never rises. That highs and lows rise is not enough: with overlapping bars the stop may be hit.
-/

namespace Traquer

/-- The low of every bar is above the high of the bar before. -/
def StepsUp (high low : List ℝ) : Prop :=
  (∀ i, i < high.length → bar low i ≤ bar high i) ∧ ∀ i, i + 1 < high.length → bar high i < bar low (i + 1)

/-- The high of every bar is below the low of the bar before. -/
def StepsDown (high low : List ℝ) : Prop :=
  (∀ i, i < high.length → bar low i ≤ bar high i) ∧ ∀ i, i + 1 < high.length → bar high (i + 1) < bar low i

namespace Trend
open FP FloatLit

section
variable {high low : List ℝ} {a m : ℝ}

theorem factor_step {f : ℝ} (a0 : 0 ≤ a) (m0 : 0 ≤ m) (m1 : m ≤ 1) (h : 0 ≤ f ∧ f ≤ 1) {p : Prop} [Decidable p] :
    0 ≤ (if p then min (f + a) m else f) ∧ (if p then min (f + a) m else f) ≤ 1 := by
  split_ifs
  · exact ⟨le_min (by linarith) m0, (min_le_right _ _).trans m1⟩
  · exact h

/-- While the bars step up the trade is long, its best price is the last high and the stop is no higher than the low before. -/
theorem sarAt_up (a0 : 0 ≤ a) (a1 : a ≤ 1) (m0 : 0 ≤ m) (m1 : m ≤ 1) (h : StepsUp high low) : ∀ i, i + 1 < high.length →
    (sarAt high low a m (i + 1)).falling = false ∧ (sarAt high low a m (i + 1)).best = bar high (i + 1) ∧
      (sarAt high low a m (i + 1)).stop ≤ bar low i ∧ 0 ≤ (sarAt high low a m (i + 1)).factor ∧ (sarAt high low a m (i + 1)).factor ≤ 1 ∧
      (1 ≤ i → (sarAt high low a m i).stop ≤ (sarAt high low a m (i + 1)).stop) := by
  obtain ⟨hs, hu⟩ := h
  intro i
  induction i with
  | zero =>
    intro hn
    have s0 := hs 0 (by omega)
    have s1 := hs 1 (by omega)
    have u := hu 0 (by omega)
    have : bar high 0 + a * (bar low 0 - bar high 0) < bar high (0 + 1) := by
      have := mul_nonneg a0 (sub_nonneg.2 s0)
      rw [Nat.zero_add] at *
      linarith
    simp only [sarAt, Sar.next, if_true, this]
    exact ⟨by simp, trivial, min_le_left _ _, a0, a1, by omega⟩
  | succ i ih =>
    intro hn
    obtain ⟨c1, c2, c3, c4, c5, -⟩ := ih (by omega)
    rw [show sarAt high low a m (i + 1 + 1) = (sarAt high low a m (i + 1)).next a m (bar high i) (bar low i) (bar high (i + 1 + 1)) (bar low (i + 1 + 1)) from rfl]
    generalize sarAt high low a m (i + 1) = s at *
    have s0 := hs i (by omega)
    have s1 := hs (i + 1) (by omega)
    have s2 := hs (i + 1 + 1) (by omega)
    have u0 := hu i (by omega)
    have u1 := hu (i + 1) (by omega)
    have d : 0 ≤ s.best - s.stop := by rw [c2]; linarith
    have e := mul_nonneg c4 d
    have e' := mul_le_of_le_one_left d c5
    have nf : ¬ bar low (i + 1 + 1) < s.stop + s.factor * (s.best - s.stop) := by
      rw [not_lt]
      have : s.best = bar high (i + 1) := c2
      linarith
    simp only [Sar.next, c1, nf, if_false, Bool.false_eq_true]
    obtain ⟨f0, f1⟩ := factor_step (p := s.best < bar high (i + 1 + 1)) a0 m0 m1 ⟨c4, c5⟩
    refine ⟨trivial, max_eq_right (by rw [c2]; linarith), ?_, f0, f1, fun _ => ?_⟩
    · exact (min_le_left _ _).trans ((min_le_left _ _).trans (by linarith))
    · exact le_min (le_min c3 (by linarith)) (by linarith)

/-- While the bars step down the trade is short, its best price is the last low and the stop is no lower than the high before. -/
theorem sarAt_down (a0 : 0 ≤ a) (a1 : a ≤ 1) (m0 : 0 ≤ m) (m1 : m ≤ 1) (h : StepsDown high low) : ∀ i, i < high.length →
    (sarAt high low a m i).falling = true ∧ (sarAt high low a m i).best = bar low i ∧
      bar high (i - 1) ≤ (sarAt high low a m i).stop ∧ 0 ≤ (sarAt high low a m i).factor ∧ (sarAt high low a m i).factor ≤ 1 ∧
      (i + 1 < high.length → (sarAt high low a m (i + 1)).stop ≤ (sarAt high low a m i).stop) := by
  obtain ⟨hs, hu⟩ := h
  have step : ∀ i, i + 1 < high.length → ∀ s : Sar, s.falling = true → s.best = bar low i → bar high (i - 1) ≤ s.stop → 0 ≤ s.factor → s.factor ≤ 1 →
      let t := s.next a m (bar high (i - 1)) (bar low (i - 1)) (bar high (i + 1)) (bar low (i + 1))
      t.falling = true ∧ t.best = bar low (i + 1) ∧ bar high i ≤ t.stop ∧ 0 ≤ t.factor ∧ t.factor ≤ 1 ∧ t.stop ≤ s.stop := by
    intro i hn s c1 c2 c3 c4 c5
    have s0 := hs i (by omega)
    have s1 := hs (i + 1) (by omega)
    have u0 := hu i (by omega)
    have w : bar high i ≤ bar high (i - 1) := by
      rcases Nat.eq_zero_or_pos i with rfl | hi
      · exact le_rfl
      · have := hu (i - 1) (by omega)
        have := hs (i - 1) (by omega)
        rw [show i - 1 + 1 = i by omega] at *
        linarith
    have d : 0 ≤ s.stop - s.best := by rw [c2]; linarith
    have e := mul_nonneg c4 d
    have e' := mul_le_of_le_one_left d c5
    have nf : ¬ s.stop + s.factor * (s.best - s.stop) < bar high (i + 1) := by
      rw [not_lt]
      have : s.best = bar low i := c2
      linarith
    simp only [Sar.next, c1, nf, if_false, if_true]
    obtain ⟨f0, f1⟩ := factor_step (p := bar low (i + 1) < s.best) a0 m0 m1 ⟨c4, c5⟩
    refine ⟨trivial, min_eq_right (by rw [c2]; linarith), ?_, f0, f1, ?_⟩
    · exact w.trans ((le_max_left _ _).trans (le_max_left _ _))
    · exact max_le (max_le c3 (by linarith)) (by linarith)
  intro i
  induction i with
  | zero =>
    intro hn
    refine ⟨rfl, rfl, le_rfl, a0, a1, fun h1 => ?_⟩
    exact (step 0 h1 (sarAt high low a m 0) rfl rfl le_rfl a0 a1).2.2.2.2.2
  | succ i ih =>
    intro hn
    obtain ⟨c1, c2, c3, c4, c5, -⟩ := ih (by omega)
    obtain ⟨d1, d2, d3, d4, d5, -⟩ := step i hn _ c1 c2 c3 c4 c5
    exact ⟨d1, d2, d3, d4, d5, fun h1 => (step (i + 1) h1 _ d1 d2 d3 d4 d5).2.2.2.2.2⟩

end

section
variable (high low : List XF) (af mx : Option XF) {a m : ℝ} (ha : af.getD 0.02 ⇓ a) (hm : mx.getD 0.2 ⇓ m) (a0 : 0 ≤ a) (a1 : a ≤ 1) (m0 : 0 ≤ m) (m1 : m ≤ 1)
  (hl : low.length = high.length) (hn : 1 ≤ high.length) (fh : Fins high) (fl : Fins low)
include ha hm a0 a1 m0 m1 hl hn fh fl

/-- C137: while every bar lies above the one before, `psar` is below every bar and never falls. -/
theorem psar_rising (h : StepsUp (vals high) (vals low)) : ∃ v : ℕ → ℝ, Reports high.length 1 v (psar high low af mx) ∧
    (∀ i, 1 ≤ i → i < high.length → v i < bar (vals low) i) ∧ ∀ i, 1 ≤ i → i + 1 < high.length → v i ≤ v (i + 1) := by
  refine ⟨_, psar_reports high low af mx ha hm hl hn fh fl, fun i h1 h2 => ?_, fun i h1 h2 => ?_⟩
  · obtain ⟨j, rfl⟩ := Nat.exists_eq_add_of_le' h1
    have := (sarAt_up a0 a1 m0 m1 h j (by simpa using h2)).2.2.1
    have s := h.1 j (by simp; omega)
    have u := h.2 j (by simpa using h2)
    linarith
  · exact (sarAt_up a0 a1 m0 m1 h i (by simpa using h2)).2.2.2.2.2 h1

/-- C137: while every bar lies below the one before, `psar` is above every bar and never rises. -/
theorem psar_falling (h : StepsDown (vals high) (vals low)) : ∃ v : ℕ → ℝ, Reports high.length 1 v (psar high low af mx) ∧
    (∀ i, 1 ≤ i → i < high.length → bar (vals high) i < v i) ∧ ∀ i, 1 ≤ i → i + 1 < high.length → v (i + 1) ≤ v i := by
  refine ⟨_, psar_reports high low af mx ha hm hl hn fh fl, fun i h1 h2 => ?_, fun i h1 h2 => ?_⟩
  · obtain ⟨j, rfl⟩ := Nat.exists_eq_add_of_le' h1
    have := (sarAt_down a0 a1 m0 m1 h (j + 1) (by simpa using h2)).2.2.1
    rw [Nat.add_sub_cancel] at this
    have s := h.1 j (by simp; omega)
    have u := h.2 j (by simpa using h2)
    linarith
  · exact (sarAt_down a0 a1 m0 m1 h i (by simp; omega)).2.2.2.2.2 (by simpa using h2)

end

/-- C137: rising highs and lows are not enough. Here both rise at every bar, and at the last one the stop is hit: the reading is the high. -/
theorem psar_overlap : Rising [10, 11, 12] ∧ Rising [0, 1, 2] ∧
    Shows 2 (psar [fin 10, fin 11, (fin 12 : XF)] [fin 0, fin 1, fin 2] (some (fin (1 / 2))) (some (fin (1 / 2)))) 12 := by
  have r3 : ∀ a b c : ℝ, a < b → b < c → Rising [a, b, c] := fun a b c h1 h2 i hi => by
    simp only [List.length_cons, List.length_nil] at hi
    obtain rfl | rfl : i = 0 ∨ i = 1 := by omega
    · simpa [bar] using h1
    · simpa [bar] using h2
  refine ⟨r3 _ _ _ (by norm_num) (by norm_num), r3 _ _ _ (by norm_num) (by norm_num), ?_⟩
  have := psar_reports [fin 10, fin 11, (fin 12 : XF)] [fin 0, fin 1, fin 2] (some (fin (1 / 2))) (some (fin (1 / 2))) (is_fin _) (is_fin _) rfl (by norm_num)
    (by simp [Fins, FP.Finite]) (by simp [Fins, FP.Finite])
  obtain ⟨o, e, -, -, h⟩ := this
  obtain ⟨y, hy, h⟩ := h 2 (by norm_num) (by norm_num)
  exact ⟨o, y, e, hy, h.congr (by norm_num [vals, FP.val, sarAt, Sar.next, bar])⟩

/-- The hypotheses of `psar_rising` are met by three bars and the default parameters. -/
example := psar_rising [fin 2, fin 4, (fin 9 : XF)] [fin 1, fin 3, fin 5] none none (is_sci 2 true 2) (is_sci 2 true 1) (by norm_num) (by norm_num) (by norm_num)
  (by norm_num) rfl (by norm_num) (by simp [Fins, FP.Finite]) (by simp [Fins, FP.Finite]) (by
    constructor <;> intro i hi <;> simp only [vals, List.map_cons, List.map_nil, List.length_cons, List.length_nil, FP.val] at hi ⊢
    · obtain rfl | rfl | rfl : i = 0 ∨ i = 1 ∨ i = 2 := by omega
      all_goals norm_num [bar]
    · obtain rfl | rfl : i = 0 ∨ i = 1 := by omega
      all_goals norm_num [bar])

example := psar_falling [fin 9, fin 4, (fin 2 : XF)] [fin 5, fin 3, fin 1] none none (is_sci 2 true 2) (is_sci 2 true 1) (by norm_num) (by norm_num) (by norm_num)
  (by norm_num) rfl (by norm_num) (by simp [Fins, FP.Finite]) (by simp [Fins, FP.Finite]) (by
    constructor <;> intro i hi <;> simp only [vals, List.map_cons, List.map_nil, List.length_cons, List.length_nil, FP.val] at hi ⊢
    · obtain rfl | rfl | rfl : i = 0 ∨ i = 1 ∨ i = 2 := by omega
      all_goals norm_num [bar]
    · obtain rfl | rfl : i = 0 ∨ i = 1 := by omega
      all_goals norm_num [bar])

end Trend
end Traquer
