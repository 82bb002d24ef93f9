import Verif.Lemmas.Fade
import Verif.Lemmas.Superpose
import Verif.Props.TrendFormulas
import Verif.Props.MomentumFormulas
import Mathlib.Analysis.SpecificLimits.Normed
import Mathlib.Tactic.IntervalCases

/-! C85: recursive averages forget the past geometrically. Two histories that end in the same bars give outputs whose difference
shrinks by a fixed factor with every common bar, so that how much history one feeds stops mattering. Exact arithmetic. -/

namespace Traquer
open FP

section Real
variable {k w p p' n : ℕ} {x y : ℕ → ℝ} {B M : ℝ}

theorem wilderFrom_const (hw : 1 ≤ w) (c : ℝ) (i : ℕ) : wilderFrom k w (fun _ => c) i = c := by
  have hm : ∀ i, mean (lastOf (fun _ => c) w i) = c := fun i => by
    have : lastOf (fun _ => c) w i = List.replicate w c := by
      rw [lastOf, List.eq_replicate_iff]
      simp
    rw [this, mean_replicate hw]
  have : (0 : ℝ) < w := by exact_mod_cast hw
  induction i with
  | zero => rw [wilderFrom, hm]
  | succ i ih =>
    rw [wilderFrom, hm, ih]
    split_ifs
    · rfl
    · field_simp
      ring

/-- Two Wilder averages of values between 0 and `B` differ by at most `B`. -/
theorem wilderFrom_apart (hw : 1 ≤ w) (hx : ∀ i, k ≤ i → i < p + n → 0 ≤ x i ∧ x i ≤ B) (hy : ∀ i, k ≤ i → i < p' + n → 0 ≤ y i ∧ y i ≤ B)
    (i i' : ℕ) (hi : k + (w - 1) ≤ i) (hin : i < p + n) (hi' : k + (w - 1) ≤ i') (hin' : i' < p' + n) :
    |wilderFrom k w x i - wilderFrom k w y i'| ≤ B := by
  have h1 := wilderFrom_near (v := x) (v' := fun _ => B / 2) (e := B / 2) hw (fun j g1 g2 => by
    have := hx j g1 g2
    rw [abs_le]
    constructor <;> linarith) i hi hin
  have h2 := wilderFrom_near (v := y) (v' := fun _ => B / 2) (e := B / 2) hw (fun j g1 g2 => by
    have := hy j g1 g2
    rw [abs_le]
    constructor <;> linarith) i' hi' hin'
  rw [wilderFrom_const hw (B / 2), abs_le] at h1 h2
  rw [abs_le]
  constructor <;> linarith

/-- Wilder averages of values between 0 and `B` that are the same from the second common bar on. -/
theorem wilderFrom_fades_next (hw : 1 ≤ w) (hp : k + w ≤ p) (hp' : k + w ≤ p') (hx : ∀ i, k ≤ i → i < p + n → 0 ≤ x i ∧ x i ≤ B)
    (hy : ∀ i, k ≤ i → i < p' + n → 0 ≤ y i ∧ y i ≤ B) (h : ∀ j, j + 1 < n → x (p + (j + 1)) = y (p' + (j + 1))) :
    ∀ j, j < n → |wilderFrom k w x (p + j) - wilderFrom k w y (p' + j)| ≤ (1 - 1 / w) ^ j * B := by
  intro j hj
  cases j with
  | zero => simpa using wilderFrom_apart hw hx hy p p' (by omega) (by omega) (by omega) (by omega)
  | succ j =>
    have := wilderFrom_fades (p := p + 1) (p' := p' + 1) (n := n - 1) (x := x) (y := y) (E := B) hw (by omega) (by omega)
      (wilderFrom_apart hw hx hy _ _ (by omega) (by omega) (by omega) (by omega))
      (fun j hj => by
        rw [show p + 1 + j = p + (j + 1) by omega, show p' + 1 + j = p' + (j + 1) by omega]
        exact h j (by omega)) j (by omega)
    rwa [show p + 1 + j = p + (j + 1) by omega, show p' + 1 + j = p' + (j + 1) by omega] at this

theorem trueRangeOf_mem {h l c : ℝ} (hh : |h| ≤ M) (hl : |l| ≤ M) (hc : |c| ≤ M) : 0 ≤ trueRangeOf h l c ∧ trueRangeOf h l c ≤ 2 * M := by
  rw [abs_le] at hh hl hc
  refine ⟨le_max_of_le_right (le_max_of_le_left (abs_nonneg _)), max_le (by linarith) (max_le ?_ ?_)⟩ <;> rw [abs_le] <;> constructor <;>
    linarith

/-- Two quotients `u / (u + d)` of non-negative numbers. -/
theorem share_near {u d u' d' e m : ℝ} (hu : 0 ≤ u') (hd : 0 ≤ d') (hm : 0 < m) (h1 : m ≤ u + d) (h2 : 0 < u' + d')
    (eu : |u - u'| ≤ e) (ed : |d - d'| ≤ e) : |100 * u / (u + d) - 100 * u' / (u' + d')| ≤ 100 * e / m := by
  have h0 : 0 < u + d := hm.trans_le h1
  have e0 : 0 ≤ e := (abs_nonneg _).trans eu
  have : 100 * u / (u + d) - 100 * u' / (u' + d') = 100 * ((u - u') * d' + u' * (d' - d)) / ((u + d) * (u' + d')) := by
    field_simp
    ring
  rw [this, abs_div, abs_mul, abs_of_pos (mul_pos h0 h2), abs_of_pos (show (0 : ℝ) < 100 by norm_num)]
  have h3 : |(u - u') * d' + u' * (d' - d)| ≤ e * (u' + d') := by
    refine (abs_add_le _ _).trans ?_
    rw [abs_mul, abs_mul, abs_of_nonneg hd, abs_of_nonneg hu, abs_sub_comm d' d]
    have := mul_le_mul_of_nonneg_right eu hd
    have := mul_le_mul_of_nonneg_left ed hu
    linarith
  calc 100 * |(u - u') * d' + u' * (d' - d)| / ((u + d) * (u' + d')) ≤ 100 * (e * (u' + d')) / ((u + d) * (u' + d')) := by gcongr
    _ = 100 * e / (u + d) := by field_simp
    _ ≤ 100 * e / m := by gcongr

end Real

section One
variable (past past' recent : List XF) {w : ℕ} {M : ℝ} (hw : 1 ≤ w) (b : Bounded M (past ++ recent)) (b' : Bounded M (past' ++ recent))
include hw b b'

/-- The exponential averages of the two histories. -/
theorem ema1_fades (hp : w ≤ past.length) (hp' : w ≤ past'.length) (j : ℕ) (hj : j < recent.length) :
    |Smooth.ema1 w (bar (vals (past ++ recent))) (past.length + j) - Smooth.ema1 w (bar (vals (past' ++ recent))) (past'.length + j)| ≤
      keep w ^ (j + 1) * (2 * M) := by
  have l1 : (past ++ recent).length = past.length + recent.length := by simp
  have l2 : (past' ++ recent).length = past'.length + recent.length := by simp
  have h1 := ewmaFrom_bounded (k := 0) (v := bar (vals (past ++ recent))) (B := M) hw (n := past.length + recent.length) (fun i _ hi => bounded_bar b (by omega))
    (past.length - 1) (by omega) (by omega)
  have h2 := ewmaFrom_bounded (k := 0) (v := bar (vals (past' ++ recent))) (B := M) hw (n := past'.length + recent.length) (fun i _ hi => bounded_bar b' (by omega))
    (past'.length - 1) (by omega) (by omega)
  have := ewmaFrom_fades (k := 0) (p := past.length) (p' := past'.length) (x := bar (vals (past ++ recent)))
    (y := bar (vals (past' ++ recent))) (n := recent.length) (P := fun _ => 0) (E := 2 * M) hw (by omega) (by omega)
    ((abs_sub _ _).trans (by linarith)) (fun j hj => by rw [bar_append, bar_append]; simp) j hj
  simpa using this

theorem ema2_fades (hp : 2 * w ≤ past.length + 1) (hp' : 2 * w ≤ past'.length + 1) (j : ℕ) (hj : j < recent.length) :
    |Smooth.ema2 w (bar (vals (past ++ recent))) (past.length + j) - Smooth.ema2 w (bar (vals (past' ++ recent))) (past'.length + j)| ≤
      keep w ^ (j + 1) * (2 * M * (1 + 2 / (w + 1) * (j + 1))) := by
  have l1 : (past ++ recent).length = past.length + recent.length := by simp
  have l2 : (past' ++ recent).length = past'.length + recent.length := by simp
  have c1 : ∀ l : List XF, Bounded M l → ∀ i, w - 1 ≤ i → i < l.length → |Smooth.ema1 w (bar (vals l)) i| ≤ M := fun l hl i h1 h2 =>
    ewmaFrom_bounded hw (fun i _ hi => bounded_bar hl hi) i (by omega) h2
  have h1 := ewmaFrom_bounded (k := w - 1) (v := Smooth.ema1 w (bar (vals (past ++ recent)))) (B := M) hw (n := past.length + recent.length) (fun i h hi => c1 _ b i h (by omega))
    (past.length - 1) (by omega) (by omega)
  have h2 := ewmaFrom_bounded (k := w - 1) (v := Smooth.ema1 w (bar (vals (past' ++ recent)))) (B := M) hw (n := past'.length + recent.length) (fun i h hi => c1 _ b' i h (by omega))
    (past'.length - 1) (by omega) (by omega)
  have := ewmaFrom_fades (k := w - 1) (p := past.length) (p' := past'.length) (x := Smooth.ema1 w (bar (vals (past ++ recent))))
    (y := Smooth.ema1 w (bar (vals (past' ++ recent)))) (n := recent.length) (P := fun _ => 2 * M) (E := 2 * M) hw (by omega) (by omega)
    ((abs_sub _ _).trans (by linarith)) (fun j hj => ema1_fades past past' recent hw b b' (by omega) (by omega) j hj) j hj
  refine this.trans (le_of_eq ?_)
  simp only [Finset.sum_const, Finset.card_range, nsmul_eq_mul]
  push_cast
  ring

theorem ema3_fades (hp : 3 * w ≤ past.length + 2) (hp' : 3 * w ≤ past'.length + 2) (j : ℕ) (hj : j < recent.length) :
    |Smooth.ema3 w (bar (vals (past ++ recent))) (past.length + j) - Smooth.ema3 w (bar (vals (past' ++ recent))) (past'.length + j)| ≤
      keep w ^ (j + 1) * (2 * M * (1 + 2 / (w + 1) * (j + 1) + (2 / (w + 1)) ^ 2 * ((j + 1) * (j + 2) / 2))) := by
  have l1 : (past ++ recent).length = past.length + recent.length := by simp
  have l2 : (past' ++ recent).length = past'.length + recent.length := by simp
  have c1 : ∀ l : List XF, Bounded M l → ∀ i, w - 1 ≤ i → i < l.length → |Smooth.ema1 w (bar (vals l)) i| ≤ M := fun l hl i h1 h2 =>
    ewmaFrom_bounded hw (fun i _ hi => bounded_bar hl hi) i (by omega) h2
  have c2 : ∀ l : List XF, Bounded M l → ∀ i, 2 * (w - 1) ≤ i → i < l.length → |Smooth.ema2 w (bar (vals l)) i| ≤ M := fun l hl i h1 h2 =>
    ewmaFrom_bounded hw (fun i h hi => c1 l hl i h hi) i (by omega) h2
  have h1 := ewmaFrom_bounded (k := 2 * (w - 1)) (v := Smooth.ema2 w (bar (vals (past ++ recent)))) (B := M) hw (n := past.length + recent.length) (fun i h hi => c2 _ b i h (by omega))
    (past.length - 1) (by omega) (by omega)
  have h2 := ewmaFrom_bounded (k := 2 * (w - 1)) (v := Smooth.ema2 w (bar (vals (past' ++ recent)))) (B := M) hw (n := past'.length + recent.length) (fun i h hi => c2 _ b' i h (by omega))
    (past'.length - 1) (by omega) (by omega)
  have := ewmaFrom_fades (k := 2 * (w - 1)) (p := past.length) (p' := past'.length) (x := Smooth.ema2 w (bar (vals (past ++ recent))))
    (y := Smooth.ema2 w (bar (vals (past' ++ recent)))) (n := recent.length) (P := fun j => 2 * M * (1 + 2 / (w + 1) * ((j : ℕ) + 1))) (E := 2 * M) hw (by omega) (by omega)
    ((abs_sub _ _).trans (by linarith)) (fun j hj => ema2_fades past past' recent hw b b' (by omega) (by omega) j hj) j hj
  refine this.trans (le_of_eq ?_)
  have hs : ∀ j : ℕ, ∑ i ∈ Finset.range (j + 1), 2 * M * (1 + 2 / ((w : ℝ) + 1) * ((i : ℝ) + 1)) =
      2 * M * ((j + 1) + 2 / (w + 1) * ((j + 1) * (j + 2) / 2)) := fun j => by
    induction j with
    | zero => simp
    | succ j ih =>
      rw [Finset.sum_range_succ, ih]
      push_cast
      ring
  rw [hs]
  ring

/-- C85: two histories with the same last bars: the exponential averages differ by at most `2 M (1 - 2 / (w + 1)) ^ (j + 1)` at the
`j`-th common bar. -/
theorem ewma_forgets (hp : w ≤ past.length) (hp' : w ≤ past'.length) :
    Agree past.length past'.length recent.length (fun j => 2 * M * (1 - 2 / (w + 1)) ^ (j + 1))
      (Smooth.ewma (past ++ recent) w) (Smooth.ewma (past' ++ recent) w) :=
  (ewma_values (past ++ recent) w hw (by simp; omega) b.fins).agree (ewma_values (past' ++ recent) w hw (by simp; omega) b'.fins)
    (by omega) (by omega) (by simp) (by simp) fun j hj => by
      have := ema1_fades past past' recent hw b b' hp hp' j hj
      rw [keep, mul_comm] at this
      exact this

/-- C85: Wilder's averages differ by at most `2 M (1 - 1 / w) ^ (j + 1)`. -/
theorem wilder_forgets (hp : w ≤ past.length) (hp' : w ≤ past'.length) :
    Agree past.length past'.length recent.length (fun j => 2 * M * (1 - 1 / w) ^ (j + 1))
      (Smooth.wilder (past ++ recent) w) (Smooth.wilder (past' ++ recent) w) :=
  (wilder_values (past ++ recent) w hw (by simp; omega) b.fins).agree (wilder_values (past' ++ recent) w hw (by simp; omega) b'.fins)
    (by omega) (by omega) (by simp) (by simp) fun j hj => by
      have l1 : (past ++ recent).length = past.length + recent.length := by simp
      have l2 : (past' ++ recent).length = past'.length + recent.length := by simp
      have h1 := wilderFrom_bounded (k := 0) (v := bar (vals (past ++ recent))) (B := M) hw (n := past.length + recent.length) (fun i _ hi => bounded_bar b (by omega))
        (past.length - 1) (by omega) (by omega)
      have h2 := wilderFrom_bounded (k := 0) (v := bar (vals (past' ++ recent))) (B := M) hw (n := past'.length + recent.length) (fun i _ hi => bounded_bar b' (by omega))
        (past'.length - 1) (by omega) (by omega)
      have := wilderFrom_fades (k := 0) (p := past.length) (p' := past'.length)
        (x := bar (vals (past ++ recent))) (y := bar (vals (past' ++ recent))) (n := recent.length) (E := 2 * M) hw (by omega) (by omega)
        ((abs_sub _ _).trans (by linarith)) (fun j hj => by rw [bar_append, bar_append]) j hj
      rwa [mul_comm] at this

/-- C85: `dema`. -/
theorem dema_forgets (hp : 2 * w ≤ past.length + 1) (hp' : 2 * w ≤ past'.length + 1) :
    Agree past.length past'.length recent.length (fun j => 2 * M * (1 - 2 / (w + 1)) ^ (j + 1) * (3 + 2 / (w + 1) * (j + 1)))
      (Smooth.dema (past ++ recent) w) (Smooth.dema (past' ++ recent) w) :=
  (Smooth.dema_reports (past ++ recent) w hw (by simp; omega) b.fins).agree (Smooth.dema_reports (past' ++ recent) w hw (by simp; omega) b'.fins)
    (by omega) (by omega) (by simp) (by simp) fun j hj => by
      have h1 := abs_le.1 (ema1_fades past past' recent hw b b' (by omega) (by omega) j hj)
      have h2 := abs_le.1 (ema2_fades past past' recent hw b b' (by omega) (by omega) j hj)
      rw [← keep, abs_le]
      constructor <;> linarith

/-- C85: `tema`. -/
theorem tema_forgets (hp : 3 * w ≤ past.length + 2) (hp' : 3 * w ≤ past'.length + 2) :
    Agree past.length past'.length recent.length
      (fun j => 2 * M * (1 - 2 / (w + 1)) ^ (j + 1) * (7 + 4 * (2 / (w + 1)) * (j + 1) + (2 / (w + 1)) ^ 2 * ((j + 1) * (j + 2) / 2)))
      (Smooth.tema (past ++ recent) w) (Smooth.tema (past' ++ recent) w) :=
  (Smooth.tema_reports (past ++ recent) w hw (by simp; omega) b.fins).agree (Smooth.tema_reports (past' ++ recent) w hw (by simp; omega) b'.fins)
    (by omega) (by omega) (by simp) (by simp) fun j hj => by
      have h1 := abs_le.1 (ema1_fades past past' recent hw b b' (by omega) (by omega) j hj)
      have h2 := abs_le.1 (ema2_fades past past' recent hw b b' (by omega) (by omega) j hj)
      have h3 := abs_le.1 (ema3_fades past past' recent hw b b' hp hp' j hj)
      rw [← keep, abs_le]
      constructor <;> linarith

/-- C85: the lag of `zlma` is `(w - 1) / 2` bars; from then on its difference fades like that of `ewma`. -/
theorem zlma_forgets (hp : (w - 1) / 2 + w ≤ past.length) (hp' : (w - 1) / 2 + w ≤ past'.length) :
    Agree past.length past'.length recent.length (fun j => 6 * M * (1 - 2 / (w + 1)) ^ (j + 1 - (w - 1) / 2))
      (Smooth.zlma (past ++ recent) w) (Smooth.zlma (past' ++ recent) w) :=
  (Smooth.zlma_reports (past ++ recent) w hw (by simp; omega) b.fins).agree (Smooth.zlma_reports (past' ++ recent) w hw (by simp; omega) b'.fins)
    (by omega) (by omega) (by simp) (by simp) fun j hj => by
      have l1 : (past ++ recent).length = past.length + recent.length := by simp
      have l2 : (past' ++ recent).length = past'.length + recent.length := by simp
      rw [← keep]
      generalize hL : (w - 1) / 2 = L at *
      have c1 : ∀ l : List XF, Bounded M l → ∀ i, L ≤ i → i < l.length → |2 * bar (vals l) i - bar (vals l) (i - L)| ≤ 3 * M :=
        fun l hl i g1 g2 => by
          have h1 := abs_le.1 (bounded_bar hl g2)
          have h2 := abs_le.1 (bounded_bar hl (show i - L < l.length by omega))
          rw [abs_le]
          constructor <;> linarith
      have h1 : ∀ i, L + (w - 1) ≤ i → i < past.length + recent.length → _ := fun i g1 g2 =>
        abs_le.1 (ewmaFrom_bounded (k := L) (v := fun i => 2 * bar (vals (past ++ recent)) i - bar (vals (past ++ recent)) (i - L)) (B := 3 * M) hw (n := past.length + recent.length) (fun i h hi => c1 _ b i h (by omega)) i g1 g2)
      have h2 : ∀ i, L + (w - 1) ≤ i → i < past'.length + recent.length → _ := fun i g1 g2 =>
        abs_le.1 (ewmaFrom_bounded (k := L) (v := fun i => 2 * bar (vals (past' ++ recent)) i - bar (vals (past' ++ recent)) (i - L)) (B := 3 * M) hw (n := past'.length + recent.length) (fun i h hi => c1 _ b' i h (by omega)) i g1 g2)
      by_cases hjL : j < L
      · rw [show j + 1 - L = 0 by omega, pow_zero, mul_one, abs_le]
        have := h1 (past.length + j) (by omega) (by omega)
        have := h2 (past'.length + j) (by omega) (by omega)
        constructor <;> linarith
      · have g1 := h1 (past.length + L - 1) (by omega) (by omega)
        have g2 := h2 (past'.length + L - 1) (by omega) (by omega)
        have := ewmaFrom_fades (k := L) (p := past.length + L) (p' := past'.length + L)
          (x := fun i => 2 * bar (vals (past ++ recent)) i - bar (vals (past ++ recent)) (i - L)) (y := fun i => 2 * bar (vals (past' ++ recent)) i - bar (vals (past' ++ recent)) (i - L)) (n := recent.length - L) (P := fun _ => 0) (E := 6 * M)
          hw (by omega) (by omega) (abs_le.2 ⟨by linarith, by linarith⟩) (fun j hj => by
            rw [add_assoc, add_assoc, bar_append, bar_append, show past.length + (L + j) - L = past.length + j by omega,
              show past'.length + (L + j) - L = past'.length + j by omega, bar_append, bar_append]
            simp) (j - L) (by omega)
        rw [show past.length + L + (j - L) = past.length + j by omega, show past'.length + L + (j - L) = past'.length + j by omega,
          show j - L + 1 = j + 1 - L by omega] at this
        simpa [mul_comm] using this

end One

namespace Momentum
open Smooth (ema1)

variable (past past' recent : List XF) {M : ℝ} (b : Bounded M (past ++ recent)) (b' : Bounded M (past' ++ recent))
include b b'

/-- C85: `macd`. -/
theorem macd_forgets {short long : ℕ} (hs : 1 ≤ short) (hl : 1 ≤ long) (hp : max short long ≤ past.length)
    (hp' : max short long ≤ past'.length) : Agree past.length past'.length recent.length
      (fun j => 2 * M * ((1 - 2 / (short + 1)) ^ (j + 1) + (1 - 2 / (long + 1)) ^ (j + 1)))
      (macd (past ++ recent) short long) (macd (past' ++ recent) short long) :=
  (macd_reports (past ++ recent) short long hs hl (by simp; omega) b.fins).agree
    (macd_reports (past' ++ recent) short long hs hl (by simp; omega) b'.fins) (by omega) (by omega) (by simp) (by simp) fun j hj => by
      have h1 := abs_le.1 (ema1_fades past past' recent hs b b' (by omega) (by omega) j hj)
      have h2 := abs_le.1 (ema1_fades past past' recent hl b b' (by omega) (by omega) j hj)
      rw [← keep, ← keep, abs_le]
      constructor <;> linarith

/-- C85: `apo`. -/
theorem apo_forgets {short long : ℕ} (hs : 1 ≤ short) (hl : 1 ≤ long) (hp : max short long ≤ past.length)
    (hp' : max short long ≤ past'.length) : Agree past.length past'.length recent.length
      (fun j => 2 * M * ((1 - 2 / (short + 1)) ^ (j + 1) + (1 - 2 / (long + 1)) ^ (j + 1)))
      (apo (past ++ recent) short long) (apo (past' ++ recent) short long) :=
  macd_forgets past past' recent b b' hs hl hp hp'

/-- C85: `rsi`, wherever Wilder's average of the absolute moves is at least `m`. -/
theorem rsi_forgets {w : ℕ} {m : ℝ} (hw : 1 ≤ w) (hp : w + 1 ≤ past.length) (hp' : w + 1 ≤ past'.length) (hm : 0 < m)
    (h1 : ∀ i, w ≤ i → i < (past ++ recent).length → m ≤ wilderFrom 1 w (fun i => |bar (vals (past ++ recent)) i - bar (vals (past ++ recent)) (i - 1)|) i)
    (h2 : ∀ i, w ≤ i → i < (past' ++ recent).length →
      m ≤ wilderFrom 1 w (fun i => |bar (vals (past' ++ recent)) i - bar (vals (past' ++ recent)) (i - 1)|) i) :
    Agree past.length past'.length recent.length (fun j => 200 * M * (1 - 1 / w) ^ j / m)
      (rsi (past ++ recent) w) (rsi (past' ++ recent) w) := by
  have eu : ∀ (l : List ℝ) (i : ℕ), w + 1 ≤ l.length → w ≤ i → i < l.length →
      wilderOf w (rises l) (i - 1) = wilderFrom 1 w (fun i => max 0 (bar l i - bar l (i - 1))) i := fun l i h0 h h' => by
    rw [wilderOf_eq (k := 1) (n := l.length - 1) (v := fun i => max 0 (bar l i - bar l (i - 1))) hw ?_ (by omega) (i - 1) (by omega) (by omega),
      show 1 + (i - 1) = i by omega]
    intro j hj
    rw [rises, List.getElem?_map, pairs_getElem?, some_bar (show j < l.length by omega), some_bar (show j + 1 < l.length by omega)]
    simp [add_comm 1 j]
  have ed : ∀ (l : List ℝ) (i : ℕ), w + 1 ≤ l.length → w ≤ i → i < l.length →
      wilderOf w (falls l) (i - 1) = wilderFrom 1 w (fun i => max 0 (bar l (i - 1) - bar l i)) i := fun l i h0 h h' => by
    rw [wilderOf_eq (k := 1) (n := l.length - 1) (v := fun i => max 0 (bar l (i - 1) - bar l i)) hw ?_ (by omega) (i - 1) (by omega) (by omega),
      show 1 + (i - 1) = i by omega]
    intro j hj
    rw [falls, List.getElem?_map, pairs_getElem?, some_bar (show j < l.length by omega), some_bar (show j + 1 < l.length by omega)]
    simp [add_comm 1 j]
  have es : ∀ (l : List ℝ) (i : ℕ), wilderFrom 1 w (fun i => max 0 (bar l i - bar l (i - 1))) i +
      wilderFrom 1 w (fun i => max 0 (bar l (i - 1) - bar l i)) i = wilderFrom 1 w (fun i => |bar l i - bar l (i - 1)|) i := fun l i => by
    have := Lin.wilder 1 w 1 1 (fun i => max 0 (bar l i - bar l (i - 1))) (fun i => max 0 (bar l (i - 1) - bar l i)) i
    rw [one_mul, one_mul] at this
    rw [← this]
    congr 1
    funext i
    rw [one_mul, one_mul, abs_eq_max_neg, neg_sub]
    rcases le_total (bar l i) (bar l (i - 1)) with h | h
    · rw [max_eq_left (by linarith), max_eq_right (by linarith), max_eq_right (by linarith), zero_add]
    · rw [max_eq_right (by linarith), max_eq_left (by linarith), max_eq_left (by linarith), add_zero]
  have l1 : (past ++ recent).length = past.length + recent.length := by simp
  have l2 : (past' ++ recent).length = past'.length + recent.length := by simp
  have v1 : (vals (past ++ recent)).length = past.length + recent.length := by simp [vals]
  have v2 : (vals (past' ++ recent)).length = past'.length + recent.length := by simp [vals]
  have ne : ∀ (l : List XF), w + 1 ≤ l.length → (∀ i, w ≤ i → i < l.length → m ≤ wilderFrom 1 w (fun i => |bar (vals l) i - bar (vals l) (i - 1)|) i) →
      ∀ i, w ≤ i → i < l.length → m ≤ wilderOf w (rises (vals l)) (i - 1) + wilderOf w (falls (vals l)) (i - 1) := fun l h0 h i g1 g2 => by
    have lv : (vals l).length = l.length := by simp [vals]
    rw [eu _ i (by omega) g1 (by omega), ed _ i (by omega) g1 (by omega), es]
    exact h i g1 g2
  refine (rsi_values (past ++ recent) w hw (by omega) b.fins fun i g1 g2 => (hm.trans_le (ne _ (by omega) h1 i g1 g2)).ne').agree
    (rsi_values (past' ++ recent) w hw (by omega) b'.fins fun i g1 g2 => (hm.trans_le (ne _ (by omega) h2 i g1 g2)).ne')
    (by omega) (by omega) l1 l2 fun j hj => ?_
  have n1 := ne _ (by omega) h1 (past.length + j) (by omega) (by omega)
  have n2 := ne _ (by omega) h2 (past'.length + j) (by omega) (by omega)
  rw [rsiOf, rsiOf]
  rw [eu _ (past.length + j) (by omega) (by omega) (by omega), ed _ (past.length + j) (by omega) (by omega) (by omega)] at n1 ⊢
  rw [eu _ (past'.length + j) (by omega) (by omega) (by omega), ed _ (past'.length + j) (by omega) (by omega) (by omega)] at n2 ⊢
  have mem : ∀ l : List XF, Bounded M l → ∀ i, i < l.length → ∀ i', i' < l.length →
      0 ≤ max 0 (bar (vals l) i - bar (vals l) i') ∧ max 0 (bar (vals l) i - bar (vals l) i') ≤ 2 * M := fun l hl i hi i' hi' => by
    have a := abs_le.1 (bounded_bar hl hi)
    have c := abs_le.1 (bounded_bar hl hi')
    exact ⟨le_max_left _ _, max_le (by linarith) (by linarith)⟩
  have fu := wilderFrom_fades_next (k := 1) (p := past.length) (p' := past'.length) (n := recent.length) (B := 2 * M) hw (by omega) (by omega)
    (fun i _ hi => mem _ b i (by omega) (i - 1) (by omega)) (fun i _ hi => mem _ b' i (by omega) (i - 1) (by omega))
    (fun j hj => by simp only [show past.length + (j + 1) - 1 = past.length + j by omega, show past'.length + (j + 1) - 1 = past'.length + j by omega,
      bar_append]) j hj
  have fd := wilderFrom_fades_next (k := 1) (p := past.length) (p' := past'.length) (n := recent.length) (B := 2 * M) hw (by omega) (by omega)
    (fun i _ hi => mem _ b (i - 1) (by omega) i (by omega)) (fun i _ hi => mem _ b' (i - 1) (by omega) i (by omega))
    (fun j hj => by simp only [show past.length + (j + 1) - 1 = past.length + j by omega, show past'.length + (j + 1) - 1 = past'.length + j by omega,
      bar_append]) j hj
  have nn : ∀ v : ℕ → ℝ, (∀ j, 1 ≤ j → j < past'.length + recent.length → 0 ≤ v j ∧ v j ≤ 2 * M) →
      0 ≤ wilderFrom 1 w v (past'.length + j) := fun v hv => by
    have := wilderFrom_near (k := 1) (n := past'.length + recent.length) (v := v) (v' := fun _ => M) (e := M) hw (fun j h h' => by
      have := hv j h h'
      rw [abs_le]
      constructor <;> linarith) (past'.length + j) (by omega) (by omega)
    rw [wilderFrom_const hw M, abs_le] at this
    linarith
  refine (share_near (nn _ fun i _ hi => mem _ b' i (by omega) (i - 1) (by omega)) (nn _ fun i _ hi => mem _ b' (i - 1) (by omega) i (by omega))
    hm n1 (hm.trans_le n2) fu fd).trans (le_of_eq (by ring))

end Momentum

section Bars
variable (ph ph' rh pl pl' rl pc pc' rc : List XF) {w : ℕ} {M : ℝ} (hw : 1 ≤ w) (el : pl.length = ph.length) (ec : pc.length = ph.length)
  (el' : pl'.length = ph'.length) (ec' : pc'.length = ph'.length) (erl : rl.length = rh.length) (erc : rc.length = rh.length)
  (hp : w + 1 ≤ ph.length) (hp' : w + 1 ≤ ph'.length) (bh : Bounded M (ph ++ rh)) (bl : Bounded M (pl ++ rl)) (bc : Bounded M (pc ++ rc))
  (bh' : Bounded M (ph' ++ rh)) (bl' : Bounded M (pl' ++ rl)) (bc' : Bounded M (pc' ++ rc))
include hw el ec el' ec' erl erc hp hp' bh bl bc bh' bl' bc'

/-- The averages of the true ranges. -/
theorem atr_fades (j : ℕ) (hj : j < rh.length) :
    |wilderFrom 1 w (trAt (vals (ph ++ rh)) (vals (pl ++ rl)) (vals (pc ++ rc))) (ph.length + j) -
      wilderFrom 1 w (trAt (vals (ph' ++ rh)) (vals (pl' ++ rl)) (vals (pc' ++ rc))) (ph'.length + j)| ≤ (1 - 1 / w) ^ j * (2 * M) := by
  have mem : ∀ h l c : List XF, Bounded M h → Bounded M l → Bounded M c → l.length = h.length → c.length = h.length → ∀ i, i < h.length →
      0 ≤ trAt (vals h) (vals l) (vals c) i ∧ trAt (vals h) (vals l) (vals c) i ≤ 2 * M := fun h l c b1 b2 b3 e1 e2 i hi =>
    trueRangeOf_mem (bounded_bar b1 hi) (bounded_bar b2 (by omega)) (bounded_bar b3 (by omega))
  refine wilderFrom_fades_next hw (by omega) (by omega) (fun i _ hi => mem _ _ _ bh bl bc (by simp; omega) (by simp; omega) i (by simp; omega))
    (fun i _ hi => mem _ _ _ bh' bl' bc' (by simp; omega) (by simp; omega) i (by simp; omega)) (fun j hj => ?_) j hj
  simp only [trAt, show ph.length + (j + 1) - 1 = ph.length + j by omega, show ph'.length + (j + 1) - 1 = ph'.length + j by omega]
  rw [bar_append, bar_append, ← el, ← el', bar_append, bar_append, el, el', ← ec, ← ec', bar_append, bar_append]

/-- C85: the average true range. The first common bar still sees a different previous close. -/
theorem atr_forgets : Agree ph.length ph'.length rh.length (fun j => 2 * M * (1 - 1 / w) ^ j)
    (Volatility.atr (ph ++ rh) (pl ++ rl) (pc ++ rc) w) (Volatility.atr (ph' ++ rh) (pl' ++ rl) (pc' ++ rc) w) :=
  (atr_values (by simp; omega) (by simp; omega) hw (by simp; omega) bh.fins bl.fins bc.fins).agree
    (atr_values (by simp; omega) (by simp; omega) hw (by simp; omega) bh'.fins bl'.fins bc'.fins) (by omega) (by omega) (by simp) (by simp)
    fun j hj => (atr_fades ph ph' rh pl pl' rl pc pc' rc hw el ec el' ec' erl erc hp hp' bh bl bc bh' bl' bc' j hj).trans (le_of_eq (mul_comm _ _))

end Bars

section Limit
open Filter Topology

/-- C85: each of these bounds tends to 0: however large `M`, after enough common bars the history before them makes less difference
than any given amount. -/
theorem ewma_fading (M : ℝ) {w : ℕ} (hw : 1 ≤ w) : Tendsto (fun j : ℕ => 2 * M * (1 - 2 / ((w : ℝ) + 1)) ^ (j + 1)) atTop (𝓝 0) := by
  have h := tendsto_pow_atTop_nhds_zero_of_lt_one (keep_nonneg hw) (keep_lt_one w)
  simpa [keep] using ((tendsto_add_atTop_iff_nat 1).2 h).const_mul (2 * M)

theorem wilder_fading (M : ℝ) {w : ℕ} (hw : 1 ≤ w) : Tendsto (fun j : ℕ => 2 * M * (1 - 1 / (w : ℝ)) ^ j) atTop (𝓝 0) := by
  have w1 : (1 : ℝ) ≤ w := by exact_mod_cast hw
  have h0 : (0 : ℝ) ≤ 1 - 1 / w := by
    rw [sub_nonneg, div_le_one (by linarith)]
    exact w1
  have h1 : (1 : ℝ) - 1 / w < 1 := by
    have : (0 : ℝ) < 1 / w := by positivity
    linarith
  simpa using (tendsto_pow_atTop_nhds_zero_of_lt_one h0 h1).const_mul (2 * M)

theorem tema_fading (M : ℝ) {w : ℕ} (hw : 1 ≤ w) :
    Tendsto (fun j : ℕ => 2 * M * (1 - 2 / ((w : ℝ) + 1)) ^ (j + 1) * (7 + 4 * (2 / (w + 1)) * (j + 1) + (2 / (w + 1)) ^ 2 * ((j + 1) * (j + 2) / 2)))
      atTop (𝓝 0) := by
  have b0 := keep_nonneg hw
  have b1 := keep_lt_one w
  have habs : |keep w| < 1 := by rwa [abs_of_nonneg b0]
  have t := fun k => (tendsto_add_atTop_iff_nat 1).2 (tendsto_pow_const_mul_const_pow_of_abs_lt_one k habs)
  have := (((t 0).const_mul (2 * M * 7)).add ((t 1).const_mul (2 * M * (4 * (2 / (w + 1)) + (2 / (w + 1)) ^ 2 / 2)))).add
    ((t 2).const_mul (2 * M * ((2 / (w + 1)) ^ 2 / 2)))
  simp only [mul_zero, add_zero] at this
  refine this.congr fun j => ?_
  rw [keep]
  push_cast
  ring

/-- What fading means for the user: for every tolerance there is a number of common bars after which the two runs agree within it. -/
theorem Agree.eventually {B : ℕ → ℝ} (hB : Tendsto B atTop (𝓝 0)) {ε : ℝ} (hε : 0 < ε) : ∃ J, ∀ (p p' n : ℕ) (r r' : Option (List XF)),
    Agree p p' n B r r' → ∃ o o', r = some o ∧ r' = some o' ∧ ∀ j, J ≤ j → j < n → ∃ y y' a a', o[p + j]? = some y ∧ o'[p' + j]? = some y' ∧
      FP.Is y a ∧ FP.Is y' a' ∧ |a - a'| < ε := by
  obtain ⟨J, hJ⟩ := eventually_atTop.1 ((tendsto_order.1 hB).2 ε hε)
  refine ⟨J, fun p p' n r r' ⟨o, o', e, e', h⟩ => ⟨o, o', e, e', fun j h1 h2 => ?_⟩⟩
  obtain ⟨y, y', a, a', g1, g2, g3, g4, g5⟩ := h j h2
  exact ⟨y, y', a, a', g1, g2, g3, g4, g5.trans_lt (hJ j h1)⟩

/-- C85: whatever the tolerance, after enough common bars two runs of `ewma` over prices within `M` agree within it. -/
theorem ewma_forgets_limit {w : ℕ} (hw : 1 ≤ w) {M ε : ℝ} (hε : 0 < ε) : ∃ J, ∀ past past' recent : List XF, w ≤ past.length → w ≤ past'.length →
    Bounded M (past ++ recent) → Bounded M (past' ++ recent) → ∃ o o', Smooth.ewma (past ++ recent) w = some o ∧
      Smooth.ewma (past' ++ recent) w = some o' ∧ ∀ j, J ≤ j → j < recent.length → ∃ y y' a a', o[past.length + j]? = some y ∧
        o'[past'.length + j]? = some y' ∧ FP.Is y a ∧ FP.Is y' a' ∧ |a - a'| < ε := by
  obtain ⟨J, hJ⟩ := Agree.eventually (ewma_fading M hw) hε
  exact ⟨J, fun past past' recent h h' b b' => hJ _ _ _ _ _ (ewma_forgets past past' recent hw b b' h h')⟩

/-- C85: the same for the average true range. -/
theorem atr_forgets_limit {w : ℕ} (hw : 1 ≤ w) {M ε : ℝ} (hε : 0 < ε) : ∃ J, ∀ ph ph' rh pl pl' rl pc pc' rc : List XF, pl.length = ph.length →
    pc.length = ph.length → pl'.length = ph'.length → pc'.length = ph'.length → rl.length = rh.length → rc.length = rh.length →
    w + 1 ≤ ph.length → w + 1 ≤ ph'.length → Bounded M (ph ++ rh) → Bounded M (pl ++ rl) → Bounded M (pc ++ rc) → Bounded M (ph' ++ rh) →
    Bounded M (pl' ++ rl) → Bounded M (pc' ++ rc) → ∃ o o', Volatility.atr (ph ++ rh) (pl ++ rl) (pc ++ rc) w = some o ∧
      Volatility.atr (ph' ++ rh) (pl' ++ rl) (pc' ++ rc) w = some o' ∧ ∀ j, J ≤ j → j < rh.length → ∃ y y' a a', o[ph.length + j]? = some y ∧
        o'[ph'.length + j]? = some y' ∧ FP.Is y a ∧ FP.Is y' a' ∧ |a - a'| < ε := by
  obtain ⟨J, hJ⟩ := Agree.eventually (wilder_fading M hw) hε
  exact ⟨J, fun ph ph' rh pl pl' rl pc pc' rc h1 h2 h3 h4 h5 h6 h7 h8 b1 b2 b3 b4 b5 b6 => hJ _ _ _ _ _
    (atr_forgets ph ph' rh pl pl' rl pc pc' rc hw h1 h2 h3 h4 h5 h6 h7 h8 b1 b2 b3 b4 b5 b6)⟩

end Limit

section Examples
open FloatLit

private theorem bounded_ex {l : List ℝ} (h : ∀ r ∈ l, |r| ≤ 9) : Bounded 9 (l.map fun r => (fin r : XF)) := fun x hx => by
  obtain ⟨r, hr, rfl⟩ := List.mem_map.1 hx
  exact ⟨r, is_fin r, h r hr⟩

/-- Two different histories, `1, 5, 3` and `9, 8, 2, 4`, followed by the same bars `7, 6`. -/
example : Agree 3 4 2 (fun j => 2 * 9 * (1 - 2 / ((2 : ℕ) + 1)) ^ (j + 1)) (Smooth.ewma [fin 1, fin 5, fin 3, fin 7, fin 6] 2)
    (Smooth.ewma [fin 9, fin 8, fin 2, fin 4, fin 7, fin 6] 2) :=
  ewma_forgets [fin 1, fin 5, fin 3] [fin 9, fin 8, fin 2, fin 4] [fin 7, fin 6] (by norm_num)
    (bounded_ex (l := [1, 5, 3, 7, 6]) (by simp only [List.mem_cons, List.not_mem_nil, or_false]; rintro r (rfl | rfl | rfl | rfl | rfl) <;> norm_num))
    (bounded_ex (l := [9, 8, 2, 4, 7, 6]) (by simp only [List.mem_cons, List.not_mem_nil, or_false]; rintro r (rfl | rfl | rfl | rfl | rfl | rfl) <;> norm_num))
    (by simp) (by simp)

/-- Where every bar moves by at least `m`, so does the average: the hypothesis of `rsi_forgets` on a series that never stands still. -/
theorem wilderFrom_ge {w n : ℕ} {v : ℕ → ℝ} {m : ℝ} (hw : 1 ≤ w) (h : ∀ i, 1 ≤ i → i < n → m ≤ v i) : ∀ i, w ≤ i → i < n → m ≤ wilderFrom 1 w v i := by
  have w1 : (1 : ℝ) ≤ w := by exact_mod_cast hw
  have hm : w < n → m ≤ mean (lastOf v w (1 + w - 1)) := fun hn => by
    rw [mean, lastOf, List.length_map, List.length_range, le_div_iff₀ (by linarith)]
    have := List.card_nsmul_le_sum (((List.range w).map fun j => v (1 + w - 1 + 1 - w + j))) m (fun x hx => by
      obtain ⟨j, hj, rfl⟩ := List.mem_map.1 hx
      rw [List.mem_range] at hj
      exact h _ (by omega) (by omega))
    rw [List.length_map, List.length_range, nsmul_eq_mul] at this
    linarith
  intro i
  induction i with
  | zero => omega
  | succ i ih =>
    intro h1 h2
    rw [wilderFrom]
    split_ifs with h3
    · exact hm (by omega)
    · have a := ih (by omega) (by omega)
      have c := h (i + 1) (by omega) h2
      rw [le_div_iff₀ (by linarith)]
      have := mul_le_mul_of_nonneg_right a (show (0 : ℝ) ≤ w - 1 by linarith)
      linarith

example : Agree 3 4 2 (fun j => 200 * 9 * (1 - 1 / (2 : ℕ)) ^ j / 1) (Momentum.rsi [fin 1, fin 5, fin 3, fin 7, fin 6] 2)
    (Momentum.rsi [fin 9, fin 8, fin 2, fin 4, fin 7, fin 6] 2) :=
  Momentum.rsi_forgets [fin 1, fin 5, fin 3] [fin 9, fin 8, fin 2, fin 4] [fin 7, fin 6]
    (bounded_ex (l := [1, 5, 3, 7, 6]) (by simp only [List.mem_cons, List.not_mem_nil, or_false]; rintro r (rfl | rfl | rfl | rfl | rfl) <;> norm_num))
    (bounded_ex (l := [9, 8, 2, 4, 7, 6]) (by simp only [List.mem_cons, List.not_mem_nil, or_false]; rintro r (rfl | rfl | rfl | rfl | rfl | rfl) <;> norm_num))
    (by norm_num) (by simp) (by simp) one_pos
    (wilderFrom_ge (by norm_num) fun i h1 h2 => by
      simp only [List.length_append, List.length_cons, List.length_nil] at h2
      interval_cases i <;> norm_num [bar, vals, FP.val, abs_of_nonneg, abs_of_neg])
    (wilderFrom_ge (by norm_num) fun i h1 h2 => by
      simp only [List.length_append, List.length_cons, List.length_nil] at h2
      interval_cases i <;> norm_num [bar, vals, FP.val, abs_of_nonneg, abs_of_neg])

end Examples

end Traquer
