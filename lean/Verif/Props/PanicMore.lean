import Verif.Props.PanicStats
import Verif.Props.PanicTrend
import Verif.Props.PanicMomentum2
import Verif.Props.PanicVolatility
import Verif.Props.Hurst
import Verif.Props.Mama
import Verif.Props.Entropy
/-!
# C15: the average chosen by its mode, `hurst`, `mama`, the entropies, and concrete cases
-/

namespace Traquer.Smooth
open FP FloatLit

/-- The series lengths `n` and windows `w` the average of the given mode answers. -/
def MaMode.Answers (n w : ℕ) : MaMode → Prop
  | .EWMA => 1 ≤ w ∧ w ≤ n
  | .DEMA => 1 ≤ w ∧ 2 * w - 1 ≤ n
  | .TEMA => 1 ≤ w ∧ 3 * w - 2 ≤ n
  | .Pascal => 1 ≤ w ∧ w ≤ 63
  | .Wilder => 1 ≤ w ∧ w ≤ n + 1
  | .ZeroLag => 1 ≤ w ∧ w + (w - 1) / 2 ≤ n
  | .Variable | .Vidya => True
  | .SMA | .WMA | .Hull | .LinReg | .Triangle => 1 ≤ w

/-- The number of values in the answer. -/
def MaMode.size (n w : ℕ) : MaMode → ℕ
  | .SMA | .WMA | .LinReg | .Pascal => max n (w - 1)
  | .Hull => max (max n (divCeil w 2 - 1)) (Nat.sqrt w - 1)
  | .Triangle => max n (w / 2)
  | .Variable => max n (max w 9)
  | .Vidya => max n 23
  | .EWMA | .DEMA | .TEMA | .Wilder | .ZeroLag => n

theorem ma_answers {data : List XF} {n w : ℕ} (mode : MaMode) (hn : data.length = n) (h64 : w < 2 ^ 64) :
    AnswersIff (mode.Answers n w) (mode.size n w) (ma data w mode) := by
  cases mode
  case SMA => exact sma_answers hn
  case EWMA => exact ewma_answers hn
  case DEMA => exact dema_answers hn
  case TEMA => exact tema_answers hn
  case WMA => exact wma_answers hn
  case Hull => exact hull_answers_exact hn h64
  case LinReg => exact lrf_answers hn
  case Pascal => exact pwma_answers hn
  case Triangle => exact trima_answers hn
  case Variable => exact vma_answers hn
  case Vidya => exact vidya_answers hn
  case Wilder => exact wilder_answers hn
  case ZeroLag => exact zlma_answers hn

/-- On finite prices and finite limits, the fast one not negative, mama always answers. A NaN price makes it panic two bars later at the
latest (`mama_nan_panics`). -/
theorem mama_answers {data : List XF} {n : ℕ} (fast slow : Option XF) (hd : Fins data) (hf : (fast.getD 0.5).Finite)
    (hs : (slow.getD 0.05).Finite) (h0 : 0 ≤ (fast.getD 0.5).val) (hn : data.length = n) :
    AnswersIff True (max n 6) (mama data fast slow) := by
  subst hn
  refine ⟨fun _ => ?_, fun h => absurd trivial h⟩
  by_cases h6 : 6 ≤ data.length
  · obtain ⟨o, m, fm, e, ⟨_, h, hl, -⟩, -⟩ := mama_ok data fast slow _ _ h6 hd hf.is hs.is h0
    refine ⟨o, e, ?_⟩
    cases h
    simp at hl
    omega
  · refine ⟨List.replicate 6 (nan, nan), ?_, by simp; omega⟩
    have : (List.range data.length).drop 6 = [] := by simp; omega
    simp [mama, this, scanM]

end Traquer.Smooth

namespace Traquer.Trend
open FP FloatLit

/-- With a smallest scale of 0 the function never returns: the loop that builds the scales does not end. -/
theorem hurst_answers {data : List XF} {n w : ℕ} (m : Option ℕ) (hn : data.length = n) (h64 : w < 2 ^ 64) :
    AnswersIff (1 ≤ w ∧ 1 ≤ m.getD 4) (max n (w - 1)) (hurst data w m) := by
  subst hn
  refine ⟨fun ⟨hw, hm⟩ => ?_, fun h => ?_⟩
  · obtain ⟨k, e, -, -⟩ := hurst_scales (m.getD 4) w hm h64
    by_cases hd : w ≤ data.length + 1
    · obtain ⟨o, h, hl, -⟩ := hurst_aligned data w m _ e (by
        intro x hx
        obtain ⟨j, -, rfl⟩ := List.mem_map.1 hx
        refine Nat.le_floor ?_
        have h1 : (1 : ℝ) ≤ (m.getD 4 : ℕ) := by exact_mod_cast hm
        have h2 : (1 : ℝ) ≤ 10 ^ ((j : ℝ) / 4) := Real.one_le_rpow (by norm_num) (by positivity)
        push_cast
        nlinarith) hw hd
      exact ⟨o, h, by omega⟩
    · have : windowsOf w data = [] := List.length_eq_zero_iff.1 (by simp; omega)
      refine ⟨nans (w - 1), ?_, by simp; omega⟩
      run_model [hurst, e, this]
      simp [mapP]
  · rcases Nat.eq_zero_or_pos w with rfl | hw
    · have : usub 0 1 = none := rfl
      simp only [hurst, this, Option.bind_eq_bind, Option.bind_none]
      cases hurstSizes 0 (log10 (flt (m.getD 4) : XF)) <;> rfl
    · have h0 : m = some 0 := by
        cases m with
        | none => simp at h; omega
        | some k => simp at h; congr 1; omega
      subst h0
      exact (hurst_zero_diverges data w hw).2

end Traquer.Trend

namespace Traquer.Distribution
open FP FloatLit
variable {F : Type} [FloatOps F] {data : List F} {n w m : ℕ} {tol : Option F}

theorem tolOr_some (h : tol ≠ none ∨ data ≠ []) : ∃ t, tolOr data tol = some t := by
  cases tol with
  | some t => exact ⟨t, rfl⟩
  | none =>
    have hl : 1 ≤ data.length := List.length_pos_iff.2 (h.resolve_left (by simp))
    obtain ⟨r, e, l⟩ := (Smooth.stdDevRaw_answers (data := data) (w := data.length) rfl).1 hl
    refine ⟨r.getLast (by rintro rfl; simp at l) * 0.2, ?_⟩
    simp only [tolOr, e, Option.bind_eq_bind, Option.bind_some, List.getLast?_eq_some_getLast (show r ≠ [] by rintro rfl; simp at l)]

theorem tolOr_none : tolOr ([] : List F) none = none := rfl

/-- What `approx_entropy` refuses because of the lengths alone, whatever the values. -/
theorem approx_entropy_refuses (run : Option ℕ) (h : w = 0 ∨ (tol = none ∧ data = []) ∨ (w ≤ data.length ∧ w ≤ run.getD 2)) :
    approx_entropy data w run tol = none := by
  by_cases ht : tol = none ∧ data = []
  · obtain ⟨rfl, rfl⟩ := ht
    rfl
  obtain ⟨t, e⟩ := tolOr_some (data := data) (tol := tol) (by tauto)
  simp only [approx_entropy, e, Option.bind_eq_bind, Option.bind_some]
  rcases Nat.eq_zero_or_pos w with rfl | hw
  · rfl
  have h' : w ≤ data.length ∧ w ≤ run.getD 2 := by
    rcases h with h | h | h
    · omega
    · exact absurd h ht
    · exact h
  simp only [usub_of_le hw, windows, if_neg (show w ≠ 0 by omega), Option.bind_some]
  obtain ⟨x, hx⟩ := List.exists_mem_of_length_pos (show 0 < (windowsOf w data).length by simp; omega)
  rw [Volume.mapP_fails hx]
  · rfl
  · rw [phi, windowsOf_mem_length hx, usub, if_neg (by omega)]
    rfl

/-- What `sample_entropy` refuses because of the lengths alone, whatever the values. -/
theorem sample_entropy_refuses (run : Option ℕ) (h : w = 0 ∨ (tol = none ∧ data = []) ∨ (w ≤ data.length ∧ w ≤ run.getD 2)) :
    sample_entropy data w run tol = none := by
  by_cases ht : tol = none ∧ data = []
  · obtain ⟨rfl, rfl⟩ := ht
    rfl
  obtain ⟨t, e⟩ := tolOr_some (data := data) (tol := tol) (by tauto)
  simp only [sample_entropy, e, Option.bind_eq_bind, Option.bind_some]
  rcases Nat.eq_zero_or_pos w with rfl | hw
  · rfl
  have h' : w ≤ data.length ∧ w ≤ run.getD 2 := by
    rcases h with h | h | h
    · omega
    · exact absurd h ht
    · exact h
  simp only [usub_of_le hw, windows, if_neg (show w ≠ 0 by omega), Option.bind_some]
  obtain ⟨x, hx⟩ := List.exists_mem_of_length_pos (show 0 < (windowsOf w data).length by simp; omega)
  rw [Volume.mapP_fails hx]
  · rfl
  · rw [matchCount, windowsOf_mem_length hx, usub, if_neg (by omega)]
    rfl

theorem approx_entropy_length {run : Option ℕ} {out : List F} (h : approx_entropy data w run tol = some out) :
    out.length = max data.length (w - 1) := by
  simp only [approx_entropy, Option.bind_eq_bind, Option.bind_eq_some_iff, Option.some.injEq] at h
  obtain ⟨t, -, k, hk, ws, hws, r, hr, rfl⟩ := h
  have hw := (Ans.windows (w := w) (l := data) rfl).cond hws
  rw [usub_of_le hw.1, Option.some.injEq] at hk
  simp [← hk, mapP_length hr, hw.2]
  omega

theorem sample_entropy_length {run : Option ℕ} {out : List F} (h : sample_entropy data w run tol = some out) :
    out.length = max data.length (w - 1) := by
  simp only [sample_entropy, Option.bind_eq_bind, Option.bind_eq_some_iff, Option.some.injEq] at h
  obtain ⟨t, -, k, hk, ws, hws, r, hr, rfl⟩ := h
  have hw := (Ans.windows (w := w) (l := data) rfl).cond hws
  rw [usub_of_le hw.1, Option.some.injEq] at hk
  simp [← hk, mapP_length hr, hw.2]
  omega

section
variable {data : List XF} {tol : Option XF} (run : Option ℕ) (hf : Fins data) (ht : ∀ x, tol = some x → x.Finite) (hm : 1 ≤ run.getD 2)
include hf ht hm

/-- On finite values: the window is positive and longer than the run length, a tolerance or a value is given, and in no window a stretch
matches more than 255 stretches. A window longer than the series is always accepted. -/
theorem approx_entropy_answers : AnswersIff (1 ≤ w ∧ (tol ≠ none ∨ 1 ≤ data.length) ∧ (w ≤ data.length → run.getD 2 + 1 ≤ w ∧
      ∀ i, w ≤ i + 1 → i < data.length → ∀ j, j < stretches (recent (vals data) w i) (run.getD 2) →
        matchesOf (recent (vals data) w i) (run.getD 2) (toleranceOf (vals data) (tol.map FP.val)) j ≤ 255))
    (max data.length (w - 1)) (approx_entropy data w run tol) := by
  refine ⟨fun ⟨h1, h2, h3⟩ => ?_, fun h => ?_⟩
  · suffices h : approx_entropy data w run tol ≠ none by
      obtain ⟨o, e⟩ := Option.ne_none_iff_exists'.1 h
      exact ⟨o, e, approx_entropy_length e⟩
    by_cases hd : w ≤ data.length
    · obtain ⟨h3, h4⟩ := h3 hd
      rw [Ne, approx_entropy_panics data w run tol hf ht h2 hm h3]
      rintro ⟨i, a, b, j, c, d⟩
      have := h4 i a b j c
      omega
    · obtain ⟨t, e⟩ := tolOr_some (data := data) (tol := tol) (by rwa [← List.length_pos_iff])
      have : windowsOf w data = [] := List.length_eq_zero_iff.1 (by simp; omega)
      run_model [approx_entropy, e, this]
      simp [mapP]
  · by_cases h1 : 1 ≤ w
    · by_cases h2 : tol ≠ none ∨ 1 ≤ data.length
      · simp only [h1, h2, true_and, Classical.not_imp, not_and, not_forall, not_le] at h
        obtain ⟨hd, h⟩ := h
        by_cases h3 : run.getD 2 + 1 ≤ w
        · obtain ⟨i, a, b, j, c, d⟩ := h h3
          exact (approx_entropy_panics data w run tol hf ht h2 hm h3).2 ⟨i, a, b, j, c, d⟩
        · exact approx_entropy_refuses run (.inr (.inr ⟨hd, by omega⟩))
      · refine approx_entropy_refuses run (.inr (.inl ?_))
        simp only [not_or, not_not] at h2
        exact ⟨h2.1, List.length_eq_zero_iff.1 (by omega)⟩
    · exact approx_entropy_refuses run (.inl (by omega))

/-- On finite values: the window is positive and longer than the run length, a tolerance or a value is given, and no window has more than 255
pairs of matching stretches. -/
theorem sample_entropy_answers : AnswersIff (1 ≤ w ∧ (tol ≠ none ∨ 1 ≤ data.length) ∧ (w ≤ data.length → run.getD 2 + 1 ≤ w ∧
      ∀ i, w ≤ i + 1 → i < data.length →
        pairMatches (recent (vals data) w i) (run.getD 2) (toleranceOf (vals data) (tol.map FP.val)) ≤ 255))
    (max data.length (w - 1)) (sample_entropy data w run tol) := by
  refine ⟨fun ⟨h1, h2, h3⟩ => ?_, fun h => ?_⟩
  · suffices h : sample_entropy data w run tol ≠ none by
      obtain ⟨o, e⟩ := Option.ne_none_iff_exists'.1 h
      exact ⟨o, e, sample_entropy_length e⟩
    by_cases hd : w ≤ data.length
    · obtain ⟨h3, h4⟩ := h3 hd
      rw [Ne, sample_entropy_panics data w run tol hf ht h2 hm h3]
      rintro ⟨i, a, b, c⟩
      have := h4 i a b
      omega
    · obtain ⟨t, e⟩ := tolOr_some (data := data) (tol := tol) (by rwa [← List.length_pos_iff])
      have : windowsOf w data = [] := List.length_eq_zero_iff.1 (by simp; omega)
      run_model [sample_entropy, e, this]
      simp [mapP]
  · by_cases h1 : 1 ≤ w
    · by_cases h2 : tol ≠ none ∨ 1 ≤ data.length
      · simp only [h1, h2, true_and, Classical.not_imp, not_and, not_forall, not_le] at h
        obtain ⟨hd, h⟩ := h
        by_cases h3 : run.getD 2 + 1 ≤ w
        · obtain ⟨i, a, b, c⟩ := h h3
          exact (sample_entropy_panics data w run tol hf ht h2 hm h3).2 ⟨i, a, b, c⟩
        · exact sample_entropy_refuses run (.inr (.inr ⟨hd, by omega⟩))
      · refine sample_entropy_refuses run (.inr (.inl ?_))
        simp only [not_or, not_not] at h2
        exact ⟨h2.1, List.length_eq_zero_iff.1 (by omega)⟩
    · exact sample_entropy_refuses run (.inl (by omega))
end
end Traquer.Distribution

namespace Traquer
open FP FloatLit

/-- C15: `bbands` and `dpo`, whose domain depends on the chosen average. -/
theorem Volatility.bbands_answers_exact {data : List XF} {n w : ℕ} (d : Option XF) (mode : Option Smooth.MaMode) (hn : data.length = n)
    (h64 : w < 2 ^ 64) : AnswersIff ((mode.getD .EWMA).Answers n w ∧ 1 ≤ w) (min ((mode.getD .EWMA).size n w) (max n (w - 1)))
      (Volatility.bbands data w d mode) :=
  Volatility.bbands_answers d mode hn (Smooth.ma_answers _ hn h64)

theorem Trend.dpo_answers_exact {data : List XF} {n w : ℕ} (mode : Option Smooth.MaMode) (hn : data.length = n) (h64 : w < 2 ^ 64) :
    AnswersIff ((mode.getD .SMA).Answers n w ∧ 3 ≤ w ∧ w ≤ n + w / 2 + 2)
      (w - 1 + min (n - (w - (w / 2 + 1) - 1)) ((mode.getD .SMA).size n w - (w - 1))) (Trend.dpo data w mode) :=
  Trend.dpo_answers mode hn (Smooth.ma_answers _ hn h64)

/-! ## Concrete cases

Both sides of the boundary: the shortest series that is answered, and the longest that is not. -/

section
variable {F : Type} [FloatOps F] (a b c d e : F)

example : ∃ out, Smooth.dema [a, b, c] 2 = some out ∧ out.length = 3 := (Smooth.dema_answers rfl).1 (by simp)
example : Smooth.dema [a, b] 2 = none := (Smooth.dema_answers rfl).2 (by simp)
example : ∃ out, Smooth.t3 [a, b, c, d, e, a, b] 2 none = some out ∧ out.length = 7 := (Smooth.t3_answers none rfl).1 (by simp)
example : Smooth.t3 [a, b, c, d, e, a] 2 none = none := (Smooth.t3_answers none rfl).2 (by simp)
example : ∃ out, Smooth.sma [a, b] 4 = some out ∧ out.length = 3 := (Smooth.sma_answers rfl).1 (by simp)
example : Smooth.fwma [a, b, c] 1 = none := (Smooth.fwma_answers rfl).2 (by simp)
example : ∃ out, Smooth.zlma [a, b, c, d] 3 = some out ∧ out.length = 4 := (Smooth.zlma_answers rfl).1 (by simp)
example : Smooth.zlma [a, b, c] 3 = none := (Smooth.zlma_answers rfl).2 (by simp)
example : ∃ out, Volatility.atr [a, b] [a, b] [a, b] 2 = some out ∧ out.length = 2 := (Volatility.atr_answers rfl rfl rfl).1 (by simp)
example : Volatility.atr [a, b] [a, b] [a] 2 = none := (Volatility.atr_answers rfl rfl rfl).2 (by simp)
example : Volatility.mass [a, b, c, d] [a, b, c, d] 3 2 = none := (Volatility.mass_answers rfl rfl).2 (by simp)
example : ∃ out, Volatility.mass [a, b, c, d, e] [a, b, c, d, e] 3 2 = some out ∧ out.length = 5 := (Volatility.mass_answers rfl rfl).1 (by simp)
example : Volume.kvo [a, b, c] [a, b, c] [a, b, c] [a, b, c] 2 3 none = none := (Volume.kvo_answers none rfl rfl rfl rfl).2 (by simp)
example : ∃ out, Volume.kvo [a, b, c, d] [a, b, c, d] [a, b, c, d] [a, b, c, d] 2 3 none = some out ∧ out.length = 4 :=
  (Volume.kvo_answers none rfl rfl rfl rfl).1 (by simp)
example : Volume.ease [a, b] [a, b] [a] 1 = none := (Volume.ease_answers rfl rfl rfl).2 (by simp)
example : ∃ out, Trend.adx [a, b, c] [a, b, c] [a, b, c] 2 2 = some out ∧ out.length = 3 := (Trend.adx_answers rfl rfl rfl).1 (by simp)
example : Trend.adx [a, b] [a, b] [a, b] 2 2 = none := (Trend.adx_answers rfl rfl rfl).2 (by simp)
example : Momentum.tsi [a, b, c] 2 2 = none := (Momentum.tsi_answers rfl).2 (by simp)
example : ∃ out, Momentum.tsi [a, b, c, d] 2 2 = some out ∧ out.length = 4 := (Momentum.tsi_answers rfl).1 (by simp)
example : Momentum.ultimate [a, b, c] [a, b, c] [a, b, c] 3 1 2 = none := (Momentum.ultimate_answers rfl rfl rfl).2 (by simp)
example : ∃ out, Momentum.rainbow [a, b] 3 7 = some out ∧ out.length = 20 := (Momentum.rainbow_answers rfl).1 (by simp)
example : Trend.psar [a, b] [a] none none = none := (Trend.psar_answers none none rfl rfl).2 (by simp)
example : Distribution.kurtosis [a, b, c, d] 2 = none := (Distribution.kurtosis_answers rfl).2 (by simp)
example : ∃ out, Distribution.skew ([] : List F) 1 = some out ∧ out.length = 0 := (Distribution.skew_answers rfl).1 (by simp)
example : Distribution.skew [a] 1 = none := (Distribution.skew_answers rfl).2 (by simp)
example : ∃ out, Correlation.beta [a, b, c] [a, b] 2 = some out ∧ out.length = 3 := (Correlation.beta_answers rfl rfl).1 (by simp)
example : Regression.mda [a, b] [] = none := (Regression.mda_answers rfl rfl).2 (by simp)
end

example : ∃ out, Trend.hurst ([1, 2, 4].map fin : List XF) 3 (some 2) = some out ∧ out.length = 3 := (Trend.hurst_answers _ rfl (by norm_num)).1 (by simp)
example : Trend.hurst ([1, 2, 4].map fin : List XF) 3 (some 0) = none := (Trend.hurst_answers _ rfl (by norm_num)).2 (by simp)
example : ∃ out, Smooth.ma ([1, 2, 4].map fin : List XF) 2 .DEMA = some out ∧ out.length = 3 := (Smooth.ma_answers .DEMA rfl (by norm_num)).1 (by simp [Smooth.MaMode.Answers])
example : Smooth.ma ([1, 2, 4].map fin : List XF) 64 .Pascal = none := (Smooth.ma_answers .Pascal rfl (by norm_num)).2 (by simp [Smooth.MaMode.Answers])
example (srt : Distribution.Sorter XF) (hs : srt.Valid) : Correlation.srcc srt [fin 1, nan, fin 2] [fin 3, fin 2] 2 = none :=
  (Correlation.srcc_answers srt hs rfl rfl).2 (by
    intro h
    exact absurd ((h.2 (by decide) (by decide)).1 nan (by simp)) (by simp [Traquer.isNaN, FloatOps.isNaN, FP.isNaN]))
/-- A NaN beyond the shorter series is never looked at. -/
example (srt : Distribution.Sorter XF) (hs : srt.Valid) : ∃ out, Correlation.srcc srt [fin 1, fin 5, nan] [fin 3, fin 2] 2 = some out ∧ out.length = 2 :=
  (Correlation.srcc_answers srt hs rfl rfl).1 ⟨by decide, fun _ _ => ⟨by
    intro x hx
    simp at hx
    rcases hx with rfl | rfl <;> rfl, by
    intro x hx
    simp at hx
    rcases hx with rfl | rfl <;> rfl⟩⟩

end Traquer
