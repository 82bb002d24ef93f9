import Verif.Props.PanicVolume
import Verif.Model.Momentum
/-!
# C15 (momentum): exactly when an indicator panics, and how many values it yields otherwise

The series may have different lengths.
-/

namespace Traquer.Trend
open FloatLit
variable {F : Type} [FloatOps F]

theorem alligatorLine_answers {data : List F} {n w o m : Nat} (hn : data.length = n) (ho : o ≤ m) :
    AnswersIff (1 ≤ w ∧ w ≤ n + 1) (n + m) (alligatorLine data w o m) := by
  answers [alligatorLine]

end Traquer.Trend

namespace Traquer.Momentum
open FloatLit
open Traquer.Volatility (trueRange)
variable {F : Type} [FloatOps F]

theorem rsi_answers {data : List F} {n w : Nat} (hn : data.length = n) : AnswersIff (1 ≤ w ∧ w ≤ max n 1) (max n 1) (rsi data w) := by
  answers [rsi, gains, losses]

theorem macd_answers {data : List F} {n s l : Nat} (hn : data.length = n) :
    AnswersIff (1 ≤ s ∧ 1 ≤ l ∧ max s l ≤ n) n (macd data s l) := by
  answers [macd]

theorem bpTr_answers {high low close : List F} {a b c : Nat} (ha : high.length = a) (hb : low.length = b) (hc : close.length = c) :
    AnswersIff (1 ≤ min a (min b c)) (min a (min b c) - 1) (bpTr high low close) := by
  answers [bpTr]

theorem swing_answers {openp high low close : List F} {o a b c : Nat} (limit : F) (ho : openp.length = o) (ha : high.length = a)
    (hb : low.length = b) (hc : close.length = c) :
    AnswersIff (1 ≤ min o (min a (min b c))) (min o (min a (min b c)) - 1) (swing openp high low close limit) := by
  answers [swing]

theorem stoch_answers {high low close : List F} {a b c w s : Nat} (ha : high.length = a) (hb : low.length = b) (hc : close.length = c) :
    AnswersIff (1 ≤ w ∧ 1 ≤ s ∧ w ≤ c + 1) (max (min a (min b c)) (w - 1 + (s - 1))) (stoch high low close w s) := by
  answers [stoch]

theorem stcRaw_answers {data : List F} {n w s : Nat} (hn : data.length = n) :
    AnswersIff (1 ≤ w ∧ 1 ≤ s ∧ s ≤ n + 1 - w + 1) (n + 1 - w) (stcRaw data w s) := by
  answers [stcRaw]
  rename_i h
  intro x hx
  obtain ⟨h1, h2⟩ := h x hx
  simp (disch := omega)

end Traquer.Momentum

namespace Traquer
open Momentum
macro_rules | `(tactic| answers_fn) => `(tactic| first
  | (with_reducible apply rsi_answers; len)
  | (with_reducible apply macd_answers; len)
  | (with_reducible apply bpTr_answers <;> len)
  | (with_reducible apply swing_answers <;> len)
  | (with_reducible apply stoch_answers <;> len)
  | (with_reducible apply stcRaw_answers; len)
  | (with_reducible apply Smooth.cmoRaw_answers; len))
end Traquer

namespace Traquer.Momentum
open FloatLit
open Traquer.Volatility (trueRange)
variable {F : Type} [FloatOps F]

theorem crsi_answers {data : List F} {n r s k : Nat} (hn : data.length = n) :
    AnswersIff (1 ≤ r ∧ r ≤ max n 1 ∧ 1 ≤ s ∧ s ≤ max (n - 1) 1 ∧ 1 ≤ k) (max n 1) (crsi data r s k) := by
  answers [crsi]
  rename_i h
  intro x hx
  obtain ⟨h1, h2⟩ := h x hx
  simp (disch := omega) [usub_of_le h1]

theorem cmo_answers {data : List F} {n w : Nat} (hn : data.length = n) : AnswersIff True (max (max n 1) w) (cmo data w) := by
  answers [cmo]

theorem cfo_answers {data : List F} {n w : Nat} (hn : data.length = n) : AnswersIff (1 ≤ w) n (cfo data w) := by
  answers [cfo]

theorem elder_ray_answers {high low close : List F} {a b c w : Nat} (ha : high.length = a) (hb : low.length = b) (hc : close.length = c) :
    AnswersIff (1 ≤ w ∧ w ≤ c) (min a (min b c)) (elder_ray high low close w) := by
  answers [elder_ray]

theorem wpr_answers {high low close : List F} {a b c w : Nat} (ha : high.length = a) (hb : low.length = b) (hc : close.length = c) :
    AnswersIff (1 ≤ w ∧ w ≤ c + 1) (max (min a (min b c)) (w - 1)) (wpr high low close w) := by
  answers [wpr]

theorem ppo_answers {data : List F} {n s l : Nat} (hn : data.length = n) :
    AnswersIff (1 ≤ s ∧ 1 ≤ l ∧ max s l ≤ n) n (ppo data s l) := by
  answers [ppo]

theorem apo_answers {data : List F} {n s l : Nat} (hn : data.length = n) :
    AnswersIff (1 ≤ s ∧ 1 ≤ l ∧ max s l ≤ n) n (apo data s l) := by
  answers [apo]

theorem pmo_answers {data : List F} {n s l : Nat} (hn : data.length = n) :
    AnswersIff (1 ≤ s ∧ 1 ≤ l ∧ s + l ≤ n) n (pmo data s l) := by
  answers [pmo]

/-- The third window must be the longest, as soon as there is a complete one. -/
theorem ultimate_answers {high low close : List F} {a b c u v w : Nat} (ha : high.length = a) (hb : low.length = b) (hc : close.length = c) :
    AnswersIff (1 ≤ min a (min b c) ∧ 1 ≤ w ∧ (w < min a (min b c) → max u v ≤ w)) (max (min a (min b c)) w) (ultimate high low close u v w) := by
  by_cases h : w < min a (min b c) → max u v ≤ w
  · simp only [eq_true h, and_true]
    answers [ultimate]
    rename_i h1 h2
    intro x hx
    have : w < min a (min b c) := by
      have := List.length_pos_of_mem hx
      have := h2 x hx
      omega
    simp (disch := omega) [usub_of_le]
  · refine ⟨fun hc => absurd hc.2.2 h, fun _ => ?_⟩
    obtain ⟨v', hv, hl⟩ := (bpTr_answers ha hb hc).1 (by omega)
    simp only [ultimate, hv, Option.bind_eq_bind, Option.bind_some]
    rw [windows]
    split
    · rfl
    · rw [Option.bind_some, Volume.mapP_fails (x := v'.take w)]
      · rfl
      · exact windowsOf_mem_iff.2 ⟨0, by omega, by simp⟩
      · by_cases hu : u ≤ w
        · simp [usub, show ¬ v ≤ w by omega]
        · simp [usub, hu]

theorem pgo_answers {high low close : List F} {a b c w : Nat} (ha : high.length = a) (hb : low.length = b) (hc : close.length = c) :
    AnswersIff (1 ≤ w ∧ w < min a (min b c)) (min a (min b c)) (pgo high low close w) := by
  answers [pgo]

theorem si_answers {openp high low close : List F} {o a b c : Nat} (limit : F) (ho : openp.length = o) (ha : high.length = a)
    (hb : low.length = b) (hc : close.length = c) :
    AnswersIff (1 ≤ min o (min a (min b c))) (min o (min a (min b c))) (si openp high low close limit) := by
  answers [si]

theorem trix_answers {data : List F} {n w : Nat} (hn : data.length = n) : AnswersIff (1 ≤ w ∧ 3 * w - 2 ≤ n) n (trix data w) := by
  answers [trix]

theorem tii_answers {data : List F} {n w : Nat} (hn : data.length = n) : AnswersIff (1 ≤ w) (max n (divCeil w 2 - 1)) (tii data w) := by
  answers [tii]

theorem stochastic_answers {high low close : List F} {a b c w : Nat} (ha : high.length = a) (hb : low.length = b) (hc : close.length = c) :
    AnswersIff (1 ≤ w ∧ w ≤ c + 1) (max (min a (min b c)) (w + 1)) (stochastic high low close w) := by
  answers [stochastic]

theorem stc_answers {data : List F} {n w s l : Nat} (hn : data.length = n) :
    AnswersIff (1 ≤ s ∧ 1 ≤ l ∧ 1 ≤ w ∧ s ≤ n ∧ l + 2 * w ≤ n + 1) n (stc data w s l) := by
  answers [stc]

theorem relative_vigor_answers {openp high low close : List F} {o a b c w : Nat} (ho : openp.length = o) (ha : high.length = a)
    (hb : low.length = b) (hc : close.length = c) :
    AnswersIff (1 ≤ w) (max (min o (min a (min b c))) (w + 2)) (relative_vigor openp high low close w) := by
  answers [relative_vigor, vigorSmooth]

theorem fisher_answers {high low : List F} {a b w : Nat} (ha : high.length = a) (hb : low.length = b) :
    AnswersIff (1 ≤ w) (max (min a b) (w - 1)) (fisher high low w) := by
  answers [fisher]
  rename_i h
  intro x hx s
  obtain ⟨h1, h2⟩ := h x hx
  simp (disch := omega) [fisherStep]

/-- The short window must not exceed the long one, as soon as there is a bar past the long one. -/
theorem coppock_answers {data : List F} {n w s l : Nat} (hn : data.length = n) :
    AnswersIff (1 ≤ w ∧ (l < n → s ≤ l)) (l + max (n - l) (w - 1)) (coppock data w s l) := by
  by_cases h : l < n → s ≤ l
  · simp only [eq_true h, and_true]
    answers [coppock]
    intro x hx
    rw [mem_range_drop] at hx
    simp (disch := omega) [usub_of_le]
  · refine ⟨fun hc => absurd hc.2 h, fun _ => ?_⟩
    simp only [coppock, Option.bind_eq_bind]
    rw [Volume.mapP_fails (x := l) (mem_range_drop.2 ⟨by omega, by omega⟩)]
    · rfl
    · simp (disch := omega) [usub, show ¬ s ≤ l by omega]

theorem roc_answers {data : List F} {n w : Nat} (hn : data.length = n) : AnswersIff (1 ≤ w) (max n (w - 1)) (roc data w) := by
  answers [roc]
  rename_i h
  intro x hx
  obtain ⟨h1, h2⟩ := h x hx
  simp (disch := omega)

theorem bal_power_answers {openp high low close : List F} {o a b c w : Nat} (ho : openp.length = o) (ha : high.length = a)
    (hb : low.length = b) (hc : close.length = c) :
    AnswersIff (1 ≤ w ∧ w ≤ min o (min a (min b c))) (min o (min a (min b c))) (bal_power openp high low close w) := by
  answers [bal_power]

theorem disparity_answers {data : List F} {n w : Nat} (hn : data.length = n) : AnswersIff (1 ≤ w ∧ w ≤ n) n (disparity data w) := by
  answers [disparity]

theorem qstick_answers {openp close : List F} {o c w : Nat} (ho : openp.length = o) (hc : close.length = c) :
    AnswersIff (1 ≤ w ∧ w ≤ min o c) (min o c) (qstick openp close w) := by
  answers [qstick]

theorem cog_answers {data : List F} {n w : Nat} (hn : data.length = n) : AnswersIff (1 ≤ w) (max n (w - 1)) (cog data w) := by
  answers [cog]

theorem psych_answers {data : List F} {n w : Nat} (hn : data.length = n) : AnswersIff (1 ≤ w) (max n w) (psych data w) := by
  answers [psych]

theorem tsi_answers {data : List F} {n s l : Nat} (hn : data.length = n) :
    AnswersIff (1 ≤ s ∧ 1 ≤ l ∧ s + l ≤ n) n (tsi data s l) := by
  answers [tsi]

theorem derivative_answers {data : List F} {n u v s : Nat} (hn : data.length = n) :
    AnswersIff (1 ≤ u ∧ 1 ≤ v ∧ 1 ≤ s ∧ 2 * u + v ≤ n + 1) n (derivative data u v s) := by
  answers [derivative]

theorem cci_answers {high low close : List F} {a b c w : Nat} (ha : high.length = a) (hb : low.length = b) (hc : close.length = c) :
    AnswersIff (1 ≤ w) (max (min a (min b c)) (w - 1)) (cci high low close w) := by
  answers [cci]
  rename_i h
  intro x hx
  obtain ⟨h1, h2⟩ := h x hx
  cases x with
  | nil => simp at h2; omega
  | cons y x => simp [List.getLast?_cons]

theorem qqe_answers {data : List F} {n w s : Nat} (hn : data.length = n) :
    AnswersIff (1 ≤ w ∧ 1 ≤ s ∧ 3 * w + s ≤ n + 2) (max n (3 * w + s - 1)) (qqe data w s) := by
  rcases Nat.eq_zero_or_pos w with rfl | hw
  · refine ⟨fun h => by omega, fun _ => ?_⟩
    rw [qqe, (rsi_answers hn).2 (by omega)]
    rfl
  answers [qqe]
  rename_i h1 _ h2 _ h3
  intro x hx s'
  rw [mem_range_drop] at hx
  simp only [List.length_drop] at hx
  simp (disch := (simp; omega)) [qqeStep]

theorem deli_answers {high low : List F} {a b w : Nat} (ha : high.length = a) (hb : low.length = b) :
    AnswersIff (1 ≤ w ∧ 3 * w ≤ min a b) (min a b) (deli high low w) := by
  answers [deli]

theorem kdj_answers {high low close : List F} {a b c w s : Nat} (kf df : Option F) (ha : high.length = a) (hb : low.length = b)
    (hc : close.length = c) :
    AnswersIff (1 ≤ w ∧ 1 ≤ s ∧ w ≤ c + 1) (max (min a (min b c)) (w - 1 + (s - 1))) (kdj high low close w s kf df) := by
  answers [kdj]

end Traquer.Momentum
