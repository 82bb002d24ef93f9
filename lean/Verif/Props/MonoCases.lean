import Verif.Props.MonoCandles
import Verif.Props.SmoothConst
import Verif.Props.Accumulate
import Verif.Spec.Flow
import Verif.Spec.Error
import Verif.Lemmas.Witness
/-!
# C79: concrete cases, and an average that is not monotone
-/

namespace Traquer
open FP FloatLit

/-- Finite prices of which none is above the other price of its bar. -/
theorem each_atMost_of_vals {ρ : Rounding} {l l' : List (FP ρ)} (hl : Fins l) (hl' : Fins l') (hn : l.length = l'.length)
    (h : ∀ i, bar (vals l) i ≤ bar (vals l') i) : Each AtMost l l' := by
  rw [each_iff]
  refine ⟨hn, fun i x y hx hy => ?_⟩
  have := h i
  rw [bar_vals hx, bar_vals hy] at this
  exact (is_le_iff ⟨hl x (List.mem_of_getElem? hx), rfl⟩ ⟨hl' y (List.mem_of_getElem? hy), rfl⟩).2 this

/-- In `f64`, the averages of the highs are not below the averages of the lows. -/
example (high low : List F64) (fh : Fins high) (fl : Fins low) (hn : low.length = high.length)
    (h : ∀ i, bar (vals low) i ≤ bar (vals high) i) (w : ℕ) : Alike (Each NotAbove) (Smooth.ewma low w) (Smooth.ewma high w) :=
  Smooth.ewma_mono ((each_atMost_of_vals fl fh hn h).imp fun _ _ h => h.notAbove) w

theorem atMost_fin {ρ : Rounding} {a b : ℝ} (h : a ≤ b) : AtMost (FP.fin a : FP ρ) (FP.fin b) :=
  (is_le_iff (is_iff.2 (.inl rfl)) (is_iff.2 (.inl rfl))).2 h

/-- Three bars, the second price raised from 2 to 5. -/
example : Alike (Each NotAbove) (Smooth.wma [.fin 1, .fin 2, .fin 3] 2 : Option (List F64)) (Smooth.wma [.fin 1, .fin 5, .fin 3] 2) :=
  Smooth.wma_mono (.cons (.refl _) (.cons (atMost_fin (by norm_num)).notAbove (.cons (.refl _) .nil))) 2

theorem rise_fin {ρ : Rounding} {a b : ℝ} (h0 : 0 ≤ a) (h : a ≤ b) : Rise (FP.fin a : FP ρ) (FP.fin b) :=
  ⟨(is_le_iff isZero (is_iff.2 (.inl rfl))).2 h0, atMost_fin h⟩

/-- Two candles; the high of the first one and the close of the second one are raised. -/
example : Alike (Each Volatility.CandleRise)
    (Volatility.heikin_ashi [.fin 2, .fin 3] [.fin 4, .fin 5] [.fin 1, .fin 2] [.fin 3, .fin 3] : Option (List (F64 × F64 × F64 × F64)))
    (Volatility.heikin_ashi [.fin 2, .fin 3] [.fin 9, .fin 5] [.fin 1, .fin 2] [.fin 3, .fin 4]) := by
  refine Volatility.heikin_ashi_mono (.cons ?_ (.cons ?_ .nil)) (.cons ?_ (.cons ?_ .nil)) (.cons ?_ (.cons ?_ .nil))
    (.cons ?_ (.cons ?_ .nil)) <;> exact rise_fin (by norm_num) (by norm_num)

/-- Two bars with volumes 0 and 7 and a reset before the second bar. -/
example : Alike (Each NotAbove)
    (Volume.vwap [.fin 4, .fin 5] [.fin 1, .fin 2] [.fin 3, .fin 3] [.fin 0, .fin 7] (some [1]) : Option (List F64))
    (Volume.vwap [.fin 4, .fin 6] [.fin 1, .fin 2] [.fin 3, .fin 4] [.fin 0, .fin 7] (some [1])) := by
  refine Volume.vwap_mono (.cons ?_ (.cons ?_ .nil)) (.cons ?_ (.cons ?_ .nil)) (.cons ?_ (.cons ?_ .nil)) ?_ _
  all_goals first
    | exact (atMost_fin (by norm_num)).notAbove
    | (intro v hv
       simp only [List.mem_cons, List.not_mem_nil, or_false] at hv
       rcases hv with rfl | rfl <;> exact .inr (.inr ⟨_, is_iff.2 (.inl rfl), by norm_num⟩))

end Traquer

namespace Traquer.Smooth
open FP FloatLit

/-- Hull's average has negative weights: raising the first price from 0 to 3 lowers the second value from 0 to -1. -/
theorem hull_not_mono : ValueAt (hull [.fin 0, .fin 0] 2) 1 0 ∧ ValueAt (hull [.fin 3, .fin 0] 2) 1 (-1) := by
  have s : Nat.sqrt 2 = 1 := by norm_num
  constructor
  · refine (hull_reports [.fin 0, .fin 0] 2 (by decide) (by decide) (by decide) (by simp [Fins, FP.Finite])).value 1 (by simp [s]) (by decide) ?_
    norm_num [s, wmaOf, lastOf, recent, vals, FP.val, List.range_succ, List.range', weightedMean]
  · refine (hull_reports [.fin 3, .fin 0] 2 (by decide) (by decide) (by decide) (by simp [Fins, FP.Finite])).value 1 (by simp [s]) (by decide) ?_
    norm_num [s, wmaOf, lastOf, recent, vals, FP.val, List.range_succ, List.range', weightedMean]

end Traquer.Smooth
