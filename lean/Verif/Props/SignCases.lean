import Verif.Props.BandOrder
import Verif.Props.SignAverages
import Verif.Lemmas.Eval
/-!
# C81: concrete cases, and the two hypotheses that cannot be dropped
-/

namespace Traquer
open FP FloatLit
variable {ρ : Rounding}

theorem signClear_fin {a : ℝ} (h : 0 ≤ a) : SignClear (FP.fin a : FP ρ) := .inr (.inr ⟨a, h, rfl⟩)

theorem notAbove_fin {a b : ℝ} (h : a ≤ b) : NotAbove (FP.fin a : FP ρ) (FP.fin b) :=
  notAbove_iff.2 fun _ _ => EReal.coe_le_coe_iff.2 h

theorem stored_nat (n : ℕ) (h : n ≤ 2 ^ 53) : Stored (FP.fin n : FP ρ) := fun r hr => by
  have : (n : ℝ) = r := hr.2
  rw [← this]
  exact ⟨ρ.nat n h, ρ.fits_nat n h⟩

/-- Three prices, one of them a NaN: the averages carry no sign. -/
example (w : ℕ) : Every SignClear (Smooth.ewma [.fin 1, .nan, .fin 3] w : Option (List F64)) := by
  refine Smooth.ewma_clear (fun x hx => ?_) w
  simp only [List.mem_cons, List.not_mem_nil, or_false] at hx
  rcases hx with rfl | rfl | rfl
  exacts [signClear_fin (by norm_num), signClear_nan, signClear_fin (by norm_num)]

/-- Two bars with a low above its high: the true range is still not negative, as the closes are not NaN. -/
example : Every NotNegative (Volatility.tr [.fin 1, .fin 2] [.fin 4, .fin 6] [.fin 3, .fin 7] : Option (List F64)) :=
  Volatility.tr_notNegative _ _ _ fun c hc => by
    simp only [List.mem_cons, List.not_mem_nil, or_false] at hc
    rcases hc with rfl | rfl <;> rfl

/-- Two bars without a close: the true range is not negative, as the lows are below the highs. -/
example : Every NotNegative (Volatility.tr [.fin 4, .fin 6] [.fin 1, .fin 2] [.nan, .nan] : Option (List F64)) :=
  Volatility.tr_notNegative_of_bars _ _ _ fun p hp => by
    simp only [List.zip_cons_cons, List.zip_nil_left, List.mem_cons, List.not_mem_nil, or_false] at hp
    rcases hp with rfl | rfl <;> exact notAbove_fin (by norm_num)

/-- Bollinger bands with three deviations around Hull's average. -/
example : Every (fun p => NotAbove p.2.2 p.2.1 ∧ NotAbove p.2.1 p.1)
    (Volatility.bbands [.fin 1, .fin 4, .fin 9, .fin 2] 2 (some 3) (some .Hull) : Option (List (F64 × F64 × F64))) := by
  refine Volatility.bbands_middle64 _ _ (fun x hx => ?_) _ (fun d hd => ?_) _
  · simp only [List.mem_cons, List.not_mem_nil, or_false] at hx
    rcases hx with rfl | rfl | rfl | rfl
    exacts [by exact_mod_cast stored_nat 1 (by norm_num), by exact_mod_cast stored_nat 4 (by norm_num), by exact_mod_cast stored_nat 9 (by norm_num), by exact_mod_cast stored_nat 2 (by norm_num)]
  · cases hd
    exact (signClear_flt 3).notNegative

/-- Two bars of a Keltner channel, of STARC bands and of a Donchian channel. -/
example : Every (fun p => NotAbove p.2.2 p.1 ∧ NotAbove p.1 p.2.1 ∧ NotAbove p.2.2 p.2.1)
    (Volatility.keltner [.fin 4, .fin 6] [.fin 1, .fin 2] [.fin 3, .fin 5] 1 : Option (List (F64 × F64 × F64))) :=
  Volatility.keltner_ordered64 _ _ _ _ fun c hc => by
    simp only [List.mem_cons, List.not_mem_nil, or_false] at hc
    rcases hc with rfl | rfl <;> rfl

example : Every (fun p => NotAbove p.2 p.1)
    (Volatility.starc [.fin 4, .fin 6] [.fin 1, .fin 2] [.fin 3, .fin 5] 1 2 (some 2) : Option (List (F64 × F64))) :=
  Volatility.starc_ordered64 _ _ _ _ (fun c hc => by
    simp only [List.mem_cons, List.not_mem_nil, or_false] at hc
    rcases hc with rfl | rfl <;> rfl) _ _ fun k hk => by cases hk; exact (signClear_flt 2).notNegative

example : Every (fun p => NotAbove p.2.2 p.1)
    (Volatility.donchian [.fin 4, .fin 6] [.fin 1, .fin 2] 2 : Option (List (F64 × F64 × F64))) :=
  Volatility.donchian_ordered64 _ _ _ fun p hp => by
    simp only [List.zip_cons_cons, List.zip_nil_left, List.mem_cons, List.not_mem_nil, or_false] at hp
    rcases hp with rfl | rfl <;> exact ⟨rfl, rfl, notAbove_fin (by norm_num)⟩

end Traquer

namespace Traquer.Volatility
open FP FloatLit

/-- C81: with a NaN close and a low above its high, the true range is negative. -/
theorem tr_negative : tr [.fin 1, .fin 1] [.fin 1, .fin 3] [.nan, .fin 2] = some [FP.nan, (.fin (-2) : XF)] := by
  have e : (FP.fin 1 - FP.fin 3 : XF) = FP.fin (-2) := by rw [eval_sub]; norm_num
  show some [FP.nan, fmax (fmax (FP.fin 1 - FP.fin 3 : XF) FP.nan) FP.nan] = _
  rw [e]
  rfl

/-- C81: the Donchian channel crosses, if one bar has no high and the other one no low. -/
theorem donchian_crosses : ∃ m, donchian [.nan, .fin 3] [.fin 5, .nan] 2 = some [(FP.nan, FP.nan, FP.nan), (.fin 3, m, (.fin 5 : XF))] := ⟨_, rfl⟩

end Traquer.Volatility
