import Verif.Props.Plateau
import Verif.Props.Flat64
/-!
# C139: the exponential average is the exception
-/

namespace Traquer.Smooth
open FP FloatLit

theorem sixth64 : rnd64 (2 / 6) = (6004799503160661 : ℤ) * 2 ^ (-54 : ℤ) :=
  rnd64_eq (by norm_num) (by norm_num) (by norm_num) (roundEven_eq (by norm_num) (by norm_num))

theorem keep64 : rnd64 (1 - (6004799503160661 : ℤ) * 2 ^ (-54 : ℤ)) = (6004799503160662 : ℤ) * 2 ^ (-53 : ℤ) := by
  refine rnd64_eq (by norm_num) (by norm_num) (by norm_num) ?_
  have h := roundEven_up (n := 6004799503160661) (by decide)
  rw [← show (6004799503160661 : ℤ) + 1 = 6004799503160662 by norm_num, ← h]
  congr 1
  norm_num

theorem fifteenNew64 : rnd64 (15 * ((6004799503160661 : ℤ) * 2 ^ (-54 : ℤ))) = 5 := by
  rw [rnd64_eq (n := 5629499534213120) (e := -50) (by norm_num) (by norm_num) (by norm_num) (roundEven_eq (by norm_num) (by norm_num))]
  norm_num

theorem fifteenOld64 : rnd64 (15 * ((6004799503160662 : ℤ) * 2 ^ (-53 : ℤ))) = 10 + 2 ^ (-49 : ℤ) := by
  rw [rnd64_eq (n := 5629499534213121) (e := -49) (by norm_num) (by norm_num) (by norm_num) (roundEven_eq (by norm_num) (by norm_num))]
  norm_num

theorem hundred_le_max64 : (100 : ℝ) ≤ max64 := by
  unfold max64
  have h : (1 : ℝ) ≤ 2 ^ 971 := one_le_pow₀ (by norm_num)
  generalize (2 : ℝ) ^ 971 = z at *
  norm_num
  linarith

/-- The price is 15 throughout. The exponential average over 5 bars starts at 15 and then steps up by one unit in the last place. -/
theorem ewma_flat_steps : ∃ out x y, ewma (List.replicate 6 (.fin 15) : List F64) 5 = some out ∧ out[4]? = some x ∧ out[5]? = some y ∧
    x ⇓ 15 ∧ y ⇓ 15 + 2 ^ (-49 : ℤ) := by
  have big : (16 : ℝ) ≤ max64 := (by norm_num : _ ≤ (100 : ℝ)).trans hundred_le_max64
  have hp : ∀ x ∈ List.replicate 5 (.fin 15 : F64), x ⇓ (15 : ℝ) := fun x hx => by
    rw [List.eq_of_mem_replicate hx]; exact is_fin 15
  have hs : Spare 5 15 := ⟨⟨15, 0, by norm_num, by norm_num, by norm_num⟩, (by norm_num : _ ≤ (100 : ℝ)).trans hundred_le_max64⟩
  have hx : fsum (List.replicate 5 (.fin 15 : F64)) / flt 5 ⇓ (15 : ℝ) := flat_mean hs hp (by norm_num) (by norm_num) (by simp)
  have h2 : (2 : F64) ⇓ ((2 : ℕ) : ℝ) := isFlt (by norm_num)
  have h1 : (1 : F64) ⇓ ((1 : ℕ) : ℝ) := isFlt (by norm_num)
  have h6 : (flt (5 + 1) : F64) ⇓ ((6 : ℕ) : ℝ) := isFlt (by norm_num)
  have ha : (2 / flt (5 + 1) : F64) ⇓ (6004799503160661 : ℤ) * 2 ^ (-54 : ℤ) := by
    refine is64 (rounds_div h2 h6 (by norm_num)) ?_ ((by norm_num : _ ≤ (16 : ℝ)).trans big)
    simpa using sixth64
  have hb : (1 - 2 / flt (5 + 1) : F64) ⇓ (6004799503160662 : ℤ) * 2 ^ (-53 : ℤ) := by
    refine is64 (rounds_sub h1 ha) ?_ ((by norm_num : _ ≤ (16 : ℝ)).trans big)
    simpa using keep64
  have hn : (FP.fin 15 * (2 / flt (5 + 1)) : F64) ⇓ 5 :=
    is64 (rounds_mul (is_fin 15) ha) fifteenNew64 ((by norm_num : _ ≤ (16 : ℝ)).trans big)
  have hk := is64 (rounds_mul hx hb) fifteenOld64 ((by norm_num : _ ≤ (16 : ℝ)).trans big)
  have hy := exact64 (m := 8444249301319681) (e := -49) (rounds_add hn hk) (by norm_num) (by norm_num) (by norm_num)
    ((by norm_num : _ ≤ (16 : ℝ)).trans big)
  refine ⟨_, _, _, rfl, rfl, rfl, hx, ?_⟩
  rw [show (5 : ℝ) + (10 + 2 ^ (-49 : ℤ)) = 15 + 2 ^ (-49 : ℤ) by ring] at hy
  exact hy

/-- So the exponential average can turn against the prices. -/
theorem ewma_flat_turns : ¬ NeverTurns 5 fun l : List F64 => ewma l 5 := by
  intro h
  obtain ⟨out, x, y, ho, h4, h5, hx, hy⟩ := ewma_flat_steps
  have hd : StepsBy (fun x y => NotAbove y x) 0 (List.replicate 6 (.fin 15) : List F64) := by
    intro i a b _ ha hb
    rw [List.eq_of_mem_replicate (List.mem_of_getElem? ha), List.eq_of_mem_replicate (List.mem_of_getElem? hb)]
    exact .refl _
  have hs := (h _ _ ho).2 hd 4 x y (by norm_num) (by rw [List.getElem?_take_of_lt (by simp)]; exact h4)
    (by rw [List.getElem?_take_of_lt (by simp)]; exact h5)
  have hl : (x <. y) = false := hs
  rw [is_lt hx hy, decide_eq_false_iff_not] at hl
  exact hl (by norm_num)

end Traquer.Smooth
