import Verif.Props.MirrorExact
import Verif.Props.Accumulate
import Verif.Lemmas.Error
import Verif.Lemmas.Witness
/-!
# C80: concrete cases, and an indicator without the symmetry
-/

namespace Traquer
open FP FloatLit

/-- In `f64`, for every list of prices (NaN and infinities included): the averages of the opposite prices are the opposite averages. -/
example (data : List F64) (w : ℕ) : Alike (Each Opposite) (Smooth.ewma data w) (Smooth.ewma (mirror data) w) :=
  Smooth.ewma_mirror (each_mirror_odd data) w

/-- Three prices. -/
example : Alike (Each Opposite) (Smooth.wma [.fin 1, .fin 5, .fin 3] 2 : Option (List F64)) (Smooth.wma [-.fin 1, -.fin 5, -.fin 3] 2) :=
  Smooth.wma_mirror (each_mirror_odd [.fin 1, .fin 5, .fin 3]) 2

/-- The mirror image of three bars: the highs are the opposites of the lows. -/
example : Volatility.tr [-.fin 1, -.fin 2, -.fin 2] [-.fin 4, -.fin 5, -.fin 9] [-.fin 3, -.fin 4, -.fin 7]
    = (Volatility.tr [.fin 4, .fin 5, .fin 9] [.fin 1, .fin 2, .fin 2] [.fin 3, .fin 4, .fin 7] : Option (List F64)) :=
  Volatility.tr_mirror (high := [.fin 4, .fin 5, .fin 9]) (low := [.fin 1, .fin 2, .fin 2]) (close := [.fin 3, .fin 4, .fin 7])

/-- The constant `0.000001` of `rainbow` is positive in exact arithmetic ... -/
theorem rainbow_constant_exact : ((0 : XF) <. 0.000001) = true := by
  rw [is_lt is_zero (is_sci _ _ _)]
  norm_num

/-- ... and in `f64`. -/
theorem rainbow_constant_f64 : ((0 : F64) <. 0.000001) = true := by
  obtain ⟨r, hr, hb⟩ := accurate64.round (x := (0.000001 : F64)) (a := 0.000001) (K := 0.000001) ⟨false, rfl⟩ (by norm_num [abs_of_pos])
    (by
      have h1 : (2⁻¹ : ℝ) ^ 1075 ≤ 1 := pow_le_one₀ (by norm_num) (by norm_num)
      have h2 : (1 : ℝ) ≤ 2 ^ 971 := one_le_pow₀ (by norm_num)
      generalize (2⁻¹ : ℝ) ^ 1075 = e at *
      unfold max64 unit64
      generalize (2 : ℝ) ^ 971 = E at *
      norm_num
      linarith)
  rw [is_lt isZero hr]
  have := abs_le.1 hb
  have h2 : unit64 * 0.000001 + (2⁻¹ : ℝ) ^ 1075 < 0.000001 := by
    have h1 : (2⁻¹ : ℝ) ^ 1075 ≤ 2⁻¹ ^ 40 := pow_le_pow_of_le_one (by norm_num) (by norm_num) (by norm_num)
    generalize (2⁻¹ : ℝ) ^ 1075 = e at *
    norm_num [unit64] at *
    linarith
  exact decide_eq_true (by linarith [this.1])

example (data : List F64) (w l : ℕ) : Alike (Each fun b b' => Opposite b.1 b'.1 ∧ SameNumber b.2 b'.2)
    (Momentum.rainbow data w l) (Momentum.rainbow (mirror data) w l) :=
  Momentum.rainbow_mirror rainbow_constant_f64 (each_mirror_odd data) w l

/-- Pearson's coefficient: one series mirrored, both mirrored. -/
example (x y : List F64) (w : ℕ) : Alike (Each Opposite) (Correlation.pcc x y w) (Correlation.pcc (mirror x) y w) :=
  Correlation.pcc_mirror (p := .odd) (q := .eq) (each_mirror_odd x) each_par_lit w

example (x y : List F64) (w : ℕ) : Alike (Each SameNumber) (Correlation.pcc x y w) (Correlation.pcc (mirror x) (mirror y) w) :=
  Correlation.pcc_mirror (p := .odd) (q := .odd) (each_mirror_odd x) (each_mirror_odd y) w

/-- Four prices with rises and falls. -/
example : Alike (Each Complement) (Momentum.rsi [.fin 1, .fin 5, .fin 3, .fin 4] 2) (Momentum.rsi (mirror [.fin 1, .fin 5, .fin 3, .fin 4]) 2) :=
  Momentum.rsi_mirror _ 2 (by decide) (by decide) (by simp [Fins, FP.Finite])

example : Alike (Each Complement) (Momentum.tii [.fin 1, .fin 5, .fin 3, .fin 4] 2) (Momentum.tii (mirror [.fin 1, .fin 5, .fin 3, .fin 4]) 2) :=
  Momentum.tii_mirror _ 2 (by decide) (by decide) (by simp [Fins, FP.Finite])

/-- Three bars of which no two have an empty range. -/
example : Alike (Each fun x y : XF => SameNumber (-100 - x) y) (Momentum.wpr [.fin 4, .fin 5, .fin 9] [.fin 1, .fin 2, .fin 2] [.fin 3, .fin 4, .fin 7] 2)
    (Momentum.wpr (mirror [.fin 1, .fin 2, .fin 2]) (mirror [.fin 4, .fin 5, .fin 9]) (mirror [.fin 3, .fin 4, .fin 7]) 2) := by
  refine Momentum.wpr_mirror _ _ _ 2 (by decide) (by decide) (by simp [Fins, FP.Finite]) (by simp [Fins, FP.Finite]) (by simp [Fins, FP.Finite]) rfl rfl ?_
  intro i h1 h2
  obtain rfl | rfl : i = 1 ∨ i = 2 := by simp at h2; omega
  all_goals norm_num [recent, vals, FP.val, maxOf, minOf]

example : Alike (Each (Both Complement Complement)) (Momentum.stoch [.fin 4, .fin 5, .fin 9] [.fin 1, .fin 2, .fin 2] [.fin 3, .fin 4, .fin 7] 2 2)
    (Momentum.stoch (mirror [.fin 1, .fin 2, .fin 2]) (mirror [.fin 4, .fin 5, .fin 9]) (mirror [.fin 3, .fin 4, .fin 7]) 2 2) := by
  refine Momentum.stoch_mirror _ _ _ 2 2 (by decide) (by decide) (by decide) (by simp [Fins, FP.Finite]) (by simp [Fins, FP.Finite])
    (by simp [Fins, FP.Finite]) rfl rfl ?_
  intro i h1 h2
  obtain rfl | rfl : i = 1 ∨ i = 2 := by simp at h2; omega
  all_goals norm_num [recent, vals, FP.val, maxOf, minOf]

/-- On-balance volume has no such symmetry: an unchanged close adds the volume, upright and upside down. -/
theorem obv_not_mirror : (∃ y : XF, Volume.obv [fin 5, fin 5] [fin 1, fin 20] = some [FP.nan, y] ∧ y ⇓ 20) ∧
    ∃ y : XF, Volume.obv (mirror [fin 5, fin 5]) [fin 1, fin 20] = some [FP.nan, y] ∧ y ⇓ 20 := by
  refine ⟨Volume.obv_unchanged_wrong, ?_⟩
  have hf : Fins ([fin 5, fin 5] : List XF) := by simp [Fins, FP.Finite]
  obtain ⟨out, e, h1, h2, h3⟩ := Volume.obv_accumulates (mirror [fin 5, fin 5]) [fin 1, fin 20] rfl (by simp [mirror]) (fins_mirror hf)
    (by simp [Fins, FP.Finite]) (by
      intro x hx
      obtain ⟨y, hy, rfl⟩ := List.mem_map.1 hx
      have : y = fin 5 := by simpa using hy
      subst this
      show FP.neg (fin 5) ≠ negz
      simp [FP.neg])
  obtain ⟨y, hy, hv⟩ := h3 1 le_rfl (by simp [mirror])
  have h0 := h2 0 (by norm_num) (by simp [mirror])
  refine ⟨y, ?_, hv.congr (by rw [vals_mirror hf]; simp [obvTerm, bar, FP.val, vals])⟩
  rw [e]
  match out, h1 with
  | [a, b], _ =>
    simp at h0 hy
    rw [h0, hy]; rfl

end Traquer
