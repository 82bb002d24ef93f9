import Verif.Arith.Binary64
import Verif.Spec.Scale
/-!
# 53-bit numbers with unbounded exponents

`float53` rounds to nearest, ties to even, like `f64`, but has no largest and no smallest exponent. It agrees with binary64 except on
results below `2 ^ -1022` (`float53_eq_binary64`) or beyond `f64::MAX`, and it commutes with every power of two (`scales_float53`).
-/

namespace Traquer

/-- Round to nearest, ties to even, with 53 bits. -/
noncomputable def rnd53 (x : ℝ) : ℝ := roundEven (x / 2 ^ (Int.log 2 |x| - 52)) * 2 ^ (Int.log 2 |x| - 52)

theorem rnd53_neg (x : ℝ) : rnd53 (-x) = -rnd53 x := by
  unfold rnd53
  rw [abs_neg, neg_div, roundEven_neg]
  push_cast
  ring

theorem rnd53_zero : rnd53 0 = 0 := by
  have := roundEven_int 0
  simp only [Int.cast_zero] at this
  simp [rnd53, this]

theorem log_zpow_mul (n : ℤ) {x : ℝ} (hx : x ≠ 0) : Int.log 2 |2 ^ n * x| = n + Int.log 2 |x| := by
  have h0 : 0 < |x| := abs_pos.2 hx
  have h1 : 0 < |2 ^ n * x| := abs_pos.2 (mul_ne_zero (two_zpow_pos n).ne' hx)
  have e : |2 ^ n * x| = 2 ^ n * |x| := by rw [abs_mul, abs_of_pos (two_zpow_pos n)]
  refine le_antisymm ?_ ?_
  · refine Int.lt_add_one_iff.1 ?_
    rw [← Int.lt_zpow_iff_log_lt (by norm_num) h1, e, add_assoc, zpow_add₀ (by norm_num)]
    push_cast
    exact mul_lt_mul_of_pos_left (by exact_mod_cast Int.lt_zpow_succ_log_self (b := 2) (by norm_num) |x|) (two_zpow_pos n)
  · rw [← Int.zpow_le_iff_le_log (by norm_num) h1, e, zpow_add₀ (by norm_num)]
    push_cast
    exact mul_le_mul_of_nonneg_left (by exact_mod_cast Int.zpow_log_le_self (b := 2) (by norm_num) h0) (two_zpow_pos n).le

theorem rnd53_zpow_mul (n : ℤ) (x : ℝ) : rnd53 (2 ^ n * x) = 2 ^ n * rnd53 x := by
  rcases eq_or_ne x 0 with rfl | hx
  · rw [mul_zero, rnd53_zero, mul_zero]
  have e : n + Int.log 2 |x| - 52 = n + (Int.log 2 |x| - 52) := by ring
  rw [rnd53, rnd53, log_zpow_mul n hx, e, zpow_add₀ (by norm_num), mul_div_mul_left _ _ (two_zpow_pos n).ne']
  ring

theorem rnd53_eq {x : ℝ} (h : -1022 ≤ Int.log 2 |x|) : rnd53 x = rnd64 x := by
  rw [rnd53, rnd64, lastBit, max_eq_left (by omega)]

theorem rnd53_shift (x : ℝ) {N : ℤ} (h : x = 0 ∨ -1022 ≤ N + Int.log 2 |x|) : rnd53 x = 2 ^ (-N) * rnd64 (2 ^ N * x) := by
  rcases eq_or_ne x 0 with rfl | hx
  · rw [mul_zero, rnd53_zero, rnd64_zero, mul_zero]
  · have h := h.resolve_left hx
    rw [← rnd53_eq (by rwa [log_zpow_mul N hx]), rnd53_zpow_mul, ← mul_assoc, ← zpow_add₀ (by norm_num)]
    simp

theorem enough (a b : ℤ) : ∃ N : ℤ, -1022 ≤ N + a ∧ -1022 ≤ N + b :=
  ⟨|a| + |b|, by have := neg_abs_le a; have := abs_nonneg b; omega, by have := neg_abs_le b; have := abs_nonneg a; omega⟩

theorem rnd53_mono (x y : ℝ) (h : x ≤ y) : rnd53 x ≤ rnd53 y := by
  obtain ⟨N, h1, h2⟩ := enough (Int.log 2 |x|) (Int.log 2 |y|)
  rw [rnd53_shift x (.inr h1), rnd53_shift y (.inr h2)]
  exact mul_le_mul_of_nonneg_left (rnd64_mono _ _ (mul_le_mul_of_nonneg_left h (two_zpow_pos _).le)) (two_zpow_pos _).le

theorem rnd53_exact {m e : ℤ} (hm : |m| ≤ 2 ^ 53) : rnd53 (m * 2 ^ e) = m * 2 ^ e := by
  obtain ⟨N, h1, h2⟩ := enough (Int.log 2 |(m : ℝ) * 2 ^ e|) e
  have h2 : -1074 ≤ N + e := by omega
  have e1 : (2 : ℝ) ^ N * (m * 2 ^ e) = m * 2 ^ (N + e) := by rw [zpow_add₀ (by norm_num)]; ring
  rw [rnd53_shift _ (.inr h1), e1, rnd64_exact hm h2, zpow_add₀ (by norm_num)]
  rw [mul_left_comm, ← mul_assoc ((2 : ℝ) ^ (-N)), ← zpow_add₀ (by norm_num)]
  simp

theorem rnd53_idem (x : ℝ) : rnd53 (rnd53 x) = rnd53 x := by
  obtain ⟨N, h, -⟩ := enough (Int.log 2 |x|) 0
  obtain ⟨m, e, hm, -, he⟩ := rnd64_repr (2 ^ N * x)
  have : rnd53 x = m * 2 ^ (e - N) := by
    rw [rnd53_shift x (.inr h), he, sub_eq_neg_add, zpow_add₀ (by norm_num)]; ring
  rw [this, rnd53_exact hm]

/-- 53-bit numbers, round to nearest, ties to even, no overflow and no underflow. -/
noncomputable def Rounding.float53 : Rounding where
  rnd := rnd53
  fits := fun _ => True
  mono := rnd53_mono
  odd := rnd53_neg
  idem := rnd53_idem
  nat := fun n hn => by
    have := rnd53_exact (m := n) (e := 0) (by rw [abs_of_nonneg (by omega)]; exact_mod_cast hn)
    simpa using this
  fits_mono := fun _ _ _ _ => trivial
  fits_nat := fun _ _ => trivial

/-- Above the smallest normal number the rounding is that of binary64. -/
theorem float53_eq_binary64 {x : ℝ} (h : (2 : ℝ) ^ (-1022 : ℤ) ≤ |x|) : Rounding.float53.rnd x = Rounding.binary64.rnd x := by
  refine rnd53_eq ?_
  rw [← Int.zpow_le_iff_le_log (by norm_num) ((two_zpow_pos _).trans_le h)]
  exact_mod_cast h

/-- Powers of two scale 53-bit numbers. -/
theorem scales_float53 (n : ℤ) : Rounding.float53.Scales (2 ^ n) where
  pos := two_zpow_pos n
  rnd_mul := rnd53_zpow_mul n
  fits_mul := fun _ => Iff.rfl

end Traquer
