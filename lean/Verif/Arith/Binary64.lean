import Verif.Arith.FP
import Mathlib.Data.Int.Log
import Mathlib.Algebra.Order.Round
/-!
# The rounding of `f64`

`binary64` is round-to-nearest, ties to even, on numbers with 53 significant bits and no exponent below -1074, with overflow beyond
`f64::MAX`. It satisfies the laws of `Rounding`, so every theorem about `FP ρ` for all `ρ` is a theorem about IEEE binary64.
-/

namespace Traquer

/-- The integer nearest to `y`, the even one of two equally near. -/
noncomputable def roundEven (y : ℝ) : ℤ :=
  if Int.fract y < 1 / 2 then ⌊y⌋ else if 1 / 2 < Int.fract y then ⌊y⌋ + 1 else if Even ⌊y⌋ then ⌊y⌋ else ⌊y⌋ + 1

theorem roundEven_bounds (y : ℝ) : ⌊y⌋ ≤ roundEven y ∧ roundEven y ≤ ⌊y⌋ + 1 := by
  unfold roundEven
  split
  · omega
  split
  · omega
  split <;> omega

theorem roundEven_near (y : ℝ) : |(roundEven y : ℝ) - y| ≤ 1 / 2 := by
  have h := Int.self_sub_floor y
  have h0 := Int.fract_nonneg y
  have h1 := Int.fract_lt_one y
  unfold roundEven
  rw [abs_le]
  split
  · constructor <;> linarith
  split
  · push_cast; constructor <;> linarith
  split
  · constructor <;> linarith
  · push_cast; constructor <;> linarith

theorem roundEven_int (n : ℤ) : roundEven n = n := by
  simp [roundEven]

theorem roundEven_mono {x y : ℝ} (h : x ≤ y) : roundEven x ≤ roundEven y := by
  rcases (Int.floor_le_floor h).eq_or_lt with he | hl
  · have hx := Int.self_sub_floor x
    have hy := Int.self_sub_floor y
    have hf : Int.fract x ≤ Int.fract y := by rw [← hx, ← hy, he]; linarith
    unfold roundEven
    rw [he]
    split_ifs <;> first | omega | (exfalso; linarith)
  · have := (roundEven_bounds x).2
    have := (roundEven_bounds y).1
    omega

theorem roundEven_neg (y : ℝ) : roundEven (-y) = -roundEven y := by
  by_cases hz : Int.fract y = 0
  · obtain ⟨n, hn⟩ : ∃ n : ℤ, y = n := ⟨⌊y⌋, by have := Int.self_sub_floor y; linarith⟩
    rw [hn, ← Int.cast_neg, roundEven_int, roundEven_int]
  · have hf : Int.fract (-y) = 1 - Int.fract y := Int.fract_neg hz
    have hfl : ⌊-y⌋ = -⌊y⌋ - 1 := by
      have h1 := Int.self_sub_floor y
      have h2 := Int.self_sub_floor (-y)
      have : (⌊-y⌋ : ℝ) = ((-⌊y⌋ - 1 : ℤ) : ℝ) := by push_cast; linarith
      exact_mod_cast this
    unfold roundEven
    rw [hf, hfl]
    split_ifs with a b c d e f g <;> first | omega | (exfalso; linarith) | skip
    all_goals (simp only [Int.even_sub, even_neg] at *; grind)

/-- The exponent of the last bit of a number of the size of `x`. -/
noncomputable def lastBit (x : ℝ) : ℤ := max (Int.log 2 |x| - 52) (-1074)

/-- Round to nearest, ties to even, with 53 bits and exponents from -1074 on. -/
noncomputable def rnd64 (x : ℝ) : ℝ := roundEven (x / 2 ^ lastBit x) * 2 ^ lastBit x

theorem two_zpow_pos (e : ℤ) : (0 : ℝ) < 2 ^ e := zpow_pos (by norm_num) e

theorem rnd64_neg (x : ℝ) : rnd64 (-x) = -rnd64 x := by
  unfold rnd64 lastBit
  rw [abs_neg, neg_div, roundEven_neg]
  push_cast
  ring

theorem lt_last (x : ℝ) : |x| < 2 ^ (lastBit x + 53) := by
  have h := Int.lt_zpow_succ_log_self (b := 2) (by norm_num) |x|
  refine h.trans_le ?_
  push_cast
  exact zpow_le_zpow_right₀ (by norm_num) (by unfold lastBit; omega)

theorem rnd64_zero : rnd64 0 = 0 := by
  have := roundEven_int 0
  simp only [Int.cast_zero] at this
  simp [rnd64, this]

/-- Numbers with 53 significant bits are not changed. -/
theorem rnd64_exact {m e : ℤ} (hm : |m| ≤ 2 ^ 53) (he : -1074 ≤ e) : rnd64 (m * 2 ^ e) = m * 2 ^ e := by
  have key : ∀ k : ℤ, ((m : ℝ) * 2 ^ e) = k * 2 ^ lastBit (m * 2 ^ e) → rnd64 (m * 2 ^ e) = m * 2 ^ e := by
    intro k hk
    have : (m : ℝ) * 2 ^ e / 2 ^ lastBit (m * 2 ^ e) = k := by
      rw [div_eq_iff (two_zpow_pos _).ne']; exact hk
    rw [rnd64, this, roundEven_int, ← hk]
  rcases eq_or_ne m 0 with rfl | h0
  · simp [rnd64_zero]
  have habs : |(m : ℝ) * 2 ^ e| = (|m| : ℤ) * 2 ^ e := by rw [abs_mul, abs_of_pos (two_zpow_pos e), Int.cast_abs]
  have hpos : (0 : ℝ) < |(m : ℝ) * 2 ^ e| := by
    rw [abs_pos]
    exact mul_ne_zero (by exact_mod_cast h0) (two_zpow_pos e).ne'
  rcases hm.lt_or_eq with hlt | heq
  · have hl : lastBit (m * 2 ^ e) ≤ e := by
      unfold lastBit
      have : Int.log 2 |(m : ℝ) * 2 ^ e| < 53 + e := by
        rw [← Int.lt_zpow_iff_log_lt (by norm_num) hpos, habs, zpow_add₀ (by push_cast; norm_num)]
        refine mul_lt_mul_of_pos_right ?_ (two_zpow_pos e)
        exact_mod_cast hlt
      omega
    refine key (m * 2 ^ (e - lastBit (m * 2 ^ e)).toNat) ?_
    push_cast
    rw [← zpow_natCast, Int.toNat_of_nonneg (by omega), mul_assoc, ← zpow_add₀ (by norm_num)]
    congr 2
    omega
  · have hl : lastBit (m * 2 ^ e) = e + 1 := by
      unfold lastBit
      have : Int.log 2 |(m : ℝ) * 2 ^ e| = 53 + e := by
        rw [habs, heq]
        have : (((2 ^ 53 : ℤ) : ℝ) * 2 ^ e) = ((2 : ℕ) : ℝ) ^ (53 + e) := by
          rw [zpow_add₀ (by push_cast; norm_num)]; norm_num
        rw [this, Int.log_zpow (by norm_num)]
      omega
    have h53 : m = 2 ^ 53 ∨ m = -2 ^ 53 := (abs_eq (by norm_num)).1 heq
    rcases h53 with rfl | rfl
    · refine key (2 ^ 52) ?_
      rw [hl, zpow_add₀ (by norm_num)]
      push_cast
      ring
    · refine key (-2 ^ 52) ?_
      rw [hl, zpow_add₀ (by norm_num)]
      push_cast
      ring

/-- The result has 53 significant bits. -/
theorem rnd64_repr (x : ℝ) : ∃ m e : ℤ, |m| ≤ 2 ^ 53 ∧ -1074 ≤ e ∧ rnd64 x = m * 2 ^ e := by
  refine ⟨roundEven (x / 2 ^ lastBit x), lastBit x, ?_, by unfold lastBit; omega, rfl⟩
  have h := lt_last x
  rw [zpow_add₀ (by norm_num)] at h
  have hp := two_zpow_pos (lastBit x)
  have h' : |x / 2 ^ lastBit x| ≤ 2 ^ 53 := by
    rw [abs_div, abs_of_pos hp, div_le_iff₀ hp]
    refine h.le.trans_eq ?_
    rw [mul_comm]
    norm_num
  rw [abs_le] at h' ⊢
  constructor
  · have := roundEven_mono h'.1
    have e : roundEven (-2 ^ 53) = -2 ^ 53 := by
      rw [← roundEven_int (-2 ^ 53)]
      norm_num
    rwa [e] at this
  · have := roundEven_mono h'.2
    have e : roundEven (2 ^ 53) = 2 ^ 53 := by
      rw [← roundEven_int (2 ^ 53)]
      norm_num
    rwa [e] at this

theorem rnd64_idem (x : ℝ) : rnd64 (rnd64 x) = rnd64 x := by
  obtain ⟨m, e, hm, he, h⟩ := rnd64_repr x
  rw [h, rnd64_exact hm he]

theorem rnd64_nonneg {x : ℝ} (h : 0 ≤ x) : 0 ≤ rnd64 x := by
  refine mul_nonneg ?_ (two_zpow_pos _).le
  have := roundEven_mono (div_nonneg h (two_zpow_pos (lastBit x)).le)
  have e := roundEven_int 0
  push_cast at e
  rw [e] at this
  exact_mod_cast this

theorem rnd64_mono_pos {x y : ℝ} (hx : 0 < x) (h : x ≤ y) : rnd64 x ≤ rnd64 y := by
  have hy : 0 < y := hx.trans_le h
  have hlog : Int.log 2 |x| ≤ Int.log 2 |y| := Int.log_mono_right (by rwa [abs_of_pos hx]) (by rwa [abs_of_pos hx, abs_of_pos hy])
  have hb : lastBit x ≤ lastBit y := by unfold lastBit; omega
  rcases hb.eq_or_lt with he | hlt
  · unfold rnd64
    rw [he]
    refine mul_le_mul_of_nonneg_right ?_ (two_zpow_pos _).le
    exact_mod_cast roundEven_mono (div_le_div_of_nonneg_right h (two_zpow_pos _).le)
  · -- a power of two between
    have hly : lastBit y = Int.log 2 |y| - 52 := by unfold lastBit at *; omega
    have h1 : x ≤ 2 ^ (Int.log 2 |y|) := by
      have := lt_last x
      rw [abs_of_pos hx] at this
      exact this.le.trans (zpow_le_zpow_right₀ (by norm_num) (by omega))
    have h2 : (2 : ℝ) ^ (Int.log 2 |y|) ≤ y := by
      have := Int.zpow_log_le_self (b := 2) (by norm_num) (show 0 < |y| by rwa [abs_of_pos hy])
      rw [abs_of_pos hy] at this ⊢
      exact_mod_cast this
    have l : rnd64 x ≤ 2 ^ (Int.log 2 |y|) := by
      have e1 : (2 : ℝ) ^ (Int.log 2 |y|) / 2 ^ lastBit x = ((2 ^ (Int.log 2 |y| - lastBit x).toNat : ℤ) : ℝ) := by
        push_cast
        rw [← zpow_natCast, Int.toNat_of_nonneg (by omega), zpow_sub₀ (by norm_num)]
      have := roundEven_mono (div_le_div_of_nonneg_right h1 (two_zpow_pos (lastBit x)).le)
      rw [e1, roundEven_int] at this
      have h3 : (roundEven (x / 2 ^ lastBit x) : ℝ) ≤ ((2 ^ (Int.log 2 |y| - lastBit x).toNat : ℤ) : ℝ) := by exact_mod_cast this
      rw [← e1, le_div_iff₀ (two_zpow_pos _)] at h3
      exact h3
    have g : (2 : ℝ) ^ (Int.log 2 |y|) ≤ rnd64 y := by
      have e1 : (2 : ℝ) ^ (Int.log 2 |y|) / 2 ^ lastBit y = ((2 ^ 52 : ℤ) : ℝ) := by
        rw [hly, ← zpow_sub₀ (by norm_num)]
        norm_num
      have := roundEven_mono (div_le_div_of_nonneg_right h2 (two_zpow_pos (lastBit y)).le)
      rw [e1, roundEven_int] at this
      have h3 : ((2 ^ 52 : ℤ) : ℝ) ≤ (roundEven (y / 2 ^ lastBit y) : ℝ) := by exact_mod_cast this
      rw [← e1, div_le_iff₀ (two_zpow_pos _)] at h3
      exact h3
    exact l.trans g

theorem rnd64_mono (x y : ℝ) (h : x ≤ y) : rnd64 x ≤ rnd64 y := by
  rcases lt_trichotomy x 0 with hx | rfl | hx
  · rcases lt_or_ge y 0 with hy | hy
    · have := rnd64_mono_pos (show 0 < -y by linarith) (show -y ≤ -x by linarith)
      rw [rnd64_neg, rnd64_neg] at this
      linarith
    · have := rnd64_nonneg (show 0 ≤ -x by linarith)
      rw [rnd64_neg] at this
      linarith [rnd64_nonneg hy]
  · rw [rnd64_zero]
    exact rnd64_nonneg h
  · exact rnd64_mono_pos hx h

/-- `f64::MAX` -/
noncomputable def max64 : ℝ := (2 ^ 53 - 1) * 2 ^ 971

/-- IEEE binary64, round to nearest, ties to even. -/
noncomputable def Rounding.binary64 : Rounding where
  rnd := rnd64
  fits := fun x => |x| ≤ max64
  mono := rnd64_mono
  odd := rnd64_neg
  idem := rnd64_idem
  nat := fun n hn => by
    have := rnd64_exact (m := n) (e := 0) (by rw [abs_of_nonneg (by omega)]; exact_mod_cast hn) (by norm_num)
    simpa using this
  fits_mono := fun x y h hy => h.trans hy
  fits_nat := fun n hn => by
    rw [abs_of_nonneg (by positivity)]
    have h1 : (n : ℝ) ≤ 2 ^ 53 := by exact_mod_cast hn
    refine h1.trans ?_
    unfold max64
    have : (2 : ℝ) ^ 1 ≤ 2 ^ 971 := pow_le_pow_right₀ (by norm_num) (by norm_num)
    generalize (2 : ℝ) ^ 971 = p at *
    norm_num at *
    linarith

/-- The error of rounding: half a unit in the last of 53 bits, or half of the smallest positive number. -/
theorem rnd64_error (x : ℝ) : |rnd64 x - x| ≤ 2⁻¹ ^ 53 * |x| + 2⁻¹ ^ 1075 := by
  have hp := two_zpow_pos (lastBit x)
  have h : |rnd64 x - x| ≤ 2 ^ lastBit x / 2 := by
    have e : rnd64 x - x = (roundEven (x / 2 ^ lastBit x) - x / 2 ^ lastBit x) * 2 ^ lastBit x := by
      rw [sub_mul, div_mul_cancel₀ _ hp.ne']
      rfl
    rw [e, abs_mul, abs_of_pos hp]
    have := mul_le_mul_of_nonneg_right (roundEven_near (x / 2 ^ lastBit x)) hp.le
    linarith
  rcases eq_or_ne x 0 with rfl | hx
  · rw [rnd64_zero]
    simp
  have hlog : (2 : ℝ) ^ Int.log 2 |x| ≤ |x| := by
    have := Int.zpow_log_le_self (b := 2) (by norm_num) (abs_pos.2 hx)
    exact_mod_cast this
  refine h.trans ?_
  rcases le_total (-1074) (Int.log 2 |x| - 52) with hl | hl
  · have e : lastBit x = Int.log 2 |x| - 52 := by unfold lastBit; omega
    rw [e, zpow_sub₀ (by norm_num)]
    have e2 : (2 : ℝ) ^ Int.log 2 |x| / 2 ^ (52 : ℤ) / 2 = 2⁻¹ ^ 53 * 2 ^ Int.log 2 |x| := by
      rw [show (52 : ℤ) = ((52 : ℕ) : ℤ) by norm_num, zpow_natCast]
      field_simp
    rw [e2]
    exact le_add_of_le_of_nonneg (mul_le_mul_of_nonneg_left hlog (by positivity)) (by positivity)
  · have e : lastBit x = -1074 := by unfold lastBit; omega
    have e2 : (2 : ℝ) ^ (-1074 : ℤ) / 2 = 2⁻¹ ^ 1075 := by
      have h := pow_succ (2⁻¹ : ℝ) 1074
      rw [show 1074 + 1 = 1075 by norm_num] at h
      rw [h, zpow_neg, show (1074 : ℤ) = ((1074 : ℕ) : ℤ) by norm_num, zpow_natCast, inv_pow, div_eq_mul_inv]
    rw [e, e2]
    exact le_add_of_nonneg_left (by positivity)

end Traquer
