import Verif.Lemmas.Error
import Verif.Lemmas.ErrorStep
import Verif.Lemmas.Averages
import Verif.Props.Error
import Verif.Props.ErrorDispersion
/-!
# Rounding errors counted in units of `2^-53 * M`

`Nearly M x a c k`: the binary64 number `x` is within `k * 2^-53 * M` of the real number `a`, which is at most `c * M` in magnitude. Every
operation adds a bounded number of units.
-/

namespace Traquer
open FP FloatLit

/-- `x` is within `k` units of `a`, and `a` is at most `c * M` in magnitude. -/
structure Nearly (M : ℝ) (x : F64) (a c k : ℝ) : Prop where
  approx : Approx x a (k * unit64 * M)
  bound : |a| ≤ c * M

/-- Magnitudes for which sums of up to `2^60` terms neither overflow nor lose their relative accuracy. -/
structure Sized (M : ℝ) : Prop where
  low : tiny64 ≤ M
  high : M ≤ 2 ^ 900

theorem unit64_eq : unit64 * 2 ^ 53 = 1 := by unfold unit64; norm_num
theorem unit64_pos : 0 < unit64 := by unfold unit64; positivity

namespace Sized
variable {M : ℝ} (h : Sized M)
include h
theorem pos : 0 < M := tiny64_pos.trans_le h.low
theorem nonneg : 0 ≤ M := h.pos.le
theorem unit_nonneg : 0 ≤ unit64 * M := mul_nonneg accurate64.u0 h.nonneg
theorem units {k : ℝ} (hk : k ≤ 2 ^ 53) : k * unit64 * M ≤ M := by
  have h1 : k * unit64 ≤ 1 := by
    have := mul_le_mul_of_nonneg_right hk accurate64.u0
    rwa [mul_comm (2 ^ 53) unit64, unit64_eq] at this
  exact mul_le_of_le_one_left h.nonneg h1

theorem fits {K : ℝ} (hK : K ≤ 2 ^ 62 * M) (h0 : 0 ≤ K) : K + (unit64 * K + 2⁻¹ ^ 1075) ≤ max64 := by
  have h1 : K ≤ 2 ^ 962 := hK.trans (by
    have := mul_le_mul_of_nonneg_left h.high (by positivity : (0 : ℝ) ≤ 2 ^ 62)
    rwa [← pow_add] at this)
  have h2 : unit64 * K ≤ K := mul_le_of_le_one_left h0 (by unfold unit64; norm_num)
  have h3 : (2⁻¹ ^ 1075 : ℝ) ≤ 1 := pow_le_one₀ (by norm_num) (by norm_num)
  have h4 : (2 : ℝ) ^ 1000 ≤ max64 := by
    unfold max64
    have : (2 : ℝ) ^ 1000 = 2 ^ 29 * 2 ^ 971 := by rw [← pow_add]
    rw [this]
    exact mul_le_mul_of_nonneg_right (by norm_num) (by positivity)
  have h5 : (4 : ℝ) * 2 ^ 962 ≤ 2 ^ 1000 := by
    have : (2 : ℝ) ^ 1000 = 2 ^ 38 * 2 ^ 962 := by rw [← pow_add]
    rw [this]
    exact mul_le_mul_of_nonneg_right (by norm_num) (by positivity)
  have h6 : (1 : ℝ) ≤ 2 ^ 962 := one_le_pow₀ (by norm_num)
  generalize (2 : ℝ) ^ 962 = A at h1 h5 h6
  generalize (2 : ℝ) ^ 1000 = C at h4 h5
  generalize (2⁻¹ ^ 1075 : ℝ) = D at h3 ⊢
  linarith
end Sized

theorem sized_one : Sized 1 where
  low := pow_le_one₀ (by norm_num) (by norm_num)
  high := one_le_pow₀ (by norm_num)

namespace Nearly
variable {M N : ℝ} {x y : F64} {a b c d k j : ℝ}

theorem mono (h : Nearly M x a c k) (hM : Sized M) {c' k' : ℝ} (hc : c ≤ c') (hk : k ≤ k') : Nearly M x a c' k' where
  approx := h.approx.mono (by
    rw [mul_assoc, mul_assoc]
    exact mul_le_mul_of_nonneg_right hk hM.unit_nonneg)
  bound := h.bound.trans (mul_le_mul_of_nonneg_right hc hM.nonneg)

/-- An exact number. -/
theorem exact (h : x ⇓ a) (ha : |a| ≤ c * M) : Nearly M x a c 0 where
  approx := by simpa using Approx.is h
  bound := ha

theorem c_nonneg (h : Nearly M x a c k) (hM : Sized M) : 0 ≤ c := by
  have := (abs_nonneg a).trans h.bound
  by_contra hc
  push Not at hc
  nlinarith [hM.pos]

theorem k_nonneg (h : Nearly M x a c k) (hM : Sized M) : 0 ≤ k := by
  obtain ⟨r, -, e⟩ := h.approx
  have := (abs_nonneg _).trans e
  by_contra hc
  push Not at hc
  nlinarith [mul_pos unit64_pos hM.pos]

/-- One rounding. -/
theorem of_rounds (hM : Sized M) {a' : ℝ} (h : Rounds x a') (he : |a' - a| ≤ k * unit64 * M) (ha : |a| ≤ c * M) (hk : k ≤ 2 ^ 53)
    (hc : c ≤ 2 ^ 60) : Nearly M x a c (k + c + 2) where
  bound := ha
  approx := by
    have c0 : 0 ≤ (c + 1) * M := by
      have := (abs_nonneg a).trans ha
      have := hM.nonneg
      linarith
    have := accurate64.step (K := (c + 1) * M) h he (by have := hM.units hk; linarith)
      (hM.fits (mul_le_mul_of_nonneg_right (by linarith) hM.nonneg) c0)
    exact this.mono (by have := underflow64 hM.low; linarith)

theorem add (hM : Sized M) (h1 : Nearly M x a c k) (h2 : Nearly M y b d j) (hk : k + j ≤ 2 ^ 53) (hc : c + d ≤ 2 ^ 60) :
    Nearly M (x + y) (a + b) (c + d) (k + j + (c + d) + 2) := by
  obtain ⟨r, hr, er⟩ := h1.approx
  obtain ⟨s, hs, es⟩ := h2.approx
  refine of_rounds hM (rounds_add hr hs) ?_ ?_ hk hc
  · rw [add_sub_add_comm]
    exact (abs_add_le _ _).trans (by linarith)
  · exact (abs_add_le _ _).trans (by have := h1.bound; have := h2.bound; linarith)

theorem sub (hM : Sized M) (h1 : Nearly M x a c k) (h2 : Nearly M y b d j) (hk : k + j ≤ 2 ^ 53) (hc : c + d ≤ 2 ^ 60) :
    Nearly M (x - y) (a - b) (c + d) (k + j + (c + d) + 2) := by
  obtain ⟨r, hr, er⟩ := h1.approx
  obtain ⟨s, hs, es⟩ := h2.approx
  refine of_rounds hM (rounds_sub hr hs) ?_ ?_ hk hc
  · rw [sub_sub_sub_comm]
    exact (abs_sub _ _).trans (by linarith)
  · exact (abs_sub _ _).trans (by have := h1.bound; have := h2.bound; linarith)

/-- A product: the magnitudes multiply. -/
theorem mul (hM : Sized M) (hN : Sized N) (hMN : Sized (M * N)) (h1 : Nearly M x a c k) (h2 : Nearly N y b d j) (hk : k ≤ 2 ^ 53)
    (hkj : k * d + j + c * j ≤ 2 ^ 53) (hc : c * d ≤ 2 ^ 60) :
    Nearly (M * N) (x * y) (a * b) (c * d) (k * d + j + c * j + c * d + 2) := by
  obtain ⟨r, hr, er⟩ := h1.approx
  obtain ⟨s, hs, es⟩ := h2.approx
  have k0 := h1.k_nonneg hM
  have j0 := h2.k_nonneg hN
  have c0 := h1.c_nonneg hM
  have u0 := accurate64.u0
  have M0 := hM.nonneg
  have N0 := hN.nonneg
  refine of_rounds hMN (rounds_mul hr hs) ?_ ?_ hkj hc
  · refine (mul_near er es).trans ?_
    have hs' : |s| ≤ d * N + j * unit64 * N := (abs_near es).trans (by have := h2.bound; linarith)
    have J0 : 0 ≤ j * unit64 * N := mul_nonneg (mul_nonneg j0 u0) N0
    have e1 : k * unit64 * M * |s| ≤ k * unit64 * M * (d * N + j * unit64 * N) :=
      mul_le_mul_of_nonneg_left hs' (mul_nonneg (mul_nonneg k0 u0) M0)
    have e2 : |a| * (j * unit64 * N) ≤ c * M * (j * unit64 * N) := mul_le_mul_of_nonneg_right h1.bound J0
    have e3 : k * unit64 * M * (j * unit64 * N) ≤ M * (j * unit64 * N) := mul_le_mul_of_nonneg_right (hM.units hk) J0
    linarith
  · rw [abs_mul]
    have := mul_le_mul h1.bound h2.bound (abs_nonneg _) (by positivity)
    linarith

/-- A multiple by an exact number. -/
theorem smul (hM : Sized M) {q : ℝ} (h1 : y ⇓ q) (h2 : Nearly M x a c k) (hk : |q| * k ≤ 2 ^ 53) (hc : |q| * c ≤ 2 ^ 60) :
    Nearly M (y * x) (q * a) (|q| * c) (|q| * k + |q| * c + 2) := by
  obtain ⟨r, hr, er⟩ := h2.approx
  refine of_rounds hM (rounds_mul h1 hr) ?_ ?_ hk hc
  · rw [← mul_sub, abs_mul]
    have := mul_le_mul_of_nonneg_left er (abs_nonneg q)
    linarith
  · rw [abs_mul]
    have := mul_le_mul_of_nonneg_left h2.bound (abs_nonneg q)
    linarith

/-- The same, written the other way round. -/
theorem mulr (hM : Sized M) {q : ℝ} (h2 : Nearly M x a c k) (h1 : y ⇓ q) (hk : |q| * k ≤ 2 ^ 53) (hc : |q| * c ≤ 2 ^ 60) :
    Nearly M (x * y) (a * q) (|q| * c) (|q| * k + |q| * c + 2) := by
  obtain ⟨r, hr, er⟩ := h2.approx
  refine of_rounds hM (rounds_mul hr h1) ?_ ?_ hk hc
  · rw [← sub_mul, abs_mul]
    have := mul_le_mul_of_nonneg_right er (abs_nonneg q)
    linarith
  · rw [abs_mul]
    have := mul_le_mul_of_nonneg_right h2.bound (abs_nonneg q)
    linarith

/-- A division by an exact positive number. -/
theorem div (hM : Sized M) {q : ℝ} (h2 : Nearly M x a c k) (h1 : y ⇓ q) (hq : 0 < q) (hk : k / q ≤ 2 ^ 53) (hc : c / q ≤ 2 ^ 60) :
    Nearly M (x / y) (a / q) (c / q) (k / q + c / q + 2) := by
  obtain ⟨r, hr, er⟩ := h2.approx
  refine of_rounds hM (rounds_div hr h1 hq.ne') ?_ ?_ hk hc
  · rw [← sub_div, abs_div, abs_of_pos hq, div_mul_eq_mul_div, div_mul_eq_mul_div]
    exact div_le_div_of_nonneg_right er hq.le
  · rw [abs_div, abs_of_pos hq, div_mul_eq_mul_div]
    exact div_le_div_of_nonneg_right h2.bound hq.le

theorem fabs (h : Nearly M x a c k) : Nearly M (fabs x) |a| c k where
  approx := by
    obtain ⟨r, hr, er⟩ := h.approx
    exact ⟨|r|, is_abs hr, (abs_abs_sub_abs_le _ _).trans er⟩
  bound := by rw [abs_abs]; exact h.bound

theorem fmax (hM : Sized M) (h1 : Nearly M x a c k) (h2 : Nearly M y b c k) : Nearly M (fmax x y) (max a b) c k where
  approx := by
    obtain ⟨r, hr, er⟩ := h1.approx
    obtain ⟨s, hs, es⟩ := h2.approx
    exact ⟨max r s, is_fmax hr hs, (abs_max_sub_max_le_max _ _ _ _).trans (max_le er es)⟩
  bound := by
    have h1 := abs_le.1 h1.bound
    have h2 := abs_le.1 h2.bound
    exact abs_le.2 ⟨le_max_of_le_left h1.1, max_le h1.2 h2.2⟩

theorem fmin (hM : Sized M) (h1 : Nearly M x a c k) (h2 : Nearly M y b c k) : Nearly M (fmin x y) (min a b) c k where
  approx := by
    obtain ⟨r, hr, er⟩ := h1.approx
    obtain ⟨s, hs, es⟩ := h2.approx
    exact ⟨min r s, is_fmin hr hs, (abs_min_sub_min_le_max _ _ _ _).trans (max_le er es)⟩
  bound := by
    have h1 := abs_le.1 h1.bound
    have h2 := abs_le.1 h2.bound
    exact abs_le.2 ⟨le_min h1.1 h2.1, min_le_of_left_le h1.2⟩

end Nearly
end Traquer
