import Verif.Lemmas.Relative
/-! Products and quotients that stay out of the subnormal range keep relative accuracy. -/

namespace Traquer
open FP FloatLit

variable {x y : F64} {a b : ℝ} {k l : ℕ}

/-- Zero, or far enough from zero for a rounding to be relative. -/
def Clear64 (a : ℝ) : Prop := a = 0 ∨ (2 : ℝ) ^ (-1021 : ℤ) ≤ |a|

/-- One rounding of a number that is off by at most the factor 2 from a clear one. -/
theorem Rel.round_clear {t : ℝ} (h : Rounds x (a * t)) (h1 : (off k)⁻¹ ≤ t) (h2 : t ≤ off k) (hk : 2 * k * unit64 ≤ 1)
    (hc : Clear64 a) (hB : 2 * |a| ≤ max64) : Rel x a (k + 1) := by
  have o2 := off_le_two hk
  have tp : 0 < t := lt_of_lt_of_le (inv_pos.2 (off_pos k)) h1
  have t1 : (1 / 2 : ℝ) ≤ t := by
    refine le_trans ?_ h1
    rw [one_div]
    exact inv_anti₀ (off_pos k) o2
  refine Rel.round h h1 h2 ?_ ?_
  · refine rnd64_relative ?_
    rcases hc with rfl | hc
    · exact .inl ⟨0, by simp⟩
    · right
      rw [abs_mul, abs_of_pos tp]
      have e : (2 : ℝ) ^ (-1021 : ℤ) = 2 ^ (-1022 : ℤ) * 2 := by rw [← zpow_add_one₀ (by norm_num)]; norm_num
      rw [e] at hc
      have : 0 < (2 : ℝ) ^ (-1022 : ℤ) := by positivity
      generalize (2 : ℝ) ^ (-1022 : ℤ) = z at *
      nlinarith [abs_nonneg a]
  · rw [abs_mul, abs_of_pos tp]
    nlinarith [abs_nonneg a]

theorem Rel.mul (hx : Rel x a k) (hy : Rel y b l) (hk : 2 * ((k + l : ℕ) : ℝ) * unit64 ≤ 1) (hc : Clear64 (a * b)) (hB : 2 * |a * b| ≤ max64) :
    Rel (x * y) (a * b) (k + l + 1) := by
  obtain ⟨t, hx, t1, t2, sx⟩ := hx
  obtain ⟨s, hy, s1, s2, sy⟩ := hy
  have tp : 0 < t := lt_of_lt_of_le (inv_pos.2 (off_pos k)) t1
  have sp : 0 < s := lt_of_lt_of_le (inv_pos.2 (off_pos l)) s1
  have h := rounds_mul hx hy
  rw [show a * t * (b * s) = a * b * (t * s) by ring] at h
  refine Rel.round_clear h ?_ ?_ hk hc hB
  · rw [off_add, mul_inv]
    exact mul_le_mul t1 s1 (inv_nonneg.2 (off_pos l).le) tp.le
  · rw [off_add]
    exact mul_le_mul t2 s2 sp.le (off_pos k).le

theorem Rel.quot (hx : Rel x a k) (hy : Rel y b l) (hb : b ≠ 0) (hk : 2 * ((k + l : ℕ) : ℝ) * unit64 ≤ 1) (hc : Clear64 (a / b))
    (hB : 2 * |a / b| ≤ max64) : Rel (x / y) (a / b) (k + l + 1) := by
  obtain ⟨t, hx, t1, t2, sx⟩ := hx
  obtain ⟨s, hy, s1, s2, sy⟩ := hy
  have tp : 0 < t := lt_of_lt_of_le (inv_pos.2 (off_pos k)) t1
  have sp : 0 < s := lt_of_lt_of_le (inv_pos.2 (off_pos l)) s1
  have h := rounds_div hx hy (mul_ne_zero hb sp.ne')
  rw [show a * t / (b * s) = a / b * (t / s) by field_simp] at h
  refine Rel.round_clear h ?_ ?_ hk hc hB
  · rw [off_add, mul_inv, div_eq_mul_inv]
    exact mul_le_mul t1 (inv_anti₀ sp s2) (inv_nonneg.2 (off_pos l).le) tp.le
  · rw [off_add, div_eq_mul_inv]
    exact mul_le_mul t2 (inv_le_of_inv_le₀ (off_pos l) s1) (inv_nonneg.2 sp.le) (off_pos k).le

/-- A stored number of at most `2^400`, and at least `2^-400` unless it is 0. -/
def Plain (x : F64) : Prop := Stored x ∧ ∃ r, x ⇓ r ∧ (r = 0 ∨ (2 : ℝ) ^ (-400 : ℤ) ≤ r) ∧ r ≤ 2 ^ 400

/-- A stored number between `2^-400` and `2^400`. -/
def Price (x : F64) : Prop := Stored x ∧ ∃ r, x ⇓ r ∧ (2 : ℝ) ^ (-400 : ℤ) ≤ r ∧ r ≤ 2 ^ 400

theorem Price.plain (h : Price x) : Plain x := let ⟨s, r, h1, h2, h3⟩ := h; ⟨s, r, h1, .inr h2, h3⟩
theorem Plain.rel (h : Plain x) : Rel x x.val 0 := by
  obtain ⟨s, r, h1, -⟩ := h
  rw [h1.2]
  exact Rel.of_is h1 s
theorem Plain.nonneg (h : Plain x) : 0 ≤ x.val := by
  obtain ⟨s, r, h1, h2, -⟩ := h
  rw [h1.2]
  rcases h2 with rfl | h2
  · exact le_rfl
  · exact le_trans (by positivity) h2
theorem Plain.le (h : Plain x) : x.val ≤ 2 ^ 400 := by
  obtain ⟨s, r, h1, -, h3⟩ := h
  rw [h1.2]
  exact h3
theorem Price.ge (h : Price x) : (2 : ℝ) ^ (-400 : ℤ) ≤ x.val := by
  obtain ⟨s, r, h1, h2, -⟩ := h
  rw [h1.2]
  exact h2
theorem Plain.clear (h : Plain x) : x.val = 0 ∨ (2 : ℝ) ^ (-400 : ℤ) ≤ x.val := by
  obtain ⟨s, r, h1, h2, -⟩ := h
  rw [h1.2]
  exact h2

theorem relLit (n : ℕ) [n.AtLeastTwo] (h : n ≤ 2 ^ 53) : Rel (OfNat.ofNat n : F64) (OfNat.ofNat n : ℝ) 0 :=
  Rel.of_is (isLit n h) fun r hr => by
    have e : (OfNat.ofNat n : ℝ) = r := (isLit (ρ := Rounding.binary64) n h).2.symm.trans hr.2
    have e' : ((n : ℕ) : ℝ) = r := by rw [← e]; rfl
    rw [← e']
    exact ⟨Rounding.binary64.nat n h, Rounding.binary64.fits_nat n h⟩

theorem relZero : Rel (0 : F64) 0 0 := Rel.of_is isZero stored_zero

theorem clear_of_le {e : ℤ} (he : -1021 ≤ e) (h : (2 : ℝ) ^ e ≤ a) : Clear64 a :=
  .inr (((zpow_le_zpow_iff_right₀ (by norm_num)).2 he).trans (h.trans (le_abs_self a)))

theorem max64_ge : (2 : ℝ) ^ 1000 ≤ max64 := by
  unfold max64
  have : (2 : ℝ) ^ 1000 = 2 ^ 29 * 2 ^ 971 := by rw [← pow_add]
  rw [this]
  refine mul_le_mul_of_nonneg_right ?_ (pow_nonneg (by norm_num) _)
  norm_num

theorem fits_of_le {e : ℕ} (he : e ≤ 999) (h : |a| ≤ 2 ^ e) : 2 * |a| ≤ max64 := by
  refine le_trans ?_ max64_ge
  have : (2 : ℝ) ^ e ≤ 2 ^ 999 := pow_le_pow_right₀ (by norm_num) he
  have e2 : (2 : ℝ) ^ 1000 = 2 ^ 999 * 2 := pow_succ _ _
  rw [e2]
  generalize (2 : ℝ) ^ 999 = z at *
  linarith

/-- `k` units of relative error when `k` is below `2^40`. -/
theorem units_ok {k : ℕ} (h : k ≤ 2 ^ 40) : 2 * (k : ℝ) * unit64 ≤ 1 := by
  have h' : (k : ℝ) ≤ 2 ^ 40 := by exact_mod_cast h
  have := unit64_eq
  have := unit64_pos
  nlinarith

end Traquer
