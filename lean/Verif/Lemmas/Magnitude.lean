import Verif.Props.Averages64
import Verif.Props.Corr64
/-!
# Rounding errors together with the order of magnitude

To multiply and divide without losing relative accuracy a number must stay clear of underflow and overflow. `Mag` carries the two exponents along.
-/

namespace Traquer
open FP FloatLit Smooth

/-- `x` is `a` up to `k` roundings; `a` is 0 or at least `2^-lo` in size, and at most `2^hi`. -/
def Mag (k lo hi : ℕ) (x : F64) (a : ℝ) : Prop := Rel x a k ∧ (a = 0 ∨ ((2 : ℝ) ^ lo)⁻¹ ≤ |a|) ∧ |a| ≤ 2 ^ hi

variable {k k' lo lo' hi hi' : ℕ} {x y : F64} {a b : ℝ}

theorem two_inv_pow (n : ℕ) : ((2 : ℝ) ^ n)⁻¹ = 2 ^ (-(n : ℤ)) := by rw [zpow_neg, zpow_natCast]

theorem Mag.mono (h : Mag k lo hi x a) (hk : k ≤ k') (hl : lo ≤ lo') (hh : hi ≤ hi') : Mag k' lo' hi' x a :=
  ⟨h.1.mono hk, h.2.1.imp_right (le_trans (inv_anti₀ (by positivity) (pow_le_pow_right₀ (by norm_num) hl))), h.2.2.trans (pow_le_pow_right₀ (by norm_num) hh)⟩

theorem Mag.congr (h : Mag k lo hi x a) (e : a = b) : Mag k lo hi x b := e ▸ h

theorem Mag.clear (h : Mag k lo hi x a) (hl : lo ≤ 1021) : Clear64 a := by
  refine h.2.1.imp_right (le_trans ?_)
  rw [two_inv_pow]
  exact zpow_le_zpow_right₀ (by norm_num) (by omega)

theorem Mag.fits (h : Mag k lo hi x a) (hh : hi ≤ 999) : 2 * |a| ≤ max64 := fits_of_le hh h.2.2

theorem Mag.ne (h : Mag k lo hi x a) (h0 : a ≠ 0) : ((2 : ℝ) ^ lo)⁻¹ ≤ |a| := h.2.1.resolve_left h0

theorem Mag.mul (h : Mag k lo hi x a) (g : Mag k' lo' hi' y b) (hk : k + k' ≤ 2 ^ 40) (hl : lo + lo' ≤ 1021) (hh : hi + hi' ≤ 999) :
    Mag (k + k' + 1) (lo + lo') (hi + hi') (x * y) (a * b) := by
  have c : a * b = 0 ∨ ((2 : ℝ) ^ (lo + lo'))⁻¹ ≤ |a * b| := by
    by_cases h0 : a = 0
    · simp [h0]
    by_cases g0 : b = 0
    · simp [g0]
    rw [abs_mul, pow_add, mul_inv]
    exact .inr (mul_le_mul (h.ne h0) (g.ne g0) (by positivity) (abs_nonneg _))
  have f : |a * b| ≤ 2 ^ (hi + hi') := by
    rw [abs_mul, pow_add]
    exact mul_le_mul h.2.2 g.2.2 (abs_nonneg _) (by positivity)
  refine ⟨Rel.mul h.1 g.1 (units_ok hk) (c.imp_right (le_trans ?_)) (fits_of_le hh f), c, f⟩
  rw [two_inv_pow]
  exact zpow_le_zpow_right₀ (by norm_num) (by omega)

theorem Mag.quot (h : Mag k lo hi x a) (g : Mag k' lo' hi' y b) (g0 : b ≠ 0) (hk : k + k' ≤ 2 ^ 40) (hl : lo + hi' ≤ 1021) (hh : hi + lo' ≤ 999) :
    Mag (k + k' + 1) (lo + hi') (hi + lo') (x / y) (a / b) := by
  have bp := abs_pos.2 g0
  have c : a / b = 0 ∨ ((2 : ℝ) ^ (lo + hi'))⁻¹ ≤ |a / b| := by
    by_cases h0 : a = 0
    · simp [h0]
    rw [abs_div, pow_add, mul_inv, div_eq_mul_inv]
    exact .inr (mul_le_mul (h.ne h0) (inv_anti₀ bp g.2.2) (by positivity) (abs_nonneg _))
  have f : |a / b| ≤ 2 ^ (hi + lo') := by
    rw [abs_div, pow_add, div_eq_mul_inv]
    exact mul_le_mul h.2.2 (inv_le_of_inv_le₀ (by positivity) (g.ne g0)) (by positivity) (by positivity)
  refine ⟨Rel.quot h.1 g.1 g0 (units_ok hk) (c.imp_right (le_trans ?_)) (fits_of_le hh f), c, f⟩
  rw [two_inv_pow]
  exact zpow_le_zpow_right₀ (by norm_num) (by omega)

theorem Mag.abs (h : Mag k lo hi x a) : Mag k lo hi (fabs x) |a| :=
  ⟨h.1.abs, by simpa using h.2.1, by simpa using h.2.2⟩

/-- The square as `powi` computes it. -/
theorem Mag.sq (h : Mag k lo hi x a) (hk : 2 * k + 1 ≤ 2 ^ 40) (hl : 2 * lo ≤ 1021) (hh : 2 * hi ≤ 999) :
    Mag (2 * k + 2) (2 * lo) (2 * hi) (powi x 2) (a ^ 2) := by
  rw [powi_two]
  have s := h.mul h (by omega) (by omega) (by omega)
  have one : Mag 0 0 0 (1 : F64) 1 := ⟨Rel.of_is isOne fun a ha => by
      rw [ha.unique isOne]
      simpa using (⟨Rounding.binary64.nat 1 (by norm_num), Rounding.binary64.fits_nat 1 (by norm_num)⟩ : _ ∧ _), .inr (by simp), by simp⟩
  refine ((one.mul s (by omega) (by omega) (by omega)).mono (by omega) (by omega) (by omega)).congr ?_
  ring

theorem Mag.root (h : Mag k (2 * lo) (2 * hi) x a) (h0 : 0 ≤ a) (hk : k ≤ 2 ^ 40) (hl : lo ≤ 1021) (hh : hi ≤ 999) :
    Mag (k + 1) lo hi (sqrt x) (Real.sqrt a) := by
  have f : |Real.sqrt a| ≤ 2 ^ hi := by
    rw [abs_of_nonneg (Real.sqrt_nonneg _)]
    refine Real.sqrt_le_iff.2 ⟨by positivity, ?_⟩
    rw [← pow_mul, mul_comm hi 2]
    exact (le_abs_self a).trans h.2.2
  have c : Real.sqrt a = 0 ∨ ((2 : ℝ) ^ lo)⁻¹ ≤ |Real.sqrt a| := by
    rcases h.2.1 with e | e
    · simp [e]
    · rw [abs_of_nonneg (Real.sqrt_nonneg _)]
      refine .inr (Real.le_sqrt_of_sq_le ?_)
      rw [inv_pow, ← pow_mul, mul_comm lo 2]
      rwa [abs_of_nonneg h0] at e
  refine ⟨?_, c, f⟩
  rcases h0.eq_or_lt with rfl | hp
  · rw [Real.sqrt_zero]
    exact (Rel.of_is (Correlation.sqrt_is_zero (Correlation.Rel.is_zero h.1)) (rounds_sqrt (Correlation.Rel.is_zero h.1) le_rfl).stored).mono (by omega)
  · refine Correlation.Rel.root h.1 hp (units_ok hk) (c.imp_right (le_trans ?_)) (fits_of_le hh f)
    rw [two_inv_pow]
    exact zpow_le_zpow_right₀ (by norm_num) (by omega)

/-- A sum of numbers that are not negative. -/
theorem Mag.sum {β : Type} {l : List β} {f : β → F64} {t : β → ℝ} (h : ∀ p ∈ l, Mag k lo hi (f p) (t p) ∧ 0 ≤ t p) (hl : l.length ≤ 2 ^ 32)
    (hk : k ≤ 2 ^ 32) (hh : hi ≤ 960) : Mag (k + l.length) lo (hi + 32) (l.foldl (fun s p => s + f p) 0) (l.map t).sum ∧ 0 ≤ (l.map t).sum := by
  have nn : ∀ {l : List β}, (∀ p ∈ l, 0 ≤ t p) → 0 ≤ (l.map t).sum := fun h => List.sum_nonneg fun z hz => by
    obtain ⟨p, hp, rfl⟩ := List.mem_map.1 hz
    exact h p hp
  have up : ∀ {l : List β}, (∀ p ∈ l, t p ≤ 2 ^ hi) → (l.map t).sum ≤ l.length * 2 ^ hi := fun {l} h => by
    have := List.sum_le_card_nsmul (l.map t) (2 ^ hi) (fun z hz => by
      obtain ⟨p, hp, rfl⟩ := List.mem_map.1 hz
      exact h p hp)
    simpa using this
  have n0 := nn fun p hp => (h p hp).2
  have u0 : (l.map t).sum ≤ 2 ^ (hi + 32) := by
    refine (up fun p hp => (le_abs_self _).trans (h p hp).1.2.2).trans ?_
    rw [pow_add, mul_comm]
    refine mul_le_mul_of_nonneg_left ?_ (by positivity)
    exact_mod_cast hl
  refine ⟨⟨?_, ?_, by rwa [abs_of_nonneg n0]⟩, n0⟩
  · have := rel_foldl (k := k) (v := l.map f) (r := l.map t) (by
      rw [List.forall₂_map_left_iff, List.forall₂_map_right_iff]
      exact List.forall₂_same.2 fun p hp => ⟨(h p hp).1.1, (h p hp).2⟩) 0 0 0 ((Rel.of_is isZero stored_zero).mono (by omega)) le_rfl
      (units_ok (by simp; omega)) (by
        rw [zero_add]
        have := fits_of_le (a := (l.map t).sum) (e := hi + 32) (by omega) (by rwa [abs_of_nonneg n0])
        rwa [abs_of_nonneg n0] at this)
    rw [zero_add, List.foldl_map, List.length_map] at this
    exact this
  · rw [abs_of_nonneg n0]
    by_cases hz : ∀ p ∈ l, t p = 0
    · left
      exact List.sum_eq_zero fun z hz' => by
        obtain ⟨p, hp, rfl⟩ := List.mem_map.1 hz'
        exact hz p hp
    · right
      push Not at hz
      obtain ⟨p, hp, h0⟩ := hz
      have := (h p hp).1.ne h0
      rw [abs_of_nonneg (h p hp).2] at this
      exact this.trans (List.single_le_sum (fun z hz' => by
        obtain ⟨q, hq, rfl⟩ := List.mem_map.1 hz'
        exact (h q hq).2) _ (List.mem_map_of_mem hp))

theorem mag_nat {n : ℕ} (h1 : 1 ≤ n) (h2 : n ≤ 2 ^ 32) : Mag 0 0 32 (flt n : F64) n := by
  refine ⟨relNat (by omega), .inr ?_, ?_⟩
  · rw [abs_of_nonneg (by positivity)]
    simpa using h1
  · rw [abs_of_nonneg (by positivity)]
    exact_mod_cast h2

theorem mag_hundred : Mag 0 0 7 (100 : F64) 100 := ⟨relLit 100 (by norm_num), .inr (by norm_num), by norm_num⟩

theorem mag_price (h : Price x) : Mag 0 400 400 x x.val := by
  have hp : 0 ≤ x.val := h.plain.nonneg
  refine ⟨h.plain.rel, .inr ?_, ?_⟩ <;> rw [abs_of_nonneg hp]
  · rw [two_inv_pow]; exact h.ge
  · exact h.plain.le

/-- Two different positive numbers of the format differ by at least `2^-54` of the larger. -/
theorem stored_gap (sx : Stored x) (sy : Stored y) (hx : x ⇓ a) (hy : y ⇓ b) (hb : 0 < b) (hab : b < a) : a * ((2 : ℝ) ^ 54)⁻¹ ≤ a - b := by
  rcases le_total (2 * b) a with h | h
  · have : a * ((2 : ℝ) ^ 54)⁻¹ ≤ a * (1 / 2) := mul_le_mul_of_nonneg_left (by norm_num) (by linarith)
    linarith
  obtain ⟨m, e, hm, -, ha⟩ := rnd64_repr a
  obtain ⟨m', e', hm', -, hb'⟩ := rnd64_repr b
  have ra : rnd64 a = a := (sx a hx).1
  have rb : rnd64 b = b := (sy b hy).1
  rw [ra] at ha
  rw [rb] at hb'
  have key : ∀ {c : ℝ} {n f : ℤ}, a ≤ 2 * c → c = n * 2 ^ f → |n| ≤ 2 ^ 53 → a * ((2 : ℝ) ^ 54)⁻¹ ≤ 2 ^ f := by
    intro c n f hc e hn
    have hp : (0 : ℝ) < 2 ^ f := two_zpow_pos f
    have : (n : ℝ) ≤ 2 ^ 53 := by exact_mod_cast (le_abs_self n).trans hn
    have h2 : c ≤ 2 ^ 53 * 2 ^ f := by rw [e]; exact mul_le_mul_of_nonneg_right this hp.le
    rw [← div_eq_mul_inv, div_le_iff₀ (by positivity)]
    calc a ≤ 2 * c := hc
      _ ≤ 2 * (2 ^ 53 * 2 ^ f) := by linarith
      _ = 2 ^ f * 2 ^ 54 := by ring
  have k1 := key (by linarith) ha hm
  have k2 := key h hb' hm'
  have step : ∀ {f : ℤ} {n n' : ℕ}, e = f + n → e' = f + n' → (2 : ℝ) ^ f ≤ a - b := by
    intro f n n' h1 h2
    have hp : (0 : ℝ) < 2 ^ f := two_zpow_pos f
    have hd : a - b = ((m * 2 ^ n - m' * 2 ^ n' : ℤ) : ℝ) * 2 ^ f := by
      rw [ha, hb', h1, h2, zpow_add₀ (by norm_num), zpow_add₀ (by norm_num), zpow_natCast, zpow_natCast]
      push_cast
      ring
    have hz : 0 < m * 2 ^ n - m' * 2 ^ n' := by
      by_contra hn
      have : ((m * 2 ^ n - m' * 2 ^ n' : ℤ) : ℝ) ≤ 0 := by exact_mod_cast not_lt.1 hn
      have := mul_nonpos_of_nonpos_of_nonneg this hp.le
      linarith
    have : (1 : ℝ) ≤ ((m * 2 ^ n - m' * 2 ^ n' : ℤ) : ℝ) := by exact_mod_cast hz
    rw [hd]
    exact le_mul_of_one_le_left hp.le this
  rcases le_total e e' with h | h
  · exact k1.trans (step (f := e) (n := 0) (n' := (e' - e).toNat) (by simp) (by omega))
  · exact k2.trans (step (f := e') (n := (e - e').toNat) (n' := 0) (by omega) (by simp))

/-- The difference of two prices. -/
theorem mag_diff (hx : Price x) (hy : Price y) : Mag 1 454 400 (x - y) (x.val - y.val) := by
  have ix : x ⇓ x.val := by obtain ⟨-, a, ha, -⟩ := hx; rwa [ha.val_eq]
  have iy : y ⇓ y.val := by obtain ⟨-, a, ha, -⟩ := hy; rwa [ha.val_eq]
  have px := lt_of_lt_of_le (two_zpow_pos _) hx.ge
  have py := lt_of_lt_of_le (two_zpow_pos _) hy.ge
  have f : |x.val - y.val| ≤ 2 ^ 400 := by
    have h1 := hx.plain.le
    have h2 := hy.plain.le
    generalize (2 : ℝ) ^ 400 = M at *
    rw [abs_le]
    constructor <;> linarith
  have low : ∀ {z : F64}, Price z → ((2 : ℝ) ^ 454)⁻¹ ≤ z.val * ((2 : ℝ) ^ 54)⁻¹ := fun {z} hz => by
    rw [show 454 = 400 + 54 by norm_num, pow_add, mul_inv]
    refine mul_le_mul_of_nonneg_right ?_ (by positivity)
    rw [two_inv_pow]
    exact hz.ge
  refine ⟨?_, ?_, f⟩
  · have := fits_of_le (e := 400) (by norm_num) f
    exact rel_sub_is ix iy hx.1 hy.1 (by linarith [abs_nonneg (x.val - y.val)])
  · rcases lt_trichotomy x.val y.val with h | h | h
    · rw [abs_sub_comm, abs_of_pos (by linarith)]
      exact .inr ((low hy).trans (stored_gap hy.1 hx.1 iy ix px h))
    · exact .inl (by linarith)
    · rw [abs_of_pos (by linarith)]
      exact .inr ((low hx).trans (stored_gap hx.1 hy.1 ix iy py h))

end Traquer
