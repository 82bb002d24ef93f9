import Verif.Lemmas.Error
import Verif.Lemmas.Near
import Verif.Props.Range64
import Verif.Props.Error
/-!
# Relative rounding errors in binary64

Sums and differences of numbers of the format never lose relative accuracy, not even near underflow, so ratios of them are
accurate whatever the price level.
-/

namespace Traquer
open FP FloatLit

/-- A multiple of the smallest positive number, or a number that is not subnormal, is rounded with a relative error of one unit. -/
theorem rnd64_relative {x : ℝ} (h : (∃ m : ℤ, x = m * 2 ^ (-1074 : ℤ)) ∨ (2 : ℝ) ^ (-1022 : ℤ) ≤ |x|) : |rnd64 x - x| ≤ unit64 * |x| := by
  rcases eq_or_ne x 0 with rfl | hx
  · rw [rnd64_zero]; simp
  have hlog : (2 : ℝ) ^ Int.log 2 |x| ≤ |x| := by
    have := Int.zpow_log_le_self (b := 2) (by norm_num) (abs_pos.2 hx)
    exact_mod_cast this
  by_cases hl : -1022 ≤ Int.log 2 |x|
  · have hp := two_zpow_pos (lastBit x)
    have h : |rnd64 x - x| ≤ 2 ^ lastBit x / 2 := by
      have e : rnd64 x - x = (roundEven (x / 2 ^ lastBit x) - x / 2 ^ lastBit x) * 2 ^ lastBit x := by
        rw [sub_mul, div_mul_cancel₀ _ hp.ne']
        rfl
      rw [e, abs_mul, abs_of_pos hp]
      have := mul_le_mul_of_nonneg_right (roundEven_near (x / 2 ^ lastBit x)) hp.le
      linarith
    refine h.trans ?_
    have e : lastBit x = Int.log 2 |x| - 52 := by unfold lastBit; omega
    rw [e, zpow_sub₀ (by norm_num)]
    have e2 : (2 : ℝ) ^ Int.log 2 |x| / 2 ^ (52 : ℤ) / 2 = 2⁻¹ ^ 53 * 2 ^ Int.log 2 |x| := by
      rw [show (52 : ℤ) = ((52 : ℕ) : ℤ) by norm_num, zpow_natCast]
      field_simp
    rw [e2]
    exact mul_le_mul_of_nonneg_left hlog (by positivity)
  · have hlt : |x| < 2 ^ (-1022 : ℤ) := by
      have := Int.lt_zpow_succ_log_self (b := 2) (by norm_num) |x|
      have h1 : |x| < 2 ^ (Int.log 2 |x| + 1) := by exact_mod_cast this
      exact h1.trans_le (zpow_le_zpow_right₀ (by norm_num) (by omega))
    rcases h with ⟨m, rfl⟩ | h
    · have hm : |m| ≤ 2 ^ 53 := by
        have hp := two_zpow_pos (-1074)
        rw [abs_mul, abs_of_pos hp] at hlt
        have : |(m : ℝ)| < 2 ^ (-1022 : ℤ) / 2 ^ (-1074 : ℤ) := by rwa [lt_div_iff₀ hp]
        rw [← zpow_sub₀ (by norm_num), show (-1022 - -1074 : ℤ) = ((52 : ℕ) : ℤ) by norm_num, zpow_natCast] at this
        have h2 : |(m : ℝ)| ≤ 2 ^ 53 := this.le.trans (by norm_num)
        exact_mod_cast h2
      rw [rnd64_exact hm (by norm_num), sub_self, abs_zero]
      exact mul_nonneg accurate64.u0 (abs_nonneg _)
    · exact absurd h (not_le.2 hlt)

/-- Numbers of the format are multiples of the smallest positive one. -/
theorem Stored.multiple {x : F64} (hs : Stored x) {a : ℝ} (h : x ⇓ a) : ∃ m : ℤ, a = m * 2 ^ (-1074 : ℤ) := by
  obtain ⟨h1, -⟩ := hs a h
  obtain ⟨m, e, -, he, hr⟩ := rnd64_repr a
  have h1' : rnd64 a = a := h1
  rw [h1'] at hr
  obtain ⟨n, rfl⟩ : ∃ n : ℕ, e = -1074 + n := ⟨(e + 1074).toNat, by omega⟩
  refine ⟨m * 2 ^ n, ?_⟩
  rw [hr, zpow_add₀ (by norm_num), zpow_natCast]
  push_cast
  ring

/-- The factor by which `k` roundings can be off. -/
noncomputable def off (k : ℕ) : ℝ := ((1 - unit64) ^ k)⁻¹

theorem unit_small : unit64 ≤ 2⁻¹ ^ 53 := le_rfl
theorem keep_pos : 0 < 1 - unit64 := by
  have : unit64 < 1 := by unfold unit64; norm_num
  linarith
theorem off_pos (k : ℕ) : 0 < off k := inv_pos.2 (pow_pos keep_pos k)
theorem off_ge (k : ℕ) : 1 ≤ off k := one_le_inv₀ (pow_pos keep_pos k) |>.2 (pow_le_one₀ keep_pos.le (by linarith [unit64_pos]))
theorem off_add (k l : ℕ) : off (k + l) = off k * off l := by unfold off; rw [pow_add, mul_inv]
theorem off_mono {k l : ℕ} (h : k ≤ l) : off k ≤ off l := by
  obtain ⟨d, rfl⟩ := Nat.exists_eq_add_of_le h
  rw [off_add]
  exact le_mul_of_one_le_right (off_pos k).le (off_ge d)
theorem off_zero : off 0 = 1 := by simp [off]

/-- `k` roundings are off by at most `2 k` units. -/
theorem off_le {k : ℕ} (hk : 2 * k * unit64 ≤ 1) : off k ≤ 1 + 2 * k * unit64 := by
  have h1 : 1 - k * unit64 ≤ (1 - unit64) ^ k := by
    have := one_add_mul_le_pow (a := -unit64) (by linarith [keep_pos]) k
    calc 1 - k * unit64 = 1 + k * -unit64 := by ring
      _ ≤ (1 + -unit64) ^ k := this
      _ = _ := by ring_nf
  have hp := pow_pos keep_pos k
  have h2 : 0 < 1 - k * unit64 := by linarith
  unfold off
  rw [inv_le_comm₀ hp (by nlinarith [mul_nonneg (Nat.cast_nonneg (α := ℝ) k) unit64_pos.le])]
  refine le_trans ?_ h1
  have h0 : 0 ≤ k * unit64 := mul_nonneg (Nat.cast_nonneg (α := ℝ) k) unit64_pos.le
  rw [inv_le_iff_one_le_mul₀ (by linarith)]
  nlinarith

theorem off_le_two {k : ℕ} (hk : 2 * k * unit64 ≤ 1) : off k ≤ 2 := (off_le hk).trans (by linarith)

/-- `x` is a finite number of the format that differs from `a` by at most the factor `off k`. -/
def Rel (x : F64) (a : ℝ) (k : ℕ) : Prop := ∃ t, x ⇓ a * t ∧ (off k)⁻¹ ≤ t ∧ t ≤ off k ∧ Stored x

variable {x y : F64} {a b : ℝ} {k l : ℕ}

theorem Rel.of_is (h : x ⇓ a) (hs : Stored x) : Rel x a 0 := ⟨1, by rwa [mul_one], by simp [off_zero], by simp [off_zero], hs⟩

theorem Rel.mono (h : Rel x a k) (hk : k ≤ l) : Rel x a l := by
  obtain ⟨t, h1, h2, h3, h4⟩ := h
  exact ⟨t, h1, (inv_anti₀ (off_pos k) (off_mono hk)).trans h2, h3.trans (off_mono hk), h4⟩

theorem Rel.congr (h : Rel x a k) (e : a = b) : Rel x b k := e ▸ h

theorem inv_off_ge (k : ℕ) : 1 - k * unit64 ≤ (off k)⁻¹ := by
  unfold off
  rw [inv_inv]
  have := one_add_mul_le_pow (a := -unit64) (by linarith [keep_pos]) k
  calc 1 - k * unit64 = 1 + k * -unit64 := by ring
    _ ≤ (1 + -unit64) ^ k := this
    _ = _ := by ring_nf

theorem off_dist {t : ℝ} (h1 : (off k)⁻¹ ≤ t) (h2 : t ≤ off k) : |t - 1| ≤ off k - 1 := by
  have h0 := off_ge k
  have : 2 - off k ≤ (off k)⁻¹ := by
    rw [← sub_nonneg]
    have e : (off k)⁻¹ - (2 - off k) = (off k - 1) ^ 2 * (off k)⁻¹ := by
      have := (off_pos k).ne'
      field_simp
      ring
    rw [e]
    exact mul_nonneg (sq_nonneg _) (inv_nonneg.2 (off_pos k).le)
  exact abs_le.2 ⟨by linarith, by linarith⟩

/-- The absolute error. -/
theorem Rel.approx (h : Rel x a k) (hk : 2 * k * unit64 ≤ 1) : Approx x a (2 * k * unit64 * |a|) := by
  obtain ⟨t, h1, h2, h3, -⟩ := h
  refine ⟨_, h1, ?_⟩
  have h4 := off_le hk
  rw [show a * t - a = (t - 1) * a by ring, abs_mul]
  exact mul_le_mul_of_nonneg_right ((off_dist h2 h3).trans (by linarith)) (abs_nonneg a)

theorem rnd64_max : rnd64 max64 = max64 := by
  have := rnd64_exact (m := 2 ^ 53 - 1) (e := 971) (by norm_num) (by norm_num)
  have e : (((2 ^ 53 - 1 : ℤ) : ℝ) * 2 ^ (971 : ℤ)) = max64 := by
    unfold max64
    rw [show (971 : ℤ) = ((971 : ℕ) : ℤ) by norm_num, zpow_natCast]
    generalize (2 : ℝ) ^ 971 = p
    norm_num
  rwa [e] at this

theorem rnd64_fits {z : ℝ} (h : |z| ≤ max64) : |rnd64 z| ≤ max64 := by
  obtain ⟨h1, h2⟩ := abs_le.1 h
  have g1 := rnd64_mono _ _ h1
  have g2 := rnd64_mono _ _ h2
  rw [rnd64_neg, rnd64_max] at g1
  rw [rnd64_max] at g2
  exact abs_le.2 ⟨g1, g2⟩

theorem rounds64 {z : ℝ} (h : Rounds x z) (hB : |z| ≤ max64) : x ⇓ rnd64 z := by
  rcases h.cases with ⟨-, i⟩ | ⟨n, -⟩
  · exact i
  · exact absurd (rnd64_fits hB) n

theorem off_one_le : 1 + unit64 ≤ off 1 := by
  unfold off
  rw [pow_one, le_inv_comm₀ (by linarith [unit64_pos]) keep_pos, ← one_div, le_div_iff₀ (by linarith [unit64_pos])]
  nlinarith [unit64_pos]

/-- One rounding that keeps relative accuracy. -/
theorem Rel.round {t : ℝ} (h : Rounds x (a * t)) (h1 : (off k)⁻¹ ≤ t) (h2 : t ≤ off k)
    (hr : |rnd64 (a * t) - a * t| ≤ unit64 * |a * t|) (hB : |a * t| ≤ max64) : Rel x a (k + 1) := by
  have hi := rounds64 h hB
  have tp : 0 < t := lt_of_lt_of_le (inv_pos.2 (off_pos k)) h1
  obtain ⟨s, hs, s1, s2⟩ : ∃ s, rnd64 (a * t) = a * t * s ∧ 1 - unit64 ≤ s ∧ s ≤ 1 + unit64 := by
    rcases eq_or_ne (a * t) 0 with e | hne
    · rw [e] at hr ⊢
      exact ⟨1, by rw [rnd64_zero, zero_mul], by linarith [unit64_pos], by linarith [unit64_pos]⟩
    · refine ⟨rnd64 (a * t) / (a * t), by rw [mul_div_cancel₀ _ hne], ?_⟩
      have : |rnd64 (a * t) / (a * t) - 1| ≤ unit64 := by
        rw [div_sub_one hne, abs_div, div_le_iff₀ (abs_pos.2 hne)]
        exact hr
      have := abs_le.1 this
      constructor <;> linarith
  rw [hs] at hi
  have sp : 0 < s := lt_of_lt_of_le keep_pos s1
  refine ⟨t * s, hi.congr (by ring), ?_, ?_, h.stored⟩
  · rw [off_add, mul_inv]
    refine mul_le_mul h1 (le_trans (le_of_eq ?_) s1) (inv_nonneg.2 (off_pos 1).le) tp.le
    simp [off]
  · rw [off_add]
    exact mul_le_mul h2 (s2.trans off_one_le) sp.le (off_pos k).le

/-- Adding two numbers of the format. -/
theorem rel_add_is (hx : x ⇓ a) (hy : y ⇓ b) (sx : Stored x) (sy : Stored y) (hB : |a + b| ≤ max64) : Rel (x + y) (a + b) 1 := by
  obtain ⟨m, hm⟩ := sx.multiple hx
  obtain ⟨n, hn⟩ := sy.multiple hy
  have e : a + b = (a + b) * 1 := (mul_one _).symm
  refine Rel.round (k := 0) (t := 1) (by rw [mul_one]; exact rounds_add hx hy) (by simp [off_zero]) (by simp [off_zero]) ?_ (by rwa [mul_one])
  rw [mul_one]
  exact rnd64_relative (.inl ⟨m + n, by rw [hm, hn]; push_cast; ring⟩)

/-- Subtracting two numbers of the format. -/
theorem rel_sub_is (hx : x ⇓ a) (hy : y ⇓ b) (sx : Stored x) (sy : Stored y) (hB : |a - b| ≤ max64) : Rel (x - y) (a - b) 1 := by
  obtain ⟨m, hm⟩ := sx.multiple hx
  obtain ⟨n, hn⟩ := sy.multiple hy
  refine Rel.round (k := 0) (t := 1) (by rw [mul_one]; exact rounds_sub hx hy) (by simp [off_zero]) (by simp [off_zero]) ?_ (by rwa [mul_one])
  rw [mul_one]
  exact rnd64_relative (.inl ⟨m - n, by rw [hm, hn]; push_cast; ring⟩)

/-- Adding two approximate numbers that are not negative. -/
theorem Rel.add (hx : Rel x a k) (hy : Rel y b k) (ha : 0 ≤ a) (hb : 0 ≤ b) (hk : 2 * k * unit64 ≤ 1) (hB : 2 * (a + b) ≤ max64) :
    Rel (x + y) (a + b) (k + 1) := by
  obtain ⟨t, hx, t1, t2, sx⟩ := hx
  obtain ⟨s, hy, s1, s2, sy⟩ := hy
  obtain ⟨m, hm⟩ := sx.multiple hx
  obtain ⟨n, hn⟩ := sy.multiple hy
  have o2 := off_le_two hk
  obtain ⟨q, hq, q1, q2⟩ : ∃ q, a * t + b * s = (a + b) * q ∧ (off k)⁻¹ ≤ q ∧ q ≤ off k := by
    rcases eq_or_ne (a + b) 0 with e | hne
    · have a0 : a = 0 := by linarith
      have b0 : b = 0 := by linarith
      exact ⟨t, by rw [a0, b0]; ring, t1, t2⟩
    · have hp : 0 < a + b := lt_of_le_of_ne (by linarith) hne.symm
      refine ⟨(a * t + b * s) / (a + b), by rw [mul_div_cancel₀ _ hne], ?_, ?_⟩
      · rw [le_div_iff₀ hp]; nlinarith
      · rw [div_le_iff₀ hp]; nlinarith
  have qp : 0 ≤ q := le_trans (inv_nonneg.2 (off_pos k).le) q1
  refine Rel.round (t := q) (by rw [← hq]; exact rounds_add hx hy) q1 q2 ?_ ?_
  · rw [← hq]
    exact rnd64_relative (.inl ⟨m + n, by rw [hm, hn]; push_cast; ring⟩)
  · rw [abs_of_nonneg (mul_nonneg (by linarith) qp)]
    nlinarith

/-- Multiplying by a whole number. -/
theorem Rel.nat_mul (hx : Rel x a k) {c : F64} {n : ℕ} (hc : c ⇓ n) (hk : 2 * k * unit64 ≤ 1) (hB : 2 * (n * |a|) ≤ max64) :
    Rel (c * x) (n * a) (k + 1) := by
  obtain ⟨t, hx, t1, t2, sx⟩ := hx
  obtain ⟨m, hm⟩ := sx.multiple hx
  have o2 := off_le_two hk
  have tp : 0 ≤ t := le_trans (inv_nonneg.2 (off_pos k).le) t1
  refine Rel.round (t := t) (by rw [mul_assoc]; exact rounds_mul hc hx) t1 t2 ?_ ?_
  · rw [mul_assoc, hm]
    exact rnd64_relative (.inl ⟨n * m, by push_cast; ring⟩)
  · rw [abs_mul, abs_mul, Nat.abs_cast, abs_of_nonneg tp]
    have : 0 ≤ (n : ℝ) * |a| := by positivity
    nlinarith

theorem stored_abs (hx : Stored x) : Stored (fabs x) := fun r hr => by
  have hf : x.Finite := by
    cases x <;> first | trivial | exact hr.1.elim
  have e := hr.unique (is_abs hf.is)
  obtain ⟨h1, h2⟩ := hx _ hf.is
  have h1' : rnd64 x.val = x.val := h1
  have h2' : |x.val| ≤ max64 := h2
  subst e
  refine ⟨?_, by show |_| ≤ max64; rwa [abs_abs]⟩
  show rnd64 |x.val| = |x.val|
  rcases abs_cases x.val with ⟨e, -⟩ | ⟨e, -⟩
  · rw [e, h1']
  · rw [e, rnd64_neg, h1']

theorem Rel.abs (hx : Rel x a k) : Rel (fabs x) |a| k := by
  obtain ⟨t, hx, t1, t2, sx⟩ := hx
  have tp : 0 ≤ t := le_trans (inv_nonneg.2 (off_pos k).le) t1
  refine ⟨t, (is_abs hx).congr (by rw [abs_mul, abs_of_nonneg tp]), t1, t2, stored_abs sx⟩

/-- A running sum of approximate numbers that are not negative. -/
theorem rel_foldl {v : List F64} {r : List ℝ} (hv : List.Forall₂ (fun x a => Rel x a k ∧ 0 ≤ a) v r) : ∀ (acc : F64) (c : ℝ) (j : ℕ),
    Rel acc c (k + j) → 0 ≤ c → 2 * ((k + j + v.length : ℕ) : ℝ) * unit64 ≤ 1 → 2 * (c + r.sum) ≤ max64 →
    Rel (v.foldl (· + ·) acc) (c + r.sum) (k + j + v.length) := by
  induction hv with
  | nil => intro acc c j h0 _ _ _; simpa using h0
  | @cons x a v r hxa hv ih =>
    intro acc c j h0 hc h1 h2
    have rn : 0 ≤ r.sum := List.sum_nonneg fun z hz => by
      obtain ⟨i, hi⟩ := List.mem_iff_getElem?.1 hz
      have hi' := (List.getElem?_eq_some_iff.1 hi)
      obtain ⟨hlt, e⟩ := hi'
      have := (List.forall₂_iff_get.1 hv).2 i (by rw [hv.length_eq]; exact hlt) hlt
      simp only [List.get_eq_getElem] at this
      rw [← e]; exact this.2
    rw [List.sum_cons] at h2
    have hl : ((k + j : ℕ) : ℝ) ≤ ((k + j + (x :: v).length : ℕ) : ℝ) := by exact_mod_cast Nat.le_add_right _ _
    have st := Rel.add h0 (hxa.1.mono (Nat.le_add_right k j)) hc hxa.2 (by nlinarith [unit64_pos]) (by linarith)
    have := ih (acc + x) (c + a) (j + 1) st (by linarith [hxa.2]) (by
      rw [show k + (j + 1) + v.length = k + j + (x :: v).length by simp; omega]; exact h1) (by linarith)
    rw [List.foldl_cons, List.sum_cons, ← add_assoc]
    rwa [show k + (j + 1) + v.length = k + j + (x :: v).length by simp; omega] at this

/-- A sum of approximate numbers that are not negative. -/
theorem rel_fsum {v : List F64} {r : List ℝ} (h : List.Forall₂ (fun x a => Rel x a k ∧ 0 ≤ a) v r) (hk : 2 * ((k + v.length : ℕ) : ℝ) * unit64 ≤ 1)
    (hB : 2 * r.sum ≤ max64) : Rel (fsum v) r.sum (k + v.length) := by
  have := rel_foldl h 0 0 0 ((Rel.of_is isZero stored_zero).mono (Nat.zero_le _)) le_rfl hk (by rwa [zero_add])
  rwa [zero_add, Nat.add_zero] at this

/-- A quotient of approximate numbers. Only a subnormal quotient loses relative accuracy. -/
theorem Rel.div (hx : Rel x a k) (hy : Rel y b l) (hb : b ≠ 0) (hk : 2 * ((k + l + 1 : ℕ) : ℝ) * unit64 ≤ 1) (hB : 2 * |a / b| ≤ max64) :
    Approx (x / y) (a / b) (2 * ((k + l + 1 : ℕ) : ℝ) * unit64 * |a / b| + 2⁻¹ ^ 1075) := by
  obtain ⟨t, hx, t1, t2, sx⟩ := hx
  obtain ⟨s, hy, s1, s2, sy⟩ := hy
  have tp : 0 < t := lt_of_lt_of_le (inv_pos.2 (off_pos k)) t1
  have sp : 0 < s := lt_of_lt_of_le (inv_pos.2 (off_pos l)) s1
  have hk' : 2 * ((k + l : ℕ) : ℝ) * unit64 ≤ 1 := by
    have : ((k + l : ℕ) : ℝ) ≤ ((k + l + 1 : ℕ) : ℝ) := by exact_mod_cast Nat.le_succ _
    nlinarith [unit64_pos]
  have o2 := off_le_two hk'
  have e : a * t / (b * s) = a / b * (t / s) := by field_simp
  have q1 : (off (k + l))⁻¹ ≤ t / s := by
    rw [off_add, mul_inv, div_eq_mul_inv]
    exact mul_le_mul t1 (inv_anti₀ sp s2) (inv_nonneg.2 (off_pos l).le) tp.le
  have q2 : t / s ≤ off (k + l) := by
    rw [off_add, div_eq_mul_inv]
    exact mul_le_mul t2 (inv_le_of_inv_le₀ (off_pos l) s1) (inv_nonneg.2 sp.le) (off_pos k).le
  have h := rounds_div hx hy (mul_ne_zero hb sp.ne')
  rw [e] at h
  have qp : 0 ≤ t / s := div_nonneg tp.le sp.le
  have hz : |a / b * (t / s)| ≤ off (k + l) * |a / b| := by
    rw [abs_mul, abs_of_nonneg qp, mul_comm]
    exact mul_le_mul_of_nonneg_right q2 (abs_nonneg _)
  have hi := rounds64 h (hz.trans (by nlinarith [abs_nonneg (a / b)]))
  refine ⟨_, hi, ?_⟩
  have e1 := rnd64_error (a / b * (t / s))
  have e2 : |a / b * (t / s) - a / b| ≤ (off (k + l) - 1) * |a / b| := by
    rw [show a / b * (t / s) - a / b = (t / s - 1) * (a / b) by ring, abs_mul]
    exact mul_le_mul_of_nonneg_right (off_dist q1 q2) (abs_nonneg _)
  have e3 : off (k + l) * (1 + unit64) ≤ 1 + 2 * ((k + l + 1 : ℕ) : ℝ) * unit64 :=
    le_trans (by rw [off_add (k + l) 1]; exact mul_le_mul_of_nonneg_left off_one_le (off_pos _).le) (off_le hk)
  have e4 := abs_add_le (rnd64 (a / b * (t / s)) - a / b * (t / s)) (a / b * (t / s) - a / b)
  rw [sub_add_sub_cancel] at e4
  have e5 : (2⁻¹ : ℝ) ^ 53 * |a / b * (t / s)| ≤ unit64 * (off (k + l) * |a / b|) := mul_le_mul_of_nonneg_left hz unit64_pos.le
  generalize (2⁻¹ : ℝ) ^ 1075 = η at *
  generalize (2⁻¹ : ℝ) ^ 53 = v at *
  have e6 := mul_le_mul_of_nonneg_right e3 (abs_nonneg (a / b))
  linarith

end Traquer
