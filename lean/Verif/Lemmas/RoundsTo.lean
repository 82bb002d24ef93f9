import Verif.Lemmas.Dominated
/-!
# Values up to the sign of zero, in every rounding
-/

namespace Traquer
open FloatLit FP
variable {ρ : Rounding}

namespace FP

open Classical in
/-- The extended real number to which `a` rounds (infinite if it overflows). -/
noncomputable def rndE (ρ : Rounding) (a : ℝ) : EReal :=
  if ρ.fits (ρ.rnd a) then (ρ.rnd a : EReal) else if a < 0 then ⊥ else ⊤

/-- `x` is the number `a` after rounding, up to the sign of zero. -/
def RoundsTo (x : FP ρ) (a : ℝ) : Prop := Traquer.isNaN x = false ∧ x.toE = rndE ρ a

variable {x y : FP ρ} {a b : ℝ}

theorem rndE_mono (h : a ≤ b) : rndE ρ a ≤ rndE ρ b := by
  have hab := ρ.mono _ _ h
  unfold rndE
  by_cases ha : ρ.fits (ρ.rnd a) <;> by_cases hb : ρ.fits (ρ.rnd b)
  · rw [if_pos ha, if_pos hb]; exact_mod_cast hab
  · rw [if_pos ha, if_neg hb]
    split
    · rename_i h0
      refine absurd (ρ.fits_mono _ _ ?_ ha) hb
      have h1 := rnd_nonpos (ρ := ρ) h0.le
      rw [abs_of_nonpos h1, abs_of_nonpos (hab.trans h1)]
      linarith
    · exact le_top
  · rw [if_neg ha, if_pos hb]
    split
    · exact bot_le
    · rename_i h0
      refine absurd (ρ.fits_mono _ _ ?_ hb) ha
      have h1 := rnd_nonneg (ρ := ρ) (not_lt.1 h0)
      rw [abs_of_nonneg h1, abs_of_nonneg (h1.trans hab)]
      exact hab
  · rw [if_neg ha, if_neg hb]
    split
    · exact bot_le
    · rename_i h0
      rw [if_neg (by linarith)]

theorem rndE_neg (a : ℝ) (h : a ≠ 0) : rndE ρ (-a) = -rndE ρ a := by
  have hf : ρ.fits (ρ.rnd (-a)) ↔ ρ.fits (ρ.rnd a) := by
    rw [ρ.odd]
    exact ⟨fun h => ρ.fits_mono _ _ (by rw [abs_neg]) h, fun h => ρ.fits_mono _ _ (by rw [abs_neg]) h⟩
  unfold rndE
  by_cases h1 : ρ.fits (ρ.rnd a)
  · rw [if_pos (hf.2 h1), if_pos h1, ρ.odd]; simp
  · rw [if_neg (mt hf.1 h1), if_neg h1]
    rcases lt_or_gt_of_ne h with h0 | h0
    · rw [if_neg (by linarith), if_pos h0]; simp
    · rw [if_pos (by linarith), if_neg (by linarith)]; simp

theorem rndE_zero : rndE ρ 0 = 0 := by
  unfold rndE
  rw [rnd_zero, if_pos fits_zero]; simp

theorem Rounds.to (h : Rounds x a) : RoundsTo x a := by
  rcases h.cases with ⟨h1, h2⟩ | ⟨h1, rfl⟩
  · exact ⟨h2.not_nan, by rw [h2.toE, rndE, if_pos h1]⟩
  · refine ⟨rfl, ?_⟩
    rw [rndE, if_neg h1]
    by_cases h0 : a < 0 <;> simp [h0, toE]

theorem toE_lt (hx : Traquer.isNaN x = false) (hy : Traquer.isNaN y = false) : (x <. y) = decide (x.toE < y.toE) := by
  rw [isNaN_def] at hx hy
  simp [lt_def, lt, hx, hy]

theorem toE_le (hx : Traquer.isNaN x = false) (hy : Traquer.isNaN y = false) : (x <=. y) = decide (x.toE ≤ y.toE) := by
  rw [isNaN_def] at hx hy
  simp [le_def, le, hx, hy]

theorem toE_fmax (hx : Traquer.isNaN x = false) (hy : Traquer.isNaN y = false) :
    Traquer.isNaN (fmax x y) = false ∧ (fmax x y).toE = max x.toE y.toE := by
  unfold fmax
  rw [if_neg (by simp [hx]), if_neg (by simp [hy]), toE_lt hx hy]
  by_cases h : x.toE < y.toE
  · simp [h, hy, max_eq_right h.le]
  · simp [h, hx, max_eq_left (not_lt.1 h)]

theorem toE_fmin (hx : Traquer.isNaN x = false) (hy : Traquer.isNaN y = false) :
    Traquer.isNaN (fmin x y) = false ∧ (fmin x y).toE = min x.toE y.toE := by
  unfold fmin
  rw [if_neg (by simp [hx]), if_neg (by simp [hy]), toE_lt hy hx]
  by_cases h : y.toE < x.toE
  · simp [h, hy, min_eq_right h.le]
  · simp [h, hx, min_eq_left (not_lt.1 h)]

theorem RoundsTo.fmax (hx : RoundsTo x a) (hy : RoundsTo y b) : RoundsTo (fmax x y) (max a b) := by
  obtain ⟨h1, h2⟩ := toE_fmax hx.1 hy.1
  refine ⟨h1, ?_⟩
  rw [h2, hx.2, hy.2]
  rcases le_total a b with h | h
  · rw [max_eq_right h, max_eq_right (rndE_mono h)]
  · rw [max_eq_left h, max_eq_left (rndE_mono h)]

theorem RoundsTo.fmin (hx : RoundsTo x a) (hy : RoundsTo y b) : RoundsTo (fmin x y) (min a b) := by
  obtain ⟨h1, h2⟩ := toE_fmin hx.1 hy.1
  refine ⟨h1, ?_⟩
  rw [h2, hx.2, hy.2]
  rcases le_total a b with h | h
  · rw [min_eq_left h, min_eq_left (rndE_mono h)]
  · rw [min_eq_right h, min_eq_right (rndE_mono h)]

theorem rndE_nonneg (h : 0 ≤ a) : 0 ≤ rndE ρ a := rndE_zero (ρ := ρ) ▸ rndE_mono h
theorem rndE_nonpos (h : a ≤ 0) : rndE ρ a ≤ 0 := rndE_zero (ρ := ρ) ▸ rndE_mono h

theorem toE_fabs (hx : Traquer.isNaN x = false) : Traquer.isNaN (fabs x) = false ∧
    (fabs x).toE = if x.toE < 0 then -x.toE else x.toE := by
  cases x with
  | nan => cases hx
  | inf b => cases b <;> exact ⟨rfl, by simp [abs_def, abs, toE]⟩
  | negz => exact ⟨rfl, by simp [abs_def, abs, toE]⟩
  | fin r =>
    refine ⟨rfl, ?_⟩
    show ((|r| : ℝ) : EReal) = _
    by_cases h : r < 0
    · rw [if_pos (show (fin r : FP ρ).toE < 0 from EReal.coe_neg'.2 h), abs_of_neg h]; rfl
    · rw [if_neg (show ¬ (fin r : FP ρ).toE < 0 from fun h' => h (EReal.coe_neg'.1 h')), abs_of_nonneg (not_lt.1 h)]; rfl

theorem RoundsTo.abs (hx : RoundsTo x a) : RoundsTo (fabs x) |a| := by
  obtain ⟨h1, h2⟩ := toE_fabs hx.1
  refine ⟨h1, ?_⟩
  rw [h2, hx.2]
  rcases lt_or_ge a 0 with h | h
  · rw [abs_of_neg h]
    have := rndE_nonpos (ρ := ρ) h.le
    split
    · exact (rndE_neg a h.ne).symm
    · rename_i h'
      have e : rndE ρ a = 0 := le_antisymm this (not_lt.1 h')
      rw [rndE_neg a h.ne, e, neg_zero]
  · rw [abs_of_nonneg h, if_neg (not_lt.2 (rndE_nonneg h))]

theorem RoundsTo.of_is (h : x ⇓ ρ.rnd a) (hf : ρ.fits (ρ.rnd a)) : RoundsTo x a := ⟨h.not_nan, by rw [h.toE, rndE, if_pos hf]⟩
theorem roundsTo_zero : RoundsTo (0 : FP ρ) 0 := ⟨isZero.not_nan, by rw [isZero.toE, rndE_zero]; rfl⟩

end FP

variable {x y : FP ρ} {a b : ℝ}

theorem nonNegInf_of_toE (hx : Traquer.isNaN x = false) (h : 0 ≤ x.toE) : NonNegInf x := by
  cases x with
  | nan => cases hx
  | inf b => cases b <;> simp [toE] at h; exact Or.inl rfl
  | negz => exact Or.inr ⟨0, is_negz, le_rfl⟩
  | fin r => exact Or.inr ⟨r, is_fin r, by simpa [toE] using h⟩

theorem dominated_of_toE (hx : Traquer.isNaN x = false) (hy : Traquer.isNaN y = false) (h0 : 0 ≤ x.toE) (h : x.toE ≤ y.toE) :
    Dominated x y := by
  rcases nonNegInf_of_toE hy (h0.trans h) with rfl | ⟨b, hb, b0⟩
  · exact Or.inr (Or.inl ⟨nonNegInf_of_toE hx h0, rfl⟩)
  · rcases nonNegInf_of_toE hx h0 with rfl | ⟨a, ha, a0⟩
    · rw [hb.toE] at h
      simp [toE] at h
    · rw [ha.toE, hb.toE] at h
      exact Or.inr (Or.inr ⟨a, b, ha, hb, a0, by exact_mod_cast h⟩)

theorem FP.RoundsTo.dominated (hx : RoundsTo x a) (hy : RoundsTo y b) (h0 : 0 ≤ a) (h : a ≤ b) : Dominated x y :=
  dominated_of_toE hx.1 hy.1 (by rw [hx.2]; exact rndE_nonneg h0) (by rw [hx.2, hy.2]; exact rndE_mono h)

theorem FP.RoundsTo.nonNegInf (hx : RoundsTo x a) (h0 : 0 ≤ a) : NonNegInf x :=
  nonNegInf_of_toE hx.1 (by rw [hx.2]; exact rndE_nonneg h0)

theorem FP.RoundsTo.le (hx : RoundsTo x a) (hy : RoundsTo y b) (h : a ≤ b) : (x <=. y) = true := by
  rw [toE_le hx.1 hy.1, hx.2, hy.2]
  exact decide_eq_true (rndE_mono h)

theorem FP.RoundsTo.is {x : XF} (h : RoundsTo x a) : x ⇓ a := by
  obtain ⟨h1, h2⟩ := h
  rw [rndE, if_pos (show Rounding.exact.fits _ from trivial)] at h2
  change x.toE = (a : EReal) at h2
  cases x with
  | nan => cases h1
  | inf b => cases b <;> simp [toE] at h2
  | negz => simp [toE] at h2; exact is_negz.congr (by exact_mod_cast h2)
  | fin r => simp [toE] at h2; exact (is_fin r).congr h2

/-- A share as a percentage. -/
theorem inRange_pct {x : FP ρ} (h : InRange 0 1 x) : InRange 0 100 (x * 100) := by
  rcases h with rfl | ⟨r, hr, r0, r1⟩
  · exact Or.inl rfl
  · obtain ⟨u, hu, u0, u1⟩ := (rounds_mul hr (isLit (ρ := ρ) 100 (by norm_num))).between (n := 100) (by norm_num)
      (mul_nonneg r0 (by norm_num)) (by norm_num; linarith)
    exact Or.inr ⟨u, hu, u0, by simpa using u1⟩

theorem inRange_nat_iff {x : FP ρ} {n : ℕ} : InRange (-(0 : ℕ)) n x ↔ InRange 0 n x := by simp

theorem FP.inf_mul' (s : Bool) {c : FP ρ} {k : ℝ} (hc : c ⇓ k) (hk : 0 < k) : (FP.inf s : FP ρ) * c = FP.inf s := by
  rcases is_iff.1 hc with rfl | ⟨rfl, rfl⟩
  · rw [mul_def, FP.mul, if_neg (by simp [hk.ne'])]
    · simp [sgn, not_lt.2 hk.le]
    · simp
  · exact absurd hk (lt_irrefl _)

/-- Scaling a quotient by a positive constant, in exact arithmetic. -/
theorem QuotIs.mul_const {x c : XF} {a b k : ℝ} (h : QuotIs a b x) (hc : c ⇓ k) (hk : 0 < k) : QuotIs (k * a) b (x * c) := by
  refine ⟨fun hb => (is_mul (h.1 hb) hc).congr (by ring), fun hb ha => ?_, fun hb ha => ?_⟩
  · rw [h.2.1 hb (by simpa [hk.ne'] using ha)]
    rfl
  · obtain ⟨s, hs⟩ := h.2.2 hb (fun h0 => ha (by rw [h0, mul_zero]))
    exact ⟨s, by rw [hs]; exact FP.inf_mul' s hc hk⟩

end Traquer
