import Verif.Spec.Monotone
import Verif.Lemmas.RoundsTo
import Verif.Lemmas.Scale
import Verif.Lemmas.Order
/-!
# Proof rules for monotonicity, in every rounding

Rounding is monotone, so every operation that is monotone over the extended reals is monotone after rounding.
-/

namespace Traquer
open FloatLit FP
variable {ρ : Rounding} {x y x' y' c : FP ρ}

namespace FP

/-- Rounding of an extended real number. -/
noncomputable def rndX (ρ : Rounding) : EReal → EReal
  | ⊥ => ⊥
  | ⊤ => ⊤
  | (a : ℝ) => rndE ρ a

theorem rndX_coe (a : ℝ) : rndX ρ (a : EReal) = rndE ρ a := rfl
theorem rndX_top : rndX ρ ⊤ = ⊤ := rfl
theorem rndX_bot : rndX ρ ⊥ = ⊥ := rfl

theorem rndX_mono {a b : EReal} (h : a ≤ b) : rndX ρ a ≤ rndX ρ b := by
  induction a with
  | bot => exact bot_le
  | top => rw [top_le_iff.1 h]
  | coe a =>
    induction b with
    | bot => exact absurd h (not_le.2 (EReal.bot_lt_coe a))
    | top => exact le_top
    | coe b => exact rndE_mono (EReal.coe_le_coe_iff.1 h)

theorem toE_mk (s : Bool) (a : ℝ) : (mk s a : FP ρ).toE = rndE ρ a := (Rounds.to ⟨s, rfl⟩).2
theorem mk_ne_nan (s : Bool) (a : ℝ) : (mk s a : FP ρ) ≠ nan := by
  have := (Rounds.to (x := (mk s a : FP ρ)) ⟨s, rfl⟩).1
  intro e
  rw [e] at this
  cases this

theorem toE_neg (x : FP ρ) : (-x).toE = -x.toE := by
  show (FP.neg x).toE = _
  cases x with
  | nan => simp [FP.neg, toE]
  | inf b => cases b <;> simp [FP.neg, toE]
  | negz => simp [FP.neg, toE]
  | fin r => by_cases h : r = 0 <;> simp [FP.neg, toE, h]

theorem toE_add (h : x + y ≠ nan) : (x + y).toE = rndX ρ (x.toE + y.toE) := by
  change FP.add x y ≠ nan at h
  show (FP.add x y).toE = _
  cases x with
  | nan => exact absurd rfl h
  | inf a =>
    cases y with
    | nan => exact absurd rfl h
    | inf b => cases a <;> cases b <;> first | exact absurd rfl h | rfl
    | negz => cases a <;> simp [FP.add, toE, rndX_top, rndX_bot]
    | fin b => cases a <;> simp [FP.add, toE, rndX_top, rndX_bot]
  | negz =>
    cases y with
    | nan => exact absurd rfl h
    | inf b => cases b <;> simp [FP.add, toE, rndX_top, rndX_bot]
    | negz => simp only [FP.add, toE, add_zero]; exact rndE_zero.symm
    | fin b => exact (toE_mk false b).trans (by simp only [toE, zero_add]; rfl)
  | fin a =>
    cases y with
    | nan => exact absurd rfl h
    | inf b => cases b <;> simp [FP.add, toE, rndX_top, rndX_bot]
    | negz => exact (toE_mk false a).trans (by simp only [toE, add_zero]; rfl)
    | fin b => exact (toE_mk false (a + b)).trans (by simp only [toE]; rfl)

theorem mul_nan' : x * (nan : FP ρ) = nan := by cases x <;> rfl

theorem times_comm (x y : FP ρ) : x * y = y * x := by
  show FP.mul x y = FP.mul y x
  cases x <;> cases y <;> simp [FP.mul, mul_comm, bne_comm, FP.sgn]

theorem toE_inf_mul (a : Bool) (h : inf a * y ≠ nan) : (inf a * y).toE = rndX ρ ((inf a : FP ρ).toE * y.toE) := by
  change FP.mul (inf a) y ≠ nan at h
  show (FP.mul (inf a) y).toE = _
  cases y with
  | nan => exact absurd rfl h
  | inf b => cases a <;> cases b <;> simp [FP.mul, sgn, toE, rndX_top, rndX_bot]
  | negz => exact absurd (by simp [FP.mul]) h
  | fin b =>
    rcases lt_trichotomy b 0 with hb | rfl | hb
    · cases a <;> simp [FP.mul, sgn, toE, hb, hb.ne, EReal.top_mul_coe_of_neg, EReal.bot_mul_coe_of_neg, rndX_top, rndX_bot]
    · exact absurd (by simp [FP.mul]) h
    · cases a <;> simp [FP.mul, sgn, toE, hb.not_gt, hb.ne', hb, EReal.top_mul_coe_of_pos, EReal.bot_mul_coe_of_pos, rndX_top, rndX_bot]

theorem toE_mul (h : x * y ≠ nan) : (x * y).toE = rndX ρ (x.toE * y.toE) := by
  cases x with
  | nan => exact absurd rfl h
  | inf a => exact toE_inf_mul a h
  | negz =>
    cases y with
    | nan => exact absurd rfl h
    | inf b => rw [times_comm] at h ⊢; rw [mul_comm (FP.toE _)]; exact toE_inf_mul b h
    | negz => exact (toE_mk _ _).trans (by simp only [toE, val, mul_zero]; rfl)
    | fin b => exact (toE_mk _ _).trans (by simp only [toE, val, zero_mul]; rfl)
  | fin a =>
    cases y with
    | nan => exact absurd rfl h
    | inf b => rw [times_comm] at h ⊢; rw [mul_comm (FP.toE _)]; exact toE_inf_mul b h
    | negz => exact (toE_mk _ _).trans (by simp only [toE, val, mul_zero]; rfl)
    | fin b => exact (toE_mk _ _).trans (by simp only [toE, val]; rfl)

theorem toE_div_pos {r : ℝ} (hr : 0 < r) (h : x ≠ nan) : (x / fin r).toE = rndX ρ (x.toE * ((r⁻¹ : ℝ) : EReal)) := by
  show (FP.div x (fin r)).toE = _
  have hi := inv_pos.2 hr
  cases x with
  | nan => exact absurd rfl h
  | inf a =>
    cases a <;> simp [FP.div, sgn, toE, hr.not_gt, EReal.top_mul_coe_of_pos hi, EReal.bot_mul_coe_of_pos hi, rndX_top, rndX_bot]
  | negz =>
    simp only [FP.div, val, if_neg hr.ne', zero_div]
    exact (toE_mk _ _).trans (by simp only [toE, zero_mul]; rfl)
  | fin a =>
    have e : FP.div (fin a : FP ρ) (fin r) = mk (sgn (fin a : FP ρ) != sgn (fin r : FP ρ)) (a * r⁻¹) := by
      simp [FP.div, val, hr.ne', div_eq_mul_inv]
    rw [e]
    exact toE_mk _ _

theorem toE_div_zero (h : x / fin 0 ≠ nan) : (x / fin 0).toE = if x.toE < 0 then ⊥ else ⊤ := by
  change FP.div x (fin 0) ≠ nan at h
  show (FP.div x (fin 0)).toE = _
  cases x with
  | nan => exact absurd rfl h
  | inf a => cases a <;> simp [FP.div, sgn, toE]
  | negz => exact absurd (by simp [FP.div, val]) h
  | fin a =>
    by_cases ha : a = 0
    · exact absurd (by simp [FP.div, val, ha]) h
    · by_cases hn : a < 0
      · simp [FP.div, val, ha, sgn, hn, toE]
      · simp [FP.div, val, ha, sgn, hn, toE]

theorem toE_div_inf (h : x / inf false ≠ nan) : (x / inf false).toE = 0 := by
  change FP.div x (inf false) ≠ nan at h
  show (FP.div x (inf false)).toE = _
  cases x with
  | nan => exact absurd rfl h
  | inf a => exact absurd rfl h
  | negz => simp [FP.div, sgn, toE]
  | fin a => by_cases hn : a < 0 <;> simp [FP.div, sgn, toE, hn]

end FP

theorem notAbove_iff : NotAbove x y ↔ (x ≠ nan → y ≠ nan → x.toE ≤ y.toE) := by
  rw [NotAbove, ← Bool.not_eq_true, lt_iff]
  constructor
  · intro h hx hy
    by_contra hlt
    exact h ⟨hy, hx, not_le.1 hlt⟩
  · rintro h ⟨hy, hx, hlt⟩
    exact absurd (h hx hy) (not_le.2 hlt)

theorem nonNeg_iff : NonNegOrNaN x ↔ (x ≠ nan → 0 ≤ x.toE) := by
  constructor
  · rintro (rfl | rfl | ⟨a, h, h0⟩) hn
    · exact absurd rfl hn
    · exact le_top
    · rw [h.toE]; exact_mod_cast h0
  · intro h
    cases x with
    | nan => exact .inl rfl
    | inf b =>
      cases b
      · exact .inr (.inl rfl)
      · exact absurd (h (by simp)) (by simp [toE])
    | negz => exact .inr (.inr ⟨0, ⟨trivial, rfl⟩, le_rfl⟩)
    | fin r => exact .inr (.inr ⟨r, ⟨trivial, rfl⟩, EReal.coe_nonneg.1 (h (by simp))⟩)

theorem nonNeg_iff_notAbove : NonNegOrNaN x ↔ NotAbove 0 x := by
  rw [nonNeg_iff, notAbove_iff, zero_lit]
  exact ⟨fun h _ => h, fun h => h (by simp)⟩

namespace NotAbove

theorem refl (x : FP ρ) : NotAbove x x := notAbove_iff.2 fun _ _ => le_rfl

theorem neg (h : NotAbove x y) : NotAbove (-y) (-x) := by
  rw [notAbove_iff] at *
  intro h1 h2
  rw [toE_neg, toE_neg]
  refine EReal.neg_le_neg_iff.2 (h ?_ ?_) <;> rintro rfl <;> contradiction

theorem add (h : NotAbove x x') (g : NotAbove y y') : NotAbove (x + y) (x' + y') := by
  rw [notAbove_iff] at *
  intro h1 h2
  rw [toE_add h1, toE_add h2]
  refine rndX_mono (add_le_add (h ?_ ?_) (g ?_ ?_))
  · rintro rfl; exact h1 rfl
  · rintro rfl; exact h2 rfl
  · rintro rfl; exact h1 add_nan
  · rintro rfl; exact h2 add_nan

theorem sub (h : NotAbove x x') (g : NotAbove y' y) : NotAbove (x - y) (x' - y') := h.add g.neg

theorem sub_nonneg (h : NotAbove x y) : NonNegOrNaN (y - x) := by
  rw [nonNeg_iff]
  intro hn
  change y + -x ≠ nan at hn
  show 0 ≤ (y + -x).toE
  have hy : y ≠ nan := by rintro rfl; exact hn rfl
  have hx : x ≠ nan := by rintro rfl; exact hn add_nan
  have hle := notAbove_iff.1 h hx hy
  rw [toE_add hn, toE_neg]
  have h0 : rndX ρ 0 = 0 := rndE_zero
  rw [← h0]
  refine rndX_mono ?_
  cases y with
  | nan => exact absurd rfl hy
  | inf b =>
    cases b
    · cases x with
      | nan => exact absurd rfl hx
      | inf a => cases a <;> first | exact absurd rfl hn | simp [toE]
      | negz => simp [toE]
      | fin a => simp [toE, ← EReal.coe_neg]
    · cases x with
      | nan => exact absurd rfl hx
      | inf a => cases a <;> first | exact absurd rfl hn | simp [toE] at hle
      | negz => simp [toE] at hle
      | fin a => simp [toE] at hle
  | negz =>
    cases x with
    | nan => exact absurd rfl hx
    | inf a => cases a <;> simp [toE] at hle ⊢
    | negz => simp [toE]
    | fin a => simpa [toE] using hle
  | fin r =>
    cases x with
    | nan => exact absurd rfl hx
    | inf a => cases a <;> simp [toE] at hle ⊢
    | negz => simpa [toE] using hle
    | fin a =>
      have : a ≤ r := EReal.coe_le_coe_iff.1 hle
      simp only [toE, ← EReal.coe_neg, ← EReal.coe_add]
      exact EReal.coe_nonneg.2 (by linarith)

theorem mul_right (h : NotAbove x y) (hc : NonNegOrNaN c) : NotAbove (x * c) (y * c) := by
  rw [notAbove_iff] at *
  rw [nonNeg_iff] at hc
  intro h1 h2
  rw [toE_mul h1, toE_mul h2]
  refine rndX_mono (mul_le_mul_of_nonneg_right (h ?_ ?_) (hc ?_))
  · rintro rfl; exact h1 rfl
  · rintro rfl; exact h2 rfl
  · rintro rfl; exact h1 (by cases x <;> rfl)

theorem mul_left (h : NotAbove x y) (hc : NonNegOrNaN c) : NotAbove (c * x) (c * y) := by
  rw [times_comm c, times_comm c]
  exact h.mul_right hc

theorem div (h : NotAbove x y) (hc : SignClear c) : NotAbove (x / c) (y / c) := by
  rw [notAbove_iff] at *
  intro h1 h2
  have hx : x ≠ nan := by rintro rfl; exact h1 rfl
  have hy : y ≠ nan := by rintro rfl; exact h2 rfl
  rcases hc with rfl | rfl | ⟨r, hr, rfl⟩
  · exact absurd div_nan h1
  · rw [toE_div_inf h1, toE_div_inf h2]
  · rcases hr.eq_or_lt with rfl | hr
    · rw [toE_div_zero h1, toE_div_zero h2]
      have := h hx hy
      split
      · exact bot_le
      · rename_i hn
        rw [if_neg (not_lt.2 ((not_lt.1 hn).trans this))]
    · rw [toE_div_pos hr hx, toE_div_pos hr hy]
      exact rndX_mono (mul_le_mul_of_nonneg_right (h hx hy) (EReal.coe_nonneg.2 (inv_pos.2 hr).le))

theorem fsum {l l' : List (FP ρ)} (h : Each NotAbove l l') : NotAbove (fsum l) (Traquer.fsum l') :=
  foldl_rel (X := NotAbove) (.refl 0) h fun _ _ hs _ _ hx => hs.add hx

end NotAbove

end Traquer
