import Verif.Lemmas.Monotone
import Verif.Lemmas.Mirror
import Verif.Lemmas.Units
import Verif.Props.BandOrder
/-!
# Signed numbers bounded by another number, in every rounding
-/

namespace Traquer
open FP FloatLit
variable {ρ : Rounding} {x y x' y' c : FP ρ}

/-- Neither `x` nor `-x` is above `y`. -/
def Balanced (x y : FP ρ) : Prop := NotAbove x y ∧ NotAbove (-x) y

theorem NotAbove.same_left (h : NotAbove x' y) (e : SameNumber x x') : NotAbove x y := by
  rw [NotAbove] at *
  rwa [SameNumber.lt (SameNumber.refl y) e]

theorem NotAbove.same_right (h : NotAbove x y') (e : SameNumber y y') : NotAbove x y := by
  rw [NotAbove] at *
  rwa [SameNumber.lt e (SameNumber.refl x)]

theorem zero_over_zero (hx : x ⇓ 0) (hy : y ⇓ 0) : x / y = FP.nan := by
  rcases is_iff.1 hx with rfl | ⟨rfl, -⟩ <;> rcases is_iff.1 hy with rfl | ⟨rfl, -⟩ <;> simp [div_def, FP.div, FP.val]

namespace Balanced

theorem add (h : Balanced x y) (g : Balanced x' y') : Balanced (x + x') (y + y') :=
  ⟨h.1.add g.1, (h.2.add g.2).same_left (neg_add_same x x')⟩

theorem mul_right (h : Balanced x y) (hc : NonNegOrNaN c) : Balanced (x * c) (y * c) :=
  ⟨h.1.mul_right hc, (h.2.mul_right hc).same_left (neg_mul_same x c)⟩

theorem mul_left (h : Balanced x y) (hc : NonNegOrNaN c) : Balanced (c * x) (c * y) := by
  rw [times_comm c, times_comm c]
  exact h.mul_right hc

theorem div (h : Balanced x y) (hc : SignClear c) : Balanced (x / c) (y / c) :=
  ⟨h.1.div hc, (h.2.div hc).same_left (neg_div_same x c)⟩

theorem zero : Balanced (0 : FP ρ) 0 := by
  refine ⟨.refl 0, notAbove_iff.2 fun _ _ => ?_⟩
  rw [toE_neg, isZero.toE]
  simp

theorem fsum {l l' : List (FP ρ)} (h : Each Balanced l l') : Balanced (fsum l) (Traquer.fsum l') :=
  foldl_rel (X := Balanced) zero h fun _ _ hs _ _ hx => hs.add hx

theorem nan : Balanced (FP.nan : FP ρ) FP.nan := ⟨.refl _, .refl _⟩

/-- A number and its magnitude. -/
theorem abs (x : FP ρ) : Balanced x (fabs x) := by
  constructor
  · refine notAbove_iff.2 fun h1 h2 => ?_
    cases x with
    | nan => exact absurd rfl h1
    | inf b => exact le_top
    | negz => exact (show ((0 : ℝ) : EReal) ≤ ((0 : ℝ) : EReal) from le_rfl)
    | fin r => exact EReal.coe_le_coe_iff.2 (le_abs_self r)
  · refine notAbove_iff.2 fun h1 h2 => ?_
    rw [toE_neg]
    cases x with
    | nan => exact absurd rfl h2
    | inf b => exact le_top
    | negz => exact (show -((0 : ℝ) : EReal) ≤ ((0 : ℝ) : EReal) by simp)
    | fin r => exact (show -((r : ℝ) : EReal) ≤ ((|r| : ℝ) : EReal) by rw [← EReal.coe_neg]; exact EReal.coe_le_coe_iff.2 (neg_le_abs r))

/-- The difference and the sum of numbers that are not negative. -/
theorem diff (hx : NonNegOrNaN x) (hy : NonNegOrNaN y) : Balanced (x - y) (x + y) := by
  have neg : ∀ {z : FP ρ}, NonNegOrNaN z → NotAbove (-z) z := fun {z} hz => notAbove_iff.2 fun _ h2 => by
    have h0 := nonNeg_iff.1 hz h2
    rw [toE_neg]
    exact (EReal.neg_le_zero.2 h0).trans h0
  refine ⟨(NotAbove.refl x).add (neg hy), ?_⟩
  refine NotAbove.same_left ?_ (neg_add_same x (-y))
  refine (neg hx).add ?_
  rw [neg_neg']
  exact .refl y

theorem neg (h : Balanced x y) : Balanced (-x) y := ⟨h.2, by rw [neg_neg']; exact h.1⟩

theorem is (h : Balanced x y) {a b : ℝ} (hx : x ⇓ a) (hy : y ⇓ b) : -b ≤ a ∧ a ≤ b := by
  have nx : x ≠ FP.nan := by rintro rfl; exact hx.1
  have ny : y ≠ FP.nan := by rintro rfl; exact hy.1
  have nx' : -x ≠ FP.nan := by
    intro e; apply nx; rw [← neg_neg' x, e]; rfl
  have h1 := notAbove_iff.1 h.1 nx ny
  have h2 := notAbove_iff.1 h.2 nx' ny
  rw [hx.toE, hy.toE] at h1
  rw [toE_neg, hx.toE, hy.toE, ← EReal.coe_neg] at h2
  have h1 := EReal.coe_le_coe_iff.1 h1
  have h2 := EReal.coe_le_coe_iff.1 h2
  exact ⟨by linarith, h1⟩

/-- The quotient is between −1 and 1. -/
theorem share (h : Balanced x y) : InRange (-1) 1 (x / y) := by
  by_cases nx : x = FP.nan
  · subst nx; exact .inl rfl
  by_cases ny : y = FP.nan
  · subst ny; exact .inl div_nan
  have nx' : -x ≠ FP.nan := by
    intro e; apply nx; rw [← neg_neg' x, e]; rfl
  have h1 := notAbove_iff.1 h.1 nx ny
  have h2 := notAbove_iff.1 h.2 nx' ny
  rw [toE_neg] at h2
  have key : ∀ {a b : ℝ}, x ⇓ a → y ⇓ b → InRange (-1) 1 (x / y) := fun {a b} hx hy => by
    obtain ⟨k1, k2⟩ := h.is hx hy
    by_cases hb : b = 0
    · subst hb
      obtain rfl : a = 0 := by linarith
      exact .inl (zero_over_zero hx hy)
    · have hp : 0 < b := lt_of_le_of_ne (by linarith) (Ne.symm hb)
      obtain ⟨r, hr, r0, r1⟩ := (rounds_div hx hy hb).within (m := 1) (n := 1) (by norm_num) (by norm_num)
        (by rw [le_div_iff₀ hp]; push_cast; linarith) (by rw [div_le_iff₀ hp]; push_cast; linarith)
      exact .inr ⟨r, hr, by simpa using r0, by simpa using r1⟩
  have keyI : ∀ {a : ℝ} {s : Bool}, x ⇓ a → y = inf s → InRange (-1) 1 (x / y) := fun {a s} hx hy => by
    subst hy
    exact .inr ⟨0, div_inf hx s, by norm_num, by norm_num⟩
  cases x with
  | nan => exact absurd rfl nx
  | inf s =>
    cases y with
    | nan => exact absurd rfl ny
    | inf t => exact .inl rfl
    | negz => cases s <;> simp [toE] at h1 h2
    | fin r => cases s <;> simp [toE] at h1 h2
  | negz =>
    cases y with
    | nan => exact absurd rfl ny
    | inf t => exact keyI is_negz rfl
    | negz => exact key is_negz is_negz
    | fin r => exact key is_negz (is_fin r)
  | fin q =>
    cases y with
    | nan => exact absurd rfl ny
    | inf t => exact keyI (is_fin q) rfl
    | negz => exact key (is_fin q) is_negz
    | fin r => exact key (is_fin q) (is_fin r)

end Balanced

theorem each_balanced_nans (n : ℕ) : Each Balanced (nans n : List (FP ρ)) (nans n) := by
  unfold nans
  induction n with
  | zero => exact .nil
  | succ n ih => exact .cons Balanced.nan ih

end Traquer
