import Verif.Lemmas.Range
/-!
# Facts that hold in every rounding
-/

namespace Traquer
open FloatLit

namespace FP
variable {ρ : Rounding} {x y : FP ρ} {a b : ℝ}

/-- `x` is the real number `a` after rounding (it may have overflowed). -/
def Rounds (x : FP ρ) (a : ℝ) : Prop := ∃ s, x = mk s a

theorem rnd_zero : ρ.rnd 0 = 0 := by
  have := ρ.nat 0 (by norm_num)
  simpa using this
theorem rnd_one : ρ.rnd 1 = 1 := by
  have := ρ.nat 1 (by norm_num)
  simpa using this
theorem fits_zero : ρ.fits 0 := by
  have := ρ.fits_nat 0 (by norm_num)
  simpa using this
theorem rnd_nonneg (h : 0 ≤ a) : 0 ≤ ρ.rnd a := rnd_zero (ρ := ρ) ▸ ρ.mono 0 a h
theorem rnd_nonpos (h : a ≤ 0) : ρ.rnd a ≤ 0 := rnd_zero (ρ := ρ) ▸ ρ.mono a 0 h

/-- A value that does not overflow is finite. -/
theorem mk_is {s : Bool} (h : ρ.fits (ρ.rnd a)) : (mk s a : FP ρ) ⇓ ρ.rnd a := by
  unfold mk
  split
  · rename_i h0
    rw [h0]
    split
    · exact is_negz
    · exact is_fin 0
  · exact is_fin _

theorem mk_inf {s : Bool} (h : ¬ ρ.fits (ρ.rnd a)) : (mk s a : FP ρ) = inf (decide (a < 0)) := by
  unfold mk
  rw [if_neg, if_neg h]
  intro h0
  rw [h0] at h
  exact h fits_zero

theorem Rounds.cases (h : Rounds x a) : (ρ.fits (ρ.rnd a) ∧ x ⇓ ρ.rnd a) ∨ (¬ ρ.fits (ρ.rnd a) ∧ x = inf (decide (a < 0))) := by
  obtain ⟨s, rfl⟩ := h
  by_cases h : ρ.fits (ρ.rnd a)
  · exact Or.inl ⟨h, mk_is h⟩
  · exact Or.inr ⟨h, mk_inf h⟩

theorem mk_zero_true : (mk true 0 : FP ρ) = negz := by
  unfold mk
  rw [if_pos rnd_zero, if_pos (Or.inr ⟨rfl, rfl⟩)]

theorem rounds_add (hx : x ⇓ a) (hy : y ⇓ b) : Rounds (x + y) (a + b) := by
  rcases is_iff.1 hx with rfl | ⟨rfl, rfl⟩ <;> rcases is_iff.1 hy with rfl | ⟨rfl, rfl⟩
  · exact ⟨false, rfl⟩
  · exact ⟨false, by rw [add_zero]; rfl⟩
  · exact ⟨false, by rw [zero_add]; rfl⟩
  · exact ⟨true, by rw [zero_add, mk_zero_true]; rfl⟩

theorem rounds_sub (hx : x ⇓ a) (hy : y ⇓ b) : Rounds (x - y) (a - b) := by
  rw [sub_eq_add_neg a b]
  exact rounds_add hx (is_neg hy)

theorem rounds_mul (hx : x ⇓ a) (hy : y ⇓ b) : Rounds (x * y) (a * b) :=
  ⟨_, by rw [mul_finite hx.1 hy.1, hx.2, hy.2]⟩

theorem rounds_div (hx : x ⇓ a) (hy : y ⇓ b) (hb : b ≠ 0) : Rounds (x / y) (a / b) :=
  ⟨_, by rw [div_finite hx.1 hy.1 (by rw [hy.2]; exact hb), hx.2, hy.2]⟩

/-- Natural numbers up to 2^53 are exact. -/
theorem isFlt {n : ℕ} (h : n ≤ 2 ^ 53) : (flt n : FP ρ) ⇓ (n : ℝ) := by
  have := mk_is (ρ := ρ) (s := false) (a := n) (by rw [ρ.nat n h]; exact ρ.fits_nat n h)
  rwa [ρ.nat n h] at this

theorem isLit (n : ℕ) [n.AtLeastTwo] (h : n ≤ 2 ^ 53) : (OfNat.ofNat n : FP ρ) ⇓ (OfNat.ofNat n : ℝ) := isFlt h
theorem isZero : (0 : FP ρ) ⇓ 0 := (isFlt (n := 0) (by norm_num)).congr (by simp)
theorem isOne : (1 : FP ρ) ⇓ 1 := (isFlt (n := 1) (by norm_num)).congr (by simp)

/-- Rounding keeps a number between two natural numbers there. -/
theorem rnd_between {m n : ℕ} (hm : m ≤ 2 ^ 53) (hn : n ≤ 2 ^ 53) (h1 : (m : ℝ) ≤ a) (h2 : a ≤ n) :
    (m : ℝ) ≤ ρ.rnd a ∧ ρ.rnd a ≤ n ∧ ρ.fits (ρ.rnd a) := by
  have r1 := ρ.mono _ _ h1
  have r2 := ρ.mono _ _ h2
  rw [ρ.nat m hm] at r1
  rw [ρ.nat n hn] at r2
  refine ⟨r1, r2, ρ.fits_mono _ n ?_ (ρ.fits_nat n hn)⟩
  have : (0 : ℝ) ≤ m := by positivity
  rw [abs_of_nonneg (by linarith), abs_of_nonneg (by linarith)]
  exact r2

/-- A rounded number between 0 and `n`. -/
theorem Rounds.between {n : ℕ} (h : Rounds x a) (hn : n ≤ 2 ^ 53) (h1 : 0 ≤ a) (h2 : a ≤ n) : ∃ r, x ⇓ r ∧ 0 ≤ r ∧ r ≤ n := by
  obtain ⟨r1, r2, r3⟩ := rnd_between (ρ := ρ) (m := 0) (by norm_num) hn (by simpa using h1) h2
  obtain ⟨s, rfl⟩ := h
  exact ⟨_, mk_is r3, by simpa using r1, r2⟩

theorem Rounds.between_neg {n : ℕ} (h : Rounds x a) (hn : n ≤ 2 ^ 53) (h1 : -n ≤ a) (h2 : a ≤ 0) : ∃ r, x ⇓ r ∧ -n ≤ r ∧ r ≤ 0 := by
  obtain ⟨r1, r2, r3⟩ := rnd_between (ρ := ρ) (a := -a) (m := 0) (by norm_num) hn (by simpa using h2) (by linarith)
  rw [ρ.odd] at r1 r2 r3
  have hf : ρ.fits (ρ.rnd a) := ρ.fits_mono _ _ (by rw [abs_neg]) r3
  obtain ⟨s, rfl⟩ := h
  refine ⟨_, mk_is hf, by linarith, ?_⟩
  simp at r1
  linarith

/-- The quotient of two rounded numbers `0 ≤ a ≤ b` is NaN or between 0 and 1. -/
theorem Rounds.div_inRange (hx : Rounds x a) (hy : Rounds y b) (h0 : 0 ≤ a) (h1 : a ≤ b) : InRange 0 1 (x / y) := by
  have hab := ρ.mono _ _ h1
  have ha := rnd_nonneg (ρ := ρ) h0
  rcases hy.cases with ⟨fy, iy⟩ | ⟨fy, iy⟩
  · have fx : ρ.fits (ρ.rnd a) := ρ.fits_mono _ _ (by rw [abs_of_nonneg ha, abs_of_nonneg (ha.trans hab)]; exact hab) fy
    rcases hx.cases with ⟨-, ix⟩ | ⟨h, -⟩
    swap; · exact absurd fx h
    by_cases hb : ρ.rnd b = 0
    · rw [hb] at iy hab
      have e : ρ.rnd a = 0 := le_antisymm hab ha
      rw [e] at ix
      left
      rcases is_iff.1 ix with rfl | ⟨rfl, -⟩ <;> rcases is_iff.1 iy with rfl | ⟨rfl, -⟩ <;> simp [div_def, div, val] <;> rfl
    · have hb' : 0 < ρ.rnd b := lt_of_le_of_ne (ha.trans hab) (Ne.symm hb)
      obtain ⟨r, h⟩ := (rounds_div ix iy hb).between (n := 1) (by norm_num) (by positivity) (by
        rw [Nat.cast_one, div_le_one hb']; exact hab)
      exact Or.inr ⟨r, by simpa using h⟩
  · rw [decide_eq_false (not_lt.2 (h0.trans h1))] at iy
    rw [iy]
    rcases hx.cases with ⟨-, ix⟩ | ⟨-, ix⟩
    · rcases is_iff.1 ix with rfl | ⟨rfl, -⟩
      · right
        rw [show (fin (ρ.rnd a) / inf false : FP ρ) = if sgn (fin (ρ.rnd a) : FP ρ) != false then negz else fin 0 from rfl]
        split
        · exact ⟨0, is_negz, le_rfl, zero_le_one⟩
        · exact ⟨0, is_fin 0, le_rfl, zero_le_one⟩
      · right
        exact ⟨0, is_negz, le_rfl, zero_le_one⟩
    · left; rw [ix]; rfl

end FP

open FP

/-- A product of a number in `[0, 1]` with `-n`. -/
theorem inRange_neg_mul {ρ : Rounding} {x c : FP ρ} {n : ℕ} (hn : n ≤ 2 ^ 53) (hc : c ⇓ -n) (hx : InRange 0 1 x) :
    InRange (-n) 0 (c * x) := by
  rcases hx with rfl | ⟨r, hr, r0, r1⟩
  · exact inRange_of_isNaN (by have : isNaN (nan : FP ρ) = true := rfl; nanp)
  · have hp : (0 : ℝ) ≤ n := by positivity
    obtain ⟨u, h⟩ := (rounds_mul hc hr).between_neg hn (by nlinarith) (by nlinarith)
    exact Or.inr ⟨u, h⟩

/-- A product of a number in `[0, 1]` with `n`. -/
theorem inRange_mul_nat {ρ : Rounding} {x c : FP ρ} {n : ℕ} (hn : n ≤ 2 ^ 53) (hc : c ⇓ n) (hx : InRange 0 1 x) :
    InRange 0 n (c * x) := by
  rcases hx with rfl | ⟨r, hr, r0, r1⟩
  · exact inRange_of_isNaN (by have : isNaN (nan : FP ρ) = true := rfl; nanp)
  · have hp : (0 : ℝ) ≤ n := by positivity
    obtain ⟨u, h⟩ := (rounds_mul hc hr).between hn (by positivity) (by nlinarith)
    exact Or.inr ⟨u, h⟩

end Traquer
