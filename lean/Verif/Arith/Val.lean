import Verif.Arith.FP
import Verif.Lemmas.Lists
import Mathlib.Tactic.Linarith
import Mathlib.Tactic.Ring
import Mathlib.Tactic.NormNum
import Mathlib.Tactic.FieldSimp
import Mathlib.Algebra.BigOperators.Group.List.Basic
/-!
# The value of an expression

`x ⇓ r`: the float `x` is finite and has the real value `r`.
-/

namespace Traquer
open FloatLit

/-- The float `x` is finite with real value `r`. -/
def FP.Is {ρ : Rounding} (x : FP ρ) (r : ℝ) : Prop := x.Finite ∧ x.val = r

@[inherit_doc] infix:50 " ⇓ " => FP.Is

/-- Real arithmetic with the special values of IEEE-754. -/
abbrev XF := FP Rounding.exact

namespace FP
variable {ρ : Rounding} {x y z : FP ρ} {a b c : ℝ}

theorem is_iff : x ⇓ a ↔ x = fin a ∨ (x = negz ∧ a = 0) := by
  cases x <;> simp [Is, Finite, val, eq_comm]

theorem Is.unique (h : x ⇓ a) (h' : x ⇓ b) : a = b := h.2.symm.trans h'.2
theorem Is.congr (h : x ⇓ a) (e : a = b) : x ⇓ b := e ▸ h
theorem Finite.is (h : x.Finite) : x ⇓ x.val := ⟨h, rfl⟩
theorem Is.finite (h : x ⇓ a) : x.Finite := h.1
theorem Is.val_eq (h : x ⇓ a) : x.val = a := h.2
theorem Is.not_nan (h : x ⇓ a) : Traquer.isNaN x = false := by
  rcases is_iff.1 h with rfl | ⟨rfl, -⟩ <;> rfl
theorem Is.ne_nan (h : x ⇓ a) : x ≠ nan := by
  rcases is_iff.1 h with rfl | ⟨rfl, -⟩ <;> simp
theorem Is.toE (h : x ⇓ a) : x.toE = (a : EReal) := by
  rcases is_iff.1 h with rfl | ⟨rfl, rfl⟩ <;> simp [FP.toE]
theorem is_fin (r : ℝ) : (fin r : FP ρ) ⇓ r := ⟨trivial, rfl⟩
theorem is_negz : (negz : FP ρ) ⇓ 0 := ⟨trivial, rfl⟩
@[simp] theorem finite_fin (r : ℝ) : (fin r : FP ρ).Finite := trivial
@[simp] theorem val_fin (r : ℝ) : (fin r : FP ρ).val = r := rfl

/-! ## Comparisons (every rounding) -/

theorem is_lt (hx : x ⇓ a) (hy : y ⇓ b) : (x <. y) = decide (a < b) := by
  have h1 := hx.not_nan
  have h2 := hy.not_nan
  rw [isNaN_def] at h1 h2
  simp [lt_def, lt, h1, h2, hx.toE, hy.toE]

theorem is_le (hx : x ⇓ a) (hy : y ⇓ b) : (x <=. y) = decide (a ≤ b) := by
  have h1 := hx.not_nan
  have h2 := hy.not_nan
  rw [isNaN_def] at h1 h2
  simp [le_def, le, h1, h2, hx.toE, hy.toE]

theorem is_feq (hx : x ⇓ a) (hy : y ⇓ b) : (x ==. y) = decide (a = b) := by
  have h1 := hx.not_nan
  have h2 := hy.not_nan
  rw [isNaN_def] at h1 h2
  simp [feq_def, feq, h1, h2, hx.toE, hy.toE]

theorem is_fmax (hx : x ⇓ a) (hy : y ⇓ b) : fmax x y ⇓ max a b := by
  unfold fmax
  rw [if_neg (by simp [hx.not_nan]), if_neg (by simp [hy.not_nan]), is_lt hx hy]
  by_cases h : a < b
  · simp [h, max_eq_right h.le, hy]
  · simp [h, max_eq_left (not_lt.1 h), hx]

theorem is_fmin (hx : x ⇓ a) (hy : y ⇓ b) : fmin x y ⇓ min a b := by
  unfold fmin
  rw [if_neg (by simp [hx.not_nan]), if_neg (by simp [hy.not_nan]), is_lt hy hx]
  by_cases h : b < a
  · simp [h, min_eq_right h.le, hy]
  · simp [h, min_eq_left (not_lt.1 h), hx]

theorem is_clampLit {lo hi : FP ρ} {l u : ℝ} (hx : x ⇓ a) (hl : lo ⇓ l) (hu : hi ⇓ u) (hlu : l ≤ u) :
    clampLit x lo hi ⇓ max l (min a u) := by
  unfold clampLit
  rw [is_lt hx hl, is_lt hu hx]
  by_cases h : a < l
  · simp only [h, decide_true, if_true]
    rw [max_eq_left ((min_le_left _ _).trans h.le)]; exact hl
  · by_cases h' : u < a
    · simp only [h, decide_false, Bool.false_eq_true, if_false, h', decide_true, if_true]
      rw [min_eq_right h'.le, max_eq_right hlu]; exact hu
    · simp only [h, decide_false, Bool.false_eq_true, if_false, h']
      rw [min_eq_left (not_lt.1 h'), max_eq_right (not_lt.1 h)]; exact hx

theorem is_neg (hx : x ⇓ a) : -x ⇓ -a := by
  rcases is_iff.1 hx with rfl | ⟨rfl, rfl⟩
  · rw [neg_def, neg]
    split
    · subst_vars; simpa using is_negz
    · exact is_fin _
  · simpa [neg_def, neg] using is_fin 0

theorem is_abs (hx : x ⇓ a) : fabs x ⇓ |a| := by
  rcases is_iff.1 hx with rfl | ⟨rfl, rfl⟩
  · exact is_fin _
  · simpa [abs_def, abs] using is_fin 0

theorem mul_finite (hx : x.Finite) (hy : y.Finite) : x * y = mk (sgn x != sgn y) (val x * val y) := by
  cases x <;> cases y <;> first | exact hx.elim | exact hy.elim | rfl

theorem div_finite (hx : x.Finite) (hy : y.Finite) (h : val y ≠ 0) :
    x / y = mk (sgn x != sgn y) (val x / val y) := by
  cases x <;> cases y <;> first | exact hx.elim | exact hy.elim | exact if_neg h

/-! ## Exact arithmetic -/

section exact
variable {x y z : XF} {a b c : ℝ}

theorem is_mk (s : Bool) (r : ℝ) : (mk s r : XF) ⇓ r := by
  by_cases h : r = 0
  · subst h
    rw [mk, if_pos (show Rounding.exact.rnd 0 = 0 from rfl)]
    split
    · exact is_negz
    · exact is_fin 0
  · rw [mk, if_neg (show ¬Rounding.exact.rnd r = 0 from h), if_pos (show Rounding.exact.fits _ from trivial)]
    exact is_fin r

theorem mk_exact (r : ℝ) : (mk false r : XF) = fin r := by
  by_cases h : r = 0
  · subst h
    rw [mk, if_pos (show Rounding.exact.rnd 0 = 0 from rfl)]
    simp
  · rw [mk, if_neg (show ¬Rounding.exact.rnd r = 0 from h), if_pos (show Rounding.exact.fits _ from trivial)]
    rfl

theorem is_add (hx : x ⇓ a) (hy : y ⇓ b) : x + y ⇓ a + b := by
  rcases is_iff.1 hx with rfl | ⟨rfl, rfl⟩ <;> rcases is_iff.1 hy with rfl | ⟨rfl, rfl⟩ <;>
    simp only [add_def, add, mk_exact]
  · exact is_fin _
  · simpa using is_fin a
  · simpa using is_fin b
  · simpa using is_negz

theorem is_sub (hx : x ⇓ a) (hy : y ⇓ b) : x - y ⇓ a - b := by
  have := is_add hx (is_neg hy)
  rw [sub_eq_add_neg]
  exact this

theorem is_mul (hx : x ⇓ a) (hy : y ⇓ b) : x * y ⇓ a * b := by
  rcases is_iff.1 hx with rfl | ⟨rfl, rfl⟩ <;> rcases is_iff.1 hy with rfl | ⟨rfl, rfl⟩ <;>
    simp only [mul_def, mul, val] <;> exact is_mk _ _

theorem is_div (hx : x ⇓ a) (hy : y ⇓ b) (hb : b ≠ 0) : x / y ⇓ a / b := by
  rw [div_finite hx.1 hy.1 (by rw [hy.2]; exact hb), hx.2, hy.2]
  exact is_mk _ _

theorem is_sqrt (hx : x ⇓ a) (ha : 0 ≤ a) : Traquer.sqrt x ⇓ Real.sqrt a := by
  rcases is_iff.1 hx with rfl | ⟨rfl, rfl⟩
  · rw [sqrt_def, sqrt, if_neg (not_lt.2 ha)]; exact is_mk _ _
  · simpa [sqrt_def, sqrt] using is_negz

theorem is_exp (hx : x ⇓ a) : Traquer.exp x ⇓ Real.exp a := by
  rcases is_iff.1 hx with rfl | ⟨rfl, rfl⟩ <;> exact is_mk _ _

theorem is_cos (hx : x ⇓ a) : Traquer.cos x ⇓ Real.cos a := by
  rcases is_iff.1 hx with rfl | ⟨rfl, rfl⟩ <;> exact is_mk _ _

theorem is_atan (hx : x ⇓ a) : Traquer.atan x ⇓ Real.arctan a := by
  rcases is_iff.1 hx with rfl | ⟨rfl, rfl⟩
  · exact is_mk _ _
  · rw [Real.arctan_zero]; exact is_negz

theorem is_logWith {f : ℝ → ℝ} (hx : x ⇓ a) (ha : 0 < a) : logWith f x ⇓ f a := by
  rcases is_iff.1 hx with rfl | ⟨rfl, rfl⟩
  · rw [logWith, if_neg ha.ne', if_neg (not_lt.2 ha.le)]; exact is_mk _ _
  · exact absurd ha (lt_irrefl _)

theorem is_ln (hx : x ⇓ a) (ha : 0 < a) : Traquer.ln x ⇓ Real.log a := is_logWith hx ha
theorem is_log2 (hx : x ⇓ a) (ha : 0 < a) : Traquer.log2 x ⇓ Real.logb 2 a := is_logWith hx ha
theorem is_log10 (hx : x ⇓ a) (ha : 0 < a) : Traquer.log10 x ⇓ Real.logb 10 a := is_logWith hx ha

theorem is_flt (n : ℕ) : (flt n : XF) ⇓ (n : ℝ) := is_mk _ _
theorem is_zero : (0 : XF) ⇓ 0 := (is_flt 0).congr (by simp)
theorem is_one : (1 : XF) ⇓ 1 := (is_flt 1).congr (by simp)
theorem is_lit (n : ℕ) [n.AtLeastTwo] : (OfNat.ofNat n : XF) ⇓ (OfNat.ofNat n : ℝ) := is_mk _ _
theorem is_sci (m : ℕ) (s : Bool) (e : ℕ) :
    (OfScientific.ofScientific m s e : XF) ⇓ (OfScientific.ofScientific m s e : ℝ) := is_mk _ _
theorem is_pi : (FloatOps.pi : XF) ⇓ Real.pi := is_mk _ _
theorem is_maxValue : (maxValue : XF) ⇓ (2 - 2 ^ (-52 : ℤ)) * 2 ^ (1023 : ℤ) := is_mk _ _
theorem is_minPositive : (minPositive : XF) ⇓ 2 ^ (-1022 : ℤ) := is_mk _ _
theorem is_epsilon : (epsilon : XF) ⇓ 2 ^ (-52 : ℤ) := is_mk _ _
theorem is_boolF (b : Bool) : (boolF b : XF) ⇓ if b then 1 else 0 := by
  cases b
  · exact is_zero
  · exact is_one

theorem is_floor (hx : x ⇓ a) : Traquer.floor x ⇓ ⌊a⌋ := by
  rcases is_iff.1 hx with rfl | ⟨rfl, rfl⟩
  · exact is_mk _ _
  · exact is_negz.congr (by simp)

theorem is_ceil (hx : x ⇓ a) : Traquer.ceil x ⇓ ⌈a⌉ := by
  rcases is_iff.1 hx with rfl | ⟨rfl, rfl⟩
  · exact is_mk _ _
  · exact is_negz.congr (by simp)

theorem is_fract (hx : x ⇓ a) (ha : 0 ≤ a) : Traquer.fract x ⇓ Int.fract a := by
  rcases is_iff.1 hx with rfl | ⟨rfl, rfl⟩
  · have := is_mk false (a - if 0 ≤ a then ⌊a⌋ else ⌈a⌉)
    rw [if_pos ha] at this
    have e : Traquer.fract (fin a : XF) = mk false (a - (⌊a⌋ : ℝ)) := by
      show fract (fin a : XF) = _
      rw [fract, if_pos ha]
    rw [e]; exact this
  · exact (is_fin 0).congr (by simp)

theorem is_toUsize (hx : x ⇓ a) (ha : a < 2 ^ 64) : Traquer.toUsize x = ⌊a⌋₊ := by
  rcases is_iff.1 hx with rfl | ⟨rfl, rfl⟩
  · show min ⌊a⌋₊ (2 ^ 64 - 1) = _
    apply min_eq_left
    by_cases h : 0 ≤ a
    · have : ⌊a⌋₊ < 2 ^ 64 := (Nat.floor_lt h).2 (by exact_mod_cast ha)
      omega
    · rw [Nat.floor_of_nonpos (le_of_lt (not_le.1 h))]; omega
  · simp [Traquer.toUsize, FloatOps.toUsize, toUsize]

theorem is_signum_pos (hx : x ⇓ a) (ha : 0 < a) : Traquer.signum x ⇓ 1 := by
  rcases is_iff.1 hx with rfl | ⟨rfl, rfl⟩
  · show signum (fin a : XF) ⇓ 1
    simp only [signum, sgn, not_lt.2 ha.le, decide_false, Bool.false_eq_true, if_false]
    exact is_fin 1
  · exact absurd ha (lt_irrefl _)

theorem is_signum_neg (hx : x ⇓ a) (ha : a < 0) : Traquer.signum x ⇓ -1 := by
  rcases is_iff.1 hx with rfl | ⟨rfl, rfl⟩
  · show signum (fin a : XF) ⇓ -1
    simp only [signum, sgn, ha, decide_true, if_true]
    exact is_fin (-1)
  · exact absurd ha (lt_irrefl _)

/-- The sign of a zero difference: `x - y` is `+0.0` unless it is `(-0.0) - (+0.0)`. -/
theorem sub_self_signum (r : ℝ) : Traquer.signum ((fin r : XF) - fin r) ⇓ 1 := by
  rw [sub_def, neg]
  split
  · subst_vars
    simp only [add, mk_exact]
    show signum (fin 0 : XF) ⇓ 1
    simpa [signum, sgn] using is_fin 1
  · simp only [add, mk_exact, add_neg_cancel]
    show signum (fin 0 : XF) ⇓ 1
    simpa [signum, sgn] using is_fin 1

theorem powiLoop_is {r x : XF} {u a : ℝ} (n : ℕ) (hr : r ⇓ u) (hx : x ⇓ a) :
    powiLoop r x n ⇓ u * a ^ n := by
  induction n using Nat.strong_induction_on generalizing r x u a with
  | _ n ih =>
    rw [powiLoop]
    by_cases h0 : n = 0
    · simp [h0, hr]
    · simp only [h0, dite_false]
      have hr' : (if n % 2 = 1 then r * x else r) ⇓ u * a ^ (n % 2) := by
        rcases Nat.mod_two_eq_zero_or_one n with h | h
        · simp [h, hr]
        · simp [h, is_mul hr hx]
      have hn := Nat.div_add_mod n 2
      split
      · rename_i h2
        rw [h2] at hn
        have : n % 2 = n := by omega
        rw [this] at hr'
        convert hr' using 2
        rw [this]
      · have := ih (n / 2) (by omega) hr' (is_mul hx hx)
        convert this using 1
        rw [mul_assoc, ← pow_two, ← pow_mul, ← pow_add, show n % 2 + 2 * (n / 2) = n by omega]

theorem is_powi (n : ℕ) (hx : x ⇓ a) : powi x n ⇓ a ^ n := by
  have := powiLoop_is n is_one hx
  rwa [one_mul] at this

theorem is_powf (hx : x ⇓ a) (hy : y ⇓ b) (ha : 0 < a) : Traquer.powf x y ⇓ a ^ b := by
  show powf x y ⇓ a ^ b
  rcases is_iff.1 hx with rfl | ⟨rfl, rfl⟩
  · rcases is_iff.1 hy with rfl | ⟨rfl, rfl⟩
    · unfold powf
      split
      · rename_i h
        rcases h with h | h | h
        · cases h; simpa using is_fin 1
        · cases h
        · cases h; simpa using is_fin 1
      · simp only [val, ha.ne', if_false, ha, if_true]
        exact is_mk _ _
    · simpa [powf] using is_fin 1
  · exact absurd ha (lt_irrefl _)

/-! ### Folds -/

theorem foldl_is {β : Type} {f : XF → β → XF} {g : ℝ → β → ℝ} {l : List β} {s : XF} {u : ℝ}
    (hs : s ⇓ u) (hf : ∀ s u, ∀ x ∈ l, s ⇓ u → f s x ⇓ g u x) : l.foldl f s ⇓ l.foldl g u := by
  induction l generalizing s u with
  | nil => exact hs
  | cons x l ih =>
    exact ih (hf _ _ x (by simp) hs) (fun s u x hx => hf s u x (by simp [hx]))

/-- A running sum. -/
theorem foldl_add_is {β : Type} {t : β → XF} {v : β → ℝ} {l : List β} {s : XF} {u : ℝ}
    (hs : s ⇓ u) (ht : ∀ x ∈ l, t x ⇓ v x) :
    l.foldl (fun acc x => acc + t x) s ⇓ u + (l.map v).sum := by
  induction l generalizing s u with
  | nil => simpa using hs
  | cons x l ih =>
    have := ih (is_add hs (ht x (by simp))) (fun x hx => ht x (by simp [hx]))
    simpa [add_assoc] using this

theorem is_fsum {l : List XF} (h : ∀ x ∈ l, x.Finite) : fsum l ⇓ (l.map val).sum := by
  have := foldl_add_is (t := fun x : XF => x) (v := val) is_zero (fun x hx => (h x hx).is)
  simpa [fsum] using this

theorem is_fsum_map {β : Type} {t : β → XF} {v : β → ℝ} {l : List β} (h : ∀ x ∈ l, t x ⇓ v x) :
    fsum (l.map t) ⇓ (l.map v).sum := by
  have := is_fsum (l := l.map t) (by
    intro x hx
    obtain ⟨b, hb, rfl⟩ := List.mem_map.1 hx
    exact (h b hb).1)
  rw [List.map_map] at this
  convert this using 2
  apply List.map_congr_left
  intro b hb
  exact (h b hb).2.symm

end exact

/-- Evaluate an expression in exact arithmetic: proves goals `e ⇓ ?r`, leaving side conditions. -/
syntax "fpv" : tactic
macro_rules
  | `(tactic| fpv) => `(tactic| repeat' first
    | assumption
    | (apply FP.is_fmax) | (apply FP.is_fmin) | (apply FP.is_abs) | (apply FP.is_neg)
    | (apply FP.is_add) | (apply FP.is_sub) | (apply FP.is_mul) | (apply FP.is_div)
    | (apply FP.is_sqrt) | (apply FP.is_exp) | (apply FP.is_cos) | (apply FP.is_atan) | (apply FP.is_ln)
    | (apply FP.is_log2) | (apply FP.is_log10) | (apply FP.is_powi) | (apply FP.is_floor)
    | (apply FP.is_ceil)
    | (apply FP.is_zero) | (apply FP.is_one) | (apply FP.is_lit) | (apply FP.is_sci)
    | (apply FP.is_flt) | (apply FP.is_pi) | (apply FP.is_boolF))

end FP
end Traquer
