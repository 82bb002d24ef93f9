import Verif.Arith.Val
/-!
# Evaluation of the model on literals in exact arithmetic

Rewriting lemmas for witnesses: operations on `fin` numerals.
-/

namespace Traquer.FP

theorem eval_add (a b : ℝ) : (fin a + fin b : XF) = fin (a + b) := by rw [add_def, add, mk_exact]

theorem eval_sub (a b : ℝ) : (fin a - fin b : XF) = fin (a - b) := by
  rw [sub_def, neg]
  split
  · rename_i h; subst h; rw [add, mk_exact, sub_zero]
  · rw [add, mk_exact, sub_eq_add_neg]

theorem eval_neg {a : ℝ} (h : a ≠ 0) : (-fin a : XF) = fin (-a) := by rw [neg_def, neg, if_neg h]

theorem eval_mul {a b : ℝ} (ha : 0 ≤ a) (hb : 0 ≤ b) : (fin a * fin b : XF) = fin (a * b) := by
  rw [mul_def]
  simp [mul, sgn, not_lt.2 ha, not_lt.2 hb, mk_exact]

theorem mk_exact' {r : ℝ} (h : r ≠ 0) (s : Bool) : (mk s r : XF) = fin r := by
  rw [mk, if_neg (show ¬Rounding.exact.rnd r = 0 from h), if_pos (show Rounding.exact.fits _ from trivial)]
  rfl

theorem eval_mul' {a b : ℝ} (h : a * b ≠ 0) : (fin a * fin b : XF) = fin (a * b) := by
  rw [mul_def]
  simp [mul, mk_exact' h]

theorem eval_div {a b : ℝ} (ha : 0 ≤ a) (hb : 0 < b) : (fin a / fin b : XF) = fin (a / b) := by
  rw [div_def]
  simp [div, sgn, not_lt.2 ha, not_lt.2 hb.le, hb.ne', mk_exact]

theorem eval_div' {a b : ℝ} (h : a / b ≠ 0) (hb : b ≠ 0) : (fin a / fin b : XF) = fin (a / b) := by
  rw [div_def]
  simp [div, hb, mk_exact' h]

theorem eval_abs (a : ℝ) : fabs (fin a : XF) = fin |a| := rfl

theorem eval_lt (a b : ℝ) : ((fin a : XF) <. fin b) = decide (a < b) := is_lt (is_fin a) (is_fin b)
theorem eval_le (a b : ℝ) : ((fin a : XF) <=. fin b) = decide (a ≤ b) := is_le (is_fin a) (is_fin b)

theorem eval_flt (n : ℕ) : (flt n : XF) = fin n := by rw [ofNat_def, mk_exact]

open FloatLit in
theorem eval_lit (n : ℕ) [n.AtLeastTwo] : (no_index (OfNat.ofNat n) : XF) = fin (OfNat.ofNat n) := eval_flt n
open FloatLit in
theorem eval_zero : (0 : XF) = fin 0 := (eval_flt 0).trans (by simp)
open FloatLit in
theorem eval_one : (1 : XF) = fin 1 := (eval_flt 1).trans (by simp)

end Traquer.FP

/-- Evaluate the given definitions on literals. -/
macro "evalx" "[" ds:Lean.Parser.Tactic.simpLemma,* "]" : tactic =>
  `(tactic| norm_num [$ds,*, Traquer.FP.eval_add, Traquer.FP.eval_sub, Traquer.FP.eval_neg, Traquer.FP.eval_mul, Traquer.FP.eval_mul',
    Traquer.FP.eval_div, Traquer.FP.eval_div', Traquer.FP.eval_abs, Traquer.FP.eval_lt, Traquer.FP.eval_le, ↓ Traquer.FP.eval_lit, ↓ Traquer.FP.eval_zero, ↓ Traquer.FP.eval_one,
    Traquer.FP.eval_flt, Traquer.FP.nan_def])
