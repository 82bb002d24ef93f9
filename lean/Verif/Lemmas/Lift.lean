import Verif.Spec.Lift
import Verif.Lemmas.Scale
import Verif.Lemmas.Eval
/-!
# Lemmas on prices raised by a constant
-/

namespace Traquer
open FP FloatLit

namespace FP
theorem eval_mul_pos (a : ℝ) {w : ℝ} (h : 0 < w) : (fin a * fin w : XF) = fin (a * w) := by
  by_cases ha : 0 ≤ a
  · exact eval_mul ha h.le
  · exact eval_mul' (mul_ne_zero (by linarith) h.ne')
theorem eval_pos_mul (a : ℝ) {w : ℝ} (h : 0 < w) : (fin w * fin a : XF) = fin (w * a) := by
  by_cases ha : 0 ≤ a
  · exact eval_mul h.le ha
  · exact eval_mul' (mul_ne_zero h.ne' (by linarith))
theorem eval_div_pos (a : ℝ) {w : ℝ} (h : 0 < w) : (fin a / fin w : XF) = fin (a / w) := by
  by_cases ha : 0 ≤ a
  · exact eval_div ha h
  · exact eval_div' (div_ne_zero (by linarith) h.ne') h.ne'
theorem eval_add_negz (a : ℝ) : (fin a + negz : XF) = fin a := by rw [add_def, add, mk_exact]
theorem eval_negz_add (a : ℝ) : (negz + fin a : XF) = fin a := by rw [add_def, add, mk_exact]
theorem eval_sub_negz (a : ℝ) : (fin a - negz : XF) = fin a := by rw [sub_def, neg, add, mk_exact, add_zero]
end FP

variable {t s : ℝ} {x y u v : XF}

namespace Raised

theorem fin (r : ℝ) : Raised t (FP.fin r) (FP.fin (r + t)) := .inl ⟨r, rfl, rfl⟩
theorem nan : Raised t FP.nan FP.nan := .inr (.inl ⟨rfl, rfl⟩)
theorem inf (b : Bool) : Raised t (FP.inf b) (FP.inf b) := .inr (.inr ⟨b, rfl, rfl⟩)
theorem congr (h : Raised t x y) (e : t = s) : Raised s x y := e ▸ h
theorem of_fin {a b : ℝ} (e : a + t = b) : Raised t (FP.fin a) (FP.fin b) := e ▸ fin a

theorem eq (h : Raised 0 x y) : x = y := by
  rcases h with ⟨r, rfl, rfl⟩ | ⟨rfl, rfl⟩ | ⟨b, rfl, rfl⟩
  · rw [add_zero]
  all_goals rfl

theorem add (h : Raised t x y) (g : Raised s u v) : Raised (t + s) (x + u) (y + v) := by
  rcases h with ⟨r, rfl, rfl⟩ | ⟨rfl, rfl⟩ | ⟨b, rfl, rfl⟩
  · rcases g with ⟨q, rfl, rfl⟩ | ⟨rfl, rfl⟩ | ⟨d, rfl, rfl⟩
    · rw [eval_add, eval_add]; exact of_fin (by ring)
    · exact nan
    · exact inf d
  · exact nan
  · rcases g with ⟨q, rfl, rfl⟩ | ⟨rfl, rfl⟩ | ⟨d, rfl, rfl⟩
    · exact inf b
    · exact nan
    · cases b <;> cases d <;> first | exact inf _ | exact nan

theorem sub (h : Raised t x y) (g : Raised s u v) : Raised (t - s) (x - u) (y - v) := by
  rcases h with ⟨r, rfl, rfl⟩ | ⟨rfl, rfl⟩ | ⟨b, rfl, rfl⟩
  · rcases g with ⟨q, rfl, rfl⟩ | ⟨rfl, rfl⟩ | ⟨d, rfl, rfl⟩
    · rw [eval_sub, eval_sub]; exact of_fin (by ring)
    · exact nan
    · exact inf (!d)
  · exact nan
  · rcases g with ⟨q, rfl, rfl⟩ | ⟨rfl, rfl⟩ | ⟨d, rfl, rfl⟩
    · have e : ∀ q : ℝ, (FP.inf b - FP.fin q : XF) = FP.inf b := fun q => by
        rw [sub_def, neg]; split <;> rfl
      rw [e, e]; exact inf b
    · exact nan
    · cases b <;> cases d <;> first | exact inf _ | exact nan

/-- Adding the same number, `-0` included. -/
theorem add_same (h : Raised t x y) (u : XF) : Raised t (x + u) (y + u) := by
  rcases h with ⟨r, rfl, rfl⟩ | ⟨rfl, rfl⟩ | ⟨b, rfl, rfl⟩
  · cases u with
    | nan => exact nan
    | inf d => exact inf d
    | negz => rw [eval_add_negz, eval_add_negz]; exact fin r
    | fin q => rw [eval_add, eval_add]; exact of_fin (by ring)
  · exact nan
  · cases u with
    | nan => exact nan
    | inf d => cases b <;> cases d <;> first | exact inf _ | exact nan
    | negz => exact inf b
    | fin q => exact inf b

theorem same_add (h : Raised t x y) (u : XF) : Raised t (u + x) (u + y) := by
  rcases h with ⟨r, rfl, rfl⟩ | ⟨rfl, rfl⟩ | ⟨b, rfl, rfl⟩
  · cases u with
    | nan => exact nan
    | inf d => exact inf d
    | negz => rw [eval_negz_add, eval_negz_add]; exact fin r
    | fin q => rw [eval_add, eval_add]; exact of_fin (by ring)
  · cases u <;> exact nan
  · cases u with
    | nan => exact nan
    | inf d => cases b <;> cases d <;> first | exact inf _ | exact nan
    | negz => exact inf b
    | fin q => exact inf b

theorem sub_same (h : Raised t x y) (u : XF) : Raised t (x - u) (y - u) := h.add_same (-u)

/-- Multiplying by a positive number. -/
theorem mul_pos (h : Raised t x y) {w : ℝ} (hw : 0 < w) : Raised (t * w) (x * FP.fin w) (y * FP.fin w) := by
  rcases h with ⟨r, rfl, rfl⟩ | ⟨rfl, rfl⟩ | ⟨b, rfl, rfl⟩
  · rw [eval_mul_pos _ hw, eval_mul_pos _ hw]; exact of_fin (by ring)
  · exact nan
  · have : (FP.inf b * FP.fin w : XF) = FP.inf b := by
      rw [mul_def]; simp [FP.mul, hw.ne', FP.sgn, not_lt.2 hw.le]
    rw [this]; exact inf b

theorem pos_mul (h : Raised t x y) {w : ℝ} (hw : 0 < w) : Raised (w * t) (FP.fin w * x) (FP.fin w * y) := by
  rcases h with ⟨r, rfl, rfl⟩ | ⟨rfl, rfl⟩ | ⟨b, rfl, rfl⟩
  · rw [eval_pos_mul _ hw, eval_pos_mul _ hw]; exact of_fin (by ring)
  · exact nan
  · have : (FP.fin w * FP.inf b : XF) = FP.inf b := by
      rw [mul_def]; simp [FP.mul, hw.ne', FP.sgn, not_lt.2 hw.le]
    rw [this]; exact inf b

theorem div_pos (h : Raised t x y) {w : ℝ} (hw : 0 < w) : Raised (t / w) (x / FP.fin w) (y / FP.fin w) := by
  rcases h with ⟨r, rfl, rfl⟩ | ⟨rfl, rfl⟩ | ⟨b, rfl, rfl⟩
  · rw [eval_div_pos _ hw, eval_div_pos _ hw]; exact of_fin (by ring)
  · exact nan
  · have : (FP.inf b / FP.fin w : XF) = FP.inf b := by
      rw [div_def]; simp [FP.div, FP.sgn, not_lt.2 hw.le]
    rw [this]; exact inf b

theorem isNaN (h : Raised t x y) : isNaN x = Traquer.isNaN y := by
  rcases h with ⟨r, rfl, rfl⟩ | ⟨rfl, rfl⟩ | ⟨b, rfl, rfl⟩ <;> rfl

theorem lt (h : Raised t x y) (g : Raised t u v) : (x <. u) = (y <. v) := by
  rcases h with ⟨r, rfl, rfl⟩ | ⟨rfl, rfl⟩ | ⟨b, rfl, rfl⟩
  · rcases g with ⟨q, rfl, rfl⟩ | ⟨rfl, rfl⟩ | ⟨d, rfl, rfl⟩
    · rw [eval_lt, eval_lt]; simp
    · rfl
    · generalize r + t = p
      cases d <;> simp [lt_def, FP.lt, FP.isNaN, toE]
  · rfl
  · rcases g with ⟨q, rfl, rfl⟩ | ⟨rfl, rfl⟩ | ⟨d, rfl, rfl⟩
    · generalize q + t = p
      cases b <;> simp [lt_def, FP.lt, FP.isNaN, toE]
    · rfl
    · rfl

theorem le (h : Raised t x y) (g : Raised t u v) : (x <=. u) = (y <=. v) := by
  rcases h with ⟨r, rfl, rfl⟩ | ⟨rfl, rfl⟩ | ⟨b, rfl, rfl⟩
  · rcases g with ⟨q, rfl, rfl⟩ | ⟨rfl, rfl⟩ | ⟨d, rfl, rfl⟩
    · rw [eval_le, eval_le]; simp
    · rfl
    · generalize r + t = p
      cases d <;> simp [le_def, FP.le, FP.isNaN, toE]
  · rfl
  · rcases g with ⟨q, rfl, rfl⟩ | ⟨rfl, rfl⟩ | ⟨d, rfl, rfl⟩
    · generalize q + t = p
      cases b <;> simp [le_def, FP.le, FP.isNaN, toE]
    · rfl
    · rfl

theorem feq (h : Raised t x y) (g : Raised t u v) : (x ==. u) = (y ==. v) := by
  rcases h with ⟨r, rfl, rfl⟩ | ⟨rfl, rfl⟩ | ⟨b, rfl, rfl⟩
  · rcases g with ⟨q, rfl, rfl⟩ | ⟨rfl, rfl⟩ | ⟨d, rfl, rfl⟩
    · rw [is_feq (is_fin r) (is_fin q), is_feq (is_fin _) (is_fin _)]; simp
    · rfl
    · generalize r + t = p
      cases d <;> simp [feq_def, FP.feq, FP.isNaN, toE]
  · rfl
  · rcases g with ⟨q, rfl, rfl⟩ | ⟨rfl, rfl⟩ | ⟨d, rfl, rfl⟩
    · generalize q + t = p
      cases b <;> simp [feq_def, FP.feq, FP.isNaN, toE]
    · rfl
    · rfl

theorem weak (h : Raised t x y) : RaisedZ t x y := by
  rcases h with ⟨r, rfl, rfl⟩ | h | h
  · exact .inl ⟨r, is_fin r, is_fin _⟩
  · exact .inr (.inl h)
  · exact .inr (.inr h)

theorem ite {b b' : Bool} (e : b = b') (h : Raised t x y) (g : Raised t u v) : Raised t (if b then x else u) (if b' then y else v) := by
  subst e; split <;> assumption

theorem fmax (h : Raised t x y) (g : Raised t u v) : Raised t (fmax x u) (Traquer.fmax y v) := by
  rw [Traquer.fmax, Traquer.fmax]
  exact ite h.isNaN g (ite g.isNaN h (ite (h.lt g) g h))

theorem fmin (h : Raised t x y) (g : Raised t u v) : Raised t (fmin x u) (Traquer.fmin y v) := by
  rw [Traquer.fmin, Traquer.fmin]
  exact ite h.isNaN g (ite g.isNaN h (ite (g.lt h) g h))

end Raised

/-! ## Up to the signs of zeros -/

namespace RaisedZ

theorem nan : RaisedZ t FP.nan FP.nan := .inr (.inl ⟨rfl, rfl⟩)
theorem inf (b : Bool) : RaisedZ t (FP.inf b) (FP.inf b) := .inr (.inr ⟨b, rfl, rfl⟩)
theorem congr (h : RaisedZ t x y) (e : t = s) : RaisedZ s x y := e ▸ h
theorem refl (x : XF) : RaisedZ 0 x x := by
  cases x with
  | nan => exact nan
  | inf b => exact inf b
  | negz => exact .inl ⟨0, is_negz, is_negz.congr (by ring)⟩
  | fin r => exact .inl ⟨r, is_fin r, (is_fin r).congr (by ring)⟩

theorem inf_add (b : Bool) {x : XF} {r : ℝ} (h : x ⇓ r) : (FP.inf b + x : XF) = FP.inf b := by
  rcases is_iff.1 h with rfl | ⟨rfl, -⟩ <;> rfl
theorem add_inf (b : Bool) {x : XF} {r : ℝ} (h : x ⇓ r) : (x + FP.inf b : XF) = FP.inf b := by
  rcases is_iff.1 h with rfl | ⟨rfl, -⟩ <;> rfl

theorem neg (h : RaisedZ t x y) : RaisedZ (-t) (-x) (-y) := by
  rcases h with ⟨r, hx, hy⟩ | ⟨rfl, rfl⟩ | ⟨b, rfl, rfl⟩
  · exact .inl ⟨-r, is_neg hx, (is_neg hy).congr (by ring)⟩
  · exact nan
  · exact inf (!b)

theorem add (h : RaisedZ t x y) (g : RaisedZ s u v) : RaisedZ (t + s) (x + u) (y + v) := by
  rcases h with ⟨r, hx, hy⟩ | ⟨rfl, rfl⟩ | ⟨b, rfl, rfl⟩
  · rcases g with ⟨q, hu, hv⟩ | ⟨rfl, rfl⟩ | ⟨d, rfl, rfl⟩
    · exact .inl ⟨r + q, is_add hx hu, (is_add hy hv).congr (by ring)⟩
    · rw [add_nan, add_nan]; exact nan
    · rw [add_inf d hx, add_inf d hy]; exact inf d
  · exact nan
  · rcases g with ⟨q, hu, hv⟩ | ⟨rfl, rfl⟩ | ⟨d, rfl, rfl⟩
    · rw [inf_add b hu, inf_add b hv]; exact inf b
    · exact nan
    · cases b <;> cases d <;> first | exact inf _ | exact nan

theorem sub (h : RaisedZ t x y) (g : RaisedZ s u v) : RaisedZ (t - s) (x - u) (y - v) :=
  (h.add g.neg).congr (by ring)

/-- Multiplying by a number. -/
theorem mul_const (h : RaisedZ t x y) {w : ℝ} (hw : u ⇓ w) : RaisedZ (t * w) (x * u) (y * u) := by
  rcases h with ⟨r, hx, hy⟩ | ⟨rfl, rfl⟩ | ⟨b, rfl, rfl⟩
  · exact .inl ⟨r * w, is_mul hx hw, (is_mul hy hw).congr (by ring)⟩
  · exact nan
  · rcases is_iff.1 hw with rfl | ⟨rfl, -⟩
    · generalize e : (FP.inf b * FP.fin w : XF) = z
      rw [mul_def] at e
      simp only [FP.mul] at e
      split at e
      · subst e; exact nan
      · subst e; exact inf _
    · have e : (FP.inf b * negz : XF) = FP.nan := by rw [mul_def]; simp [FP.mul]
      rw [e]; exact nan

theorem const_mul (h : RaisedZ t x y) {w : ℝ} (hw : u ⇓ w) : RaisedZ (w * t) (u * x) (u * y) := by
  rcases h with ⟨r, hx, hy⟩ | ⟨rfl, rfl⟩ | ⟨b, rfl, rfl⟩
  · exact .inl ⟨w * r, is_mul hw hx, (is_mul hw hy).congr (by ring)⟩
  · have e : u * FP.nan = FP.nan := by cases u <;> rfl
    rw [e]; exact nan
  · rcases is_iff.1 hw with rfl | ⟨rfl, -⟩
    · generalize e : (FP.fin w * FP.inf b : XF) = z
      rw [mul_def] at e
      simp only [FP.mul] at e
      split at e
      · subst e; exact nan
      · subst e; exact inf _
    · have e : (negz * FP.inf b : XF) = FP.nan := by rw [mul_def]; simp [FP.mul]
      rw [e]; exact nan

end RaisedZ

/-- The sum is strict if one of the terms is. -/
theorem Raised.add_weak (h : Raised t x y) (g : RaisedZ s u v) : Raised (t + s) (x + u) (y + v) := by
  rcases h with ⟨r, rfl, rfl⟩ | ⟨rfl, rfl⟩ | ⟨b, rfl, rfl⟩
  · have e : ∀ {r q : ℝ} {u : XF}, u ⇓ q → FP.fin r + u = FP.fin (r + q) := fun {r q u} hu => by
      rcases is_iff.1 hu with rfl | ⟨rfl, rfl⟩
      · exact eval_add _ _
      · rw [eval_add_negz, add_zero]
    rcases g with ⟨q, hu, hv⟩ | ⟨rfl, rfl⟩ | ⟨d, rfl, rfl⟩
    · rw [e hu, e hv]; exact .of_fin (by ring)
    · exact .nan
    · exact .inf d
  · exact .nan
  · rcases g with ⟨q, hu, hv⟩ | ⟨rfl, rfl⟩ | ⟨d, rfl, rfl⟩
    · rw [RaisedZ.inf_add b hu, RaisedZ.inf_add b hv]; exact .inf b
    · exact .nan
    · cases b <;> cases d <;> first | exact .inf _ | exact .nan

/-! ## With a count of the raises -/

namespace Lifted
variable {c : ℝ} {n m j : ℤ} {z w : XF}

theorem of_raised (h : Raised c x y) : Lifted c 1 x y := .inl (h.congr (by simp))
theorem raised (h : Lifted c 1 x y) : Raised c x y := by
  rcases h with h | ⟨h, -⟩
  · exact h.congr (by simp)
  · exact absurd h one_ne_zero
theorem iff_one : Lifted c 1 x y ↔ Raised c x y := ⟨raised, of_raised⟩
theorem eq (h : Lifted c 0 x y) : x = y := by
  rcases h with h | ⟨-, h⟩
  · exact (h.congr (s := 0) (by simp)).eq
  · exact h
theorem of_eq (h : x = y) : Lifted c 0 x y := .inr ⟨rfl, h⟩
theorem iff_zero : Lifted c 0 x y ↔ x = y := ⟨eq, of_eq⟩
theorem lit : Lifted c 0 x x := of_eq rfl
theorem nan : Lifted c n (Traquer.nan : XF) Traquer.nan := .inl .nan
theorem congr (h : Lifted c n x y) (e : n = m) : Lifted c m x y := e ▸ h

theorem add (h : Lifted c n x y) (g : Lifted c m u v) (e : n + m = j) : Lifted c j (x + u) (y + v) := by
  subst e
  rcases h with h | ⟨rfl, rfl⟩
  · rcases g with g | ⟨rfl, rfl⟩
    · exact .inl ((h.add g).congr (by push_cast; ring))
    · exact .inl ((h.add_same u).congr (by push_cast; ring))
  · rcases g with g | ⟨rfl, rfl⟩
    · exact .inl ((g.same_add x).congr (by push_cast; ring))
    · exact .inr ⟨rfl, rfl⟩

theorem sub (h : Lifted c n x y) (g : Lifted c m u v) (e : n - m = j) (k : (m = 0 ∨ n = m) ∨ n ≠ 0) : Lifted c j (x - u) (y - v) := by
  subst e
  rcases h with h | ⟨rfl, rfl⟩
  · rcases g with g | ⟨rfl, rfl⟩
    · exact .inl ((h.sub g).congr (by push_cast; ring))
    · exact .inl ((h.sub_same u).congr (by push_cast; ring))
  · have hm : m = 0 := by rcases k with (k | k) | k <;> omega
    subst hm
    rw [g.eq]
    exact .inr ⟨rfl, rfl⟩

/-- A literal times a price. -/
theorem nat_mul (p : ℕ) (hp : 0 < p) (h : Lifted c n x y) (e : p * n = j) : Lifted c j (flt p * x) (flt p * y) := by
  subst e
  rcases h with h | ⟨rfl, rfl⟩
  · rw [eval_flt]
    exact .inl ((h.pos_mul (Nat.cast_pos.2 hp)).congr (by push_cast; ring))
  · exact .inr ⟨by simp, rfl⟩

theorem two_mul (h : Lifted c n x y) (e : 2 * n = j) : Lifted c j (2 * x) (2 * y) := nat_mul 2 (by norm_num) h e
theorem three_mul (h : Lifted c n x y) (e : 3 * n = j) : Lifted c j (3 * x) (3 * y) := nat_mul 3 (by norm_num) h e

/-- The mean of as many prices as the divisor says. -/
theorem div_nat (p : ℕ) (hp : 0 < p) (h : Lifted c (p * n) x y) : Lifted c n (x / flt p) (y / flt p) := by
  rcases h with h | ⟨h0, rfl⟩
  · rw [eval_flt]
    refine .inl ((h.div_pos (Nat.cast_pos.2 hp)).congr ?_)
    have : (p : ℝ) ≠ 0 := Nat.cast_ne_zero.2 (by omega)
    push_cast
    field_simp
  · rcases mul_eq_zero.1 h0 with h0 | h0
    · omega
    · exact .inr ⟨h0, rfl⟩

theorem mul (h : Lifted c 0 x y) (g : Lifted c 0 u v) : Lifted c 0 (x * u) (y * v) := by
  rw [h.eq, g.eq]; exact lit
theorem div (h : Lifted c 0 x y) (g : Lifted c 0 u v) : Lifted c 0 (x / u) (y / v) := by
  rw [h.eq, g.eq]; exact lit
theorem neg (h : Lifted c 0 x y) : Lifted c 0 (-x) (-y) := by rw [h.eq]; exact lit
theorem fabs (h : Lifted c 0 x y) : Lifted c 0 (fabs x) (Traquer.fabs y) := by rw [h.eq]; exact lit
theorem signum (h : Lifted c 0 x y) : Lifted c 0 (signum x) (Traquer.signum y) := by rw [h.eq]; exact lit
theorem sqrt (h : Lifted c 0 x y) : Lifted c 0 (sqrt x) (Traquer.sqrt y) := by rw [h.eq]; exact lit
theorem ln (h : Lifted c 0 x y) : Lifted c 0 (ln x) (Traquer.ln y) := by rw [h.eq]; exact lit
theorem exp (h : Lifted c 0 x y) : Lifted c 0 (exp x) (Traquer.exp y) := by rw [h.eq]; exact lit
theorem atan (h : Lifted c 0 x y) : Lifted c 0 (atan x) (Traquer.atan y) := by rw [h.eq]; exact lit
theorem log10 (h : Lifted c 0 x y) : Lifted c 0 (log10 x) (Traquer.log10 y) := by rw [h.eq]; exact lit
theorem powi (p : ℕ) (h : Lifted c 0 x y) : Lifted c 0 (powi x p) (Traquer.powi y p) := by rw [h.eq]; exact lit
theorem boolF {b b' : Bool} (h : b = b') : Lifted c 0 (boolF b : XF) (Traquer.boolF b') := by rw [h]; exact lit

theorem half (h : Lifted c m x y) (e : m = 2 * n) : Lifted c n (x / 2) (y / 2) := div_nat 2 (by norm_num) (h.congr e)
theorem third (h : Lifted c m x y) (e : m = 3 * n) : Lifted c n (x / 3) (y / 3) := div_nat 3 (by norm_num) (h.congr e)
theorem quarter (h : Lifted c m x y) (e : m = 4 * n) : Lifted c n (x / 4) (y / 4) := div_nat 4 (by norm_num) (h.congr e)

theorem isNaN (h : Lifted c n x y) : isNaN x = Traquer.isNaN y := by
  rcases h with h | ⟨-, rfl⟩
  · exact h.isNaN
  · rfl

theorem both_eq (h : Lifted c 0 x y) (g : Lifted c 0 u v) {α : Type} (f : XF → XF → α) : f x u = f y v := by rw [h.eq, g.eq]

theorem lt (h : Lifted c n x y) (g : Lifted c n u v) : (x <. u) = (y <. v) := by
  rcases h with h | ⟨rfl, rfl⟩
  · rcases g with g | ⟨rfl, rfl⟩
    · exact h.lt g
    · exact both_eq (c := c) (.inl h) lit fun x y => x <. y
  · rw [g.eq]
theorem le (h : Lifted c n x y) (g : Lifted c n u v) : (x <=. u) = (y <=. v) := by
  rcases h with h | ⟨rfl, rfl⟩
  · rcases g with g | ⟨rfl, rfl⟩
    · exact h.le g
    · exact both_eq (c := c) (.inl h) lit fun x y => x <=. y
  · rw [g.eq]
theorem feq (h : Lifted c n x y) (g : Lifted c n u v) : (x ==. u) = (y ==. v) := by
  rcases h with h | ⟨rfl, rfl⟩
  · rcases g with g | ⟨rfl, rfl⟩
    · exact h.feq g
    · exact both_eq (c := c) (.inl h) lit fun x y => x ==. y
  · rw [g.eq]

theorem ite {b b' : Bool} (e : b = b') (h : Lifted c n x y) (g : Lifted c n u v) :
    Lifted c n (if b then x else u) (if b' then y else v) := by subst e; split <;> assumption
theorem ite_same {p : Prop} [Decidable p] (h : Lifted c n x y) (g : Lifted c n u v) :
    Lifted c n (if p then x else u) (if p then y else v) := by split <;> assumption

theorem fmax (h : Lifted c n x y) (g : Lifted c n u v) : Lifted c n (fmax x u) (Traquer.fmax y v) := by
  rw [Traquer.fmax, Traquer.fmax]
  exact ite h.isNaN g (ite g.isNaN h (ite (h.lt g) g h))
theorem fmin (h : Lifted c n x y) (g : Lifted c n u v) : Lifted c n (fmin x u) (Traquer.fmin y v) := by
  rw [Traquer.fmin, Traquer.fmin]
  exact ite h.isNaN g (ite g.isNaN h (ite (g.lt h) g h))
theorem clampLit (h : Lifted c n x y) (g : Lifted c n u v) (f : Lifted c n z w) :
    Lifted c n (clampLit x u z) (Traquer.clampLit y v w) := by
  rw [Traquer.clampLit, Traquer.clampLit]
  exact ite (h.lt g) g (ite (f.lt h) f h)

end Lifted

section
variable {c : ℝ} {n : ℤ}

theorem lifted_each_lit {l : List XF} : Each (Lifted c 0) l l := by
  induction l with
  | nil => exact .nil
  | cons x l ih => exact .cons .lit ih

theorem lifted_each_nans (m : ℕ) : Each (Lifted c n) (nans m : List XF) (nans m) := each_replicate m .nan

theorem lifted_each_zero {l l' : List XF} : Each (Lifted c 0) l l' ↔ l = l' := by
  constructor
  · intro h
    induction h with
    | nil => rfl
    | cons h _ ih => rw [h.eq, ih]
  · rintro rfl; exact lifted_each_lit

/-- The sum of as many prices as the list has. -/
theorem Raised.foldl_add {l l' : List XF} (h : Each (Raised t) l l') {a b : XF} (g : Raised s a b) :
    Raised (s + l.length * t) (l.foldl (· + ·) a) (l'.foldl (· + ·) b) := by
  induction h generalizing a b s with
  | nil => exact g.congr (by simp)
  | cons h _ ih =>
    refine (ih (g.add h)).congr ?_
    rw [List.length_cons]
    push_cast
    ring

theorem Raised.fsum {l l' : List XF} (h : Each (Raised t) l l') : Raised (l.length * t) (fsum l) (Traquer.fsum l') := by
  refine (Raised.foldl_add (s := 0) h ?_).congr (by ring)
  rw [eval_zero]
  exact .of_fin (by simp)

/-- A sum of numbers that do not depend on the level. -/
theorem Lifted.fsum {l l' : List XF} (h : Each (Lifted c 0) l l') : Lifted c 0 (fsum l) (Traquer.fsum l') := by
  rw [lifted_each_zero.1 h]; exact .lit

theorem each_raised {l l' : List XF} : Each (Lifted c 1) l l' ↔ Each (Raised c) l l' := by
  simp only [Each, List.forall₂_iff_get, Lifted.iff_one]

end

end Traquer
