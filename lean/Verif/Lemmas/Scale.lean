import Verif.Spec.Scale
import Verif.Lemmas.Sign
import Verif.Lemmas.Shape
/-!
# Proof rules for a change of units

One rule for every operation of the model; the tactic `units` applies them.
-/

namespace Traquer
open FP FloatLit

/-! ## Arithmetic -/
section Arith
variable {ρ : Rounding} {k : ℝ}

theorem scales_exact {k : ℝ} (h : 0 < k) : Rounding.exact.Scales k where
  pos := h
  rnd_mul _ := rfl
  fits_mul _ := Iff.rfl

namespace Rounding.Scales

theorem mul (k m : ℝ) [hk : ρ.Scales k] [hm : ρ.Scales m] : ρ.Scales (k * m) where
  pos := mul_pos hk.pos hm.pos
  rnd_mul x := by rw [mul_assoc, hk.rnd_mul, hm.rnd_mul, mul_assoc]
  fits_mul x := by rw [mul_assoc, hk.fits_mul, hm.fits_mul]

theorem inv (k : ℝ) [hk : ρ.Scales k] : ρ.Scales k⁻¹ where
  pos := inv_pos.2 hk.pos
  rnd_mul x := by
    have h := hk.rnd_mul (k⁻¹ * x)
    rw [mul_inv_cancel_left₀ hk.pos.ne'] at h
    rw [h, inv_mul_cancel_left₀ hk.pos.ne']
  fits_mul x := by
    have h := hk.fits_mul (k⁻¹ * x)
    rw [mul_inv_cancel_left₀ hk.pos.ne'] at h
    exact h.symm

theorem one : ρ.Scales 1 where
  pos := one_pos
  rnd_mul x := by simp
  fits_mul x := by simp

theorem pow (k : ℝ) [hk : ρ.Scales k] (n : ℕ) : ρ.Scales (k ^ n) := by
  induction n with
  | zero => rw [pow_zero]; exact one
  | succ n ih => rw [pow_succ]; exact mul _ _

instance zpow (k : ℝ) [hk : ρ.Scales k] (n : ℤ) : ρ.Scales (k ^ n) := by
  cases n with
  | ofNat n => rw [Int.ofNat_eq_natCast, zpow_natCast]; exact pow k n
  | negSucc n => rw [zpow_negSucc]; exact @inv _ _ (pow k (n + 1))

end Rounding.Scales

variable {c d : ℝ}

theorem scaled_mk [h : ρ.Scales c] (s : Bool) (r : ℝ) : (mk s (c * r) : FP ρ) = (mk s r).scaled c := by
  have h1 : (c * r < 0) ↔ r < 0 := by
    rw [← not_le, ← not_le, mul_nonneg_iff_of_pos_left h.pos]
  have h2 : c * r = 0 ↔ r = 0 := by simp [h.pos.ne']
  have h3 : ρ.rnd (c * r) = 0 ↔ ρ.rnd r = 0 := by rw [h.rnd_mul]; simp [h.pos.ne']
  simp only [mk, h1, h2, h3]
  split
  · split <;> simp [scaled]
  · rw [h.rnd_mul, h.fits_mul]
    split <;> simp [scaled]

@[simp] theorem scaled_nan : (FP.nan : FP ρ).scaled c = FP.nan := rfl
@[simp] theorem scaled_inf (b : Bool) : (inf b : FP ρ).scaled c = inf b := rfl
@[simp] theorem scaled_negz : (negz : FP ρ).scaled c = negz := rfl
@[simp] theorem scaled_fin (r : ℝ) : (fin r : FP ρ).scaled c = fin (c * r) := rfl
@[simp] theorem scaled_one (x : FP ρ) : x.scaled 1 = x := by cases x <;> simp
theorem scaled_scaled (x : FP ρ) : (x.scaled c).scaled d = x.scaled (d * c) := by
  cases x <;> simp [mul_assoc]

theorem scaled_val (x : FP ρ) : (x.scaled c).val = c * x.val := by cases x <;> simp [val]
theorem scaled_sgn [h : ρ.Scales c] (x : FP ρ) : (x.scaled c).sgn = x.sgn := by
  cases x <;> simp [sgn]
  rename_i r
  rw [← not_le, ← not_le, mul_nonneg_iff_of_pos_left h.pos]
theorem scaled_eq_zero [h : ρ.Scales c] (x : FP ρ) : x.scaled c = fin 0 ↔ x = fin 0 := by
  cases x <;> simp [h.pos.ne']
theorem scaled_eq_negz (x : FP ρ) : x.scaled c = negz ↔ x = negz := by
  cases x <;> simp
theorem scaled_isNaN (x : FP ρ) : isNaN (x.scaled c) = isNaN x := by cases x <;> rfl

theorem scaled_mk_zero [h : ρ.Scales c] (s : Bool) : (mk s 0 : FP ρ).scaled c = mk s 0 := by
  have := scaled_mk (ρ := ρ) (c := c) s 0
  rw [mul_zero] at this
  exact this.symm

theorem scaled_neg [h : ρ.Scales c] (x : FP ρ) : -(x.scaled c) = (-x).scaled c := by
  simp only [neg_def]
  cases x with
  | fin r =>
    by_cases h0 : r = 0
    · simp [neg, h0]
    · simp [neg, h0, h.pos.ne']
  | _ => simp [neg]

theorem scaled_add [h : ρ.Scales c] (x y : FP ρ) : x.scaled c + y.scaled c = (x + y).scaled c := by
  simp only [add_def]
  cases x <;> cases y <;> simp [add, scaled_mk, ← mul_add]
  split <;> simp

theorem scaled_sub [h : ρ.Scales c] (x y : FP ρ) : x.scaled c - y.scaled c = (x - y).scaled c := by
  have e : ∀ a b : FP ρ, a - b = a + -b := fun _ _ => rfl
  rw [e, e, scaled_neg, scaled_add]

theorem scaled_mul_left [h : ρ.Scales c] (x y : FP ρ) : x.scaled c * y = (x * y).scaled c := by
  have hs := scaled_sgn (ρ := ρ) (c := c)
  have h0 := h.pos.ne'
  simp only [mul_def]
  cases x with
  | fin r =>
    have hr := hs (fin r)
    simp only [scaled_fin] at hr
    cases y with
    | inf b =>
      by_cases r0 : r = 0 <;> simp [mul, hr, r0, h0]
    | nan => rfl
    | negz => simp [mul, val, hr, scaled_mk_zero]
    | fin t => simp only [scaled_fin, mul, val, hr, mul_assoc, scaled_mk]
  | inf b =>
    cases y <;> simp [mul]
    split <;> rfl
  | negz => cases y <;> simp [mul, val, scaled_mk_zero]
  | nan => rfl

theorem scaled_mul_right [h : ρ.Scales c] (x y : FP ρ) : x * y.scaled c = (x * y).scaled c := by
  have hs := scaled_sgn (ρ := ρ) (c := c)
  have h0 := h.pos.ne'
  simp only [mul_def]
  cases y with
  | fin r =>
    have hr := hs (fin r)
    simp only [scaled_fin] at hr
    cases x with
    | inf b =>
      by_cases r0 : r = 0 <;> simp [mul, hr, r0, h0]
    | nan => rfl
    | negz => simp [mul, val, hr, scaled_mk_zero]
    | fin t => simp only [scaled_fin, mul, val, hr, mul_left_comm, scaled_mk]
  | inf b =>
    cases x <;> simp [mul]
    split <;> rfl
  | negz => cases x <;> simp [mul, val, scaled_mk_zero]
  | nan => cases x <;> rfl

theorem scaled_div_left [h : ρ.Scales c] (x y : FP ρ) : x.scaled c / y = (x / y).scaled c := by
  have hs := scaled_sgn (ρ := ρ) (c := c)
  have h0 := h.pos.ne'
  simp only [div_def]
  cases x with
  | fin r =>
    have hr := hs (fin r)
    simp only [scaled_fin] at hr
    cases y with
    | inf b =>
      simp only [scaled_fin, div, hr]
      split <;> simp
    | nan => rfl
    | negz =>
      by_cases r0 : r = 0 <;> simp [div, val, hr, r0, h0]
    | fin t =>
      by_cases t0 : t = 0
      · by_cases r0 : r = 0 <;> simp [div, val, hr, r0, h0, t0]
      · simp only [scaled_fin, div, val, hr, t0, if_false, mul_div_assoc, scaled_mk]
  | inf b => cases y <;> simp [div]
  | negz =>
    cases y with
    | inf b =>
      simp only [scaled_negz, div]
      split <;> simp
    | nan => rfl
    | negz => simp [div, val]
    | fin t =>
      by_cases t0 : t = 0 <;> simp [div, val, t0, scaled_mk_zero]
  | nan => rfl

theorem scaled_div_right [h : ρ.Scales c] (x y : FP ρ) : x / y.scaled c = (x / y).scaled c⁻¹ := by
  have hs := scaled_sgn (ρ := ρ) (c := c)
  have h0 := h.pos.ne'
  have := Rounding.Scales.inv (ρ := ρ) c
  simp only [div_def]
  cases y with
  | fin r =>
    have hr := hs (fin r)
    simp only [scaled_fin] at hr
    cases x with
    | inf b => simp only [scaled_fin, div, hr, scaled_inf]
    | nan => rfl
    | negz =>
      by_cases r0 : r = 0 <;> simp [div, val, hr, r0, h0, scaled_mk_zero]
    | fin t =>
      by_cases r0 : r = 0
      · by_cases t0 : t = 0 <;> simp [div, val, hr, r0, h0, t0]
      · have e : t / (c * r) = c⁻¹ * (t / r) := by field_simp
        simp only [scaled_fin, div, val, hr, r0, h0, mul_eq_zero, or_self, if_false, e, scaled_mk]
  | inf b =>
    cases x <;> simp [div]
    all_goals split <;> simp
  | negz =>
    cases x with
    | fin r => by_cases r0 : r = 0 <;> simp [div, val, r0]
    | _ => simp [div, val]
  | nan => cases x <;> rfl

theorem scaled_abs [h : ρ.Scales c] (x : FP ρ) : fabs (x.scaled c) = (fabs x).scaled c := by
  show FP.abs (x.scaled c) = (FP.abs x).scaled c
  cases x <;> simp [FP.abs, abs_mul, abs_of_pos h.pos]

theorem scaled_signum [h : ρ.Scales c] (x : FP ρ) : signum (x.scaled c) = signum x := by
  show FP.signum (x.scaled c) = FP.signum x
  have hs := scaled_sgn (ρ := ρ) (c := c) x
  cases x <;> simp_all [FP.signum]

theorem scaled_sqrt [h : ρ.Scales c] (x : FP ρ) : sqrt (x.scaled (c * c)) = (sqrt x).scaled c := by
  show FP.sqrt (x.scaled (c * c)) = (FP.sqrt x).scaled c
  have hc : 0 < c * c := mul_pos h.pos h.pos
  cases x with
  | fin r =>
    have : (c * c * r < 0) ↔ r < 0 := by rw [← not_le, ← not_le, mul_nonneg_iff_of_pos_left hc]
    simp only [scaled_fin, FP.sqrt, this]
    split
    · rfl
    · rw [Real.sqrt_mul hc.le, Real.sqrt_mul_self h.pos.le, scaled_mk]
  | inf b => cases b <;> rfl
  | _ => rfl

theorem scaled_is {x : FP ρ} (hx : x.Finite) : x.scaled c ⇓ c * x.val := by
  cases x <;> simp_all [FP.Finite, Is, val]

theorem scaled_eq_of_not_finite {x : FP ρ} (hx : ¬ x.Finite) : x.scaled c = x := by
  cases x <;> simp_all [FP.Finite]

theorem toE_scaled_lt_top {r : ℝ} : ((r : ℝ) : EReal) < ⊤ := EReal.coe_lt_top r

theorem scaled_lt [h : ρ.Scales c] (x y : FP ρ) : (x.scaled c <. y.scaled c) = (x <. y) := by
  by_cases hx : x.Finite
  · by_cases hy : y.Finite
    · simp only [is_lt (scaled_is (c := c) hx) (scaled_is (c := c) hy), is_lt hx.is hy.is, mul_lt_mul_iff_right₀ h.pos]
    · rw [scaled_eq_of_not_finite hy]
      rcases y with _ | (_ | _) | _ | _
      · rcases x with _ | _ | _ | _ <;> simp_all [lt_def, FP.lt, FP.isNaN, FP.Finite]
      · simp only [lt_def, FP.lt, (scaled_is (c := c) hx).toE, hx.is.toE]
        rcases x with _ | _ | _ | _ <;> simp_all [FP.isNaN, toE, FP.Finite, -EReal.coe_mul]
      · simp only [lt_def, FP.lt, (scaled_is (c := c) hx).toE, hx.is.toE]
        rcases x with _ | _ | _ | _ <;> simp_all [FP.isNaN, toE, FP.Finite, -EReal.coe_mul]
      · exact absurd trivial hy
      · exact absurd trivial hy
  · rw [scaled_eq_of_not_finite hx]
    by_cases hy : y.Finite
    · rcases x with _ | (_ | _) | _ | _
      · rcases y with _ | _ | _ | _ <;> simp_all [lt_def, FP.lt, FP.isNaN, FP.Finite]
      · simp only [lt_def, FP.lt, (scaled_is (c := c) hy).toE, hy.is.toE]
        rcases y with _ | _ | _ | _ <;> simp_all [FP.isNaN, toE, FP.Finite, -EReal.coe_mul]
      · simp only [lt_def, FP.lt, (scaled_is (c := c) hy).toE, hy.is.toE]
        rcases y with _ | _ | _ | _ <;> simp_all [FP.isNaN, toE, FP.Finite, -EReal.coe_mul]
      · exact absurd trivial hx
      · exact absurd trivial hx
    · rw [scaled_eq_of_not_finite hy]

theorem scaled_le [h : ρ.Scales c] (x y : FP ρ) : (x.scaled c <=. y.scaled c) = (x <=. y) := by
  by_cases hx : x = FP.nan
  · subst hx; rfl
  by_cases hy : y = FP.nan
  · subst hy; cases x <;> rfl
  have e : ∀ x y : FP ρ, x ≠ FP.nan → y ≠ FP.nan → (x <=. y) = !(y <. x) := by
    intro x y hx hy
    have h1 : FP.isNaN x = false := by cases x <;> simp_all [FP.isNaN]
    have h2 : FP.isNaN y = false := by cases y <;> simp_all [FP.isNaN]
    simp only [le_def, lt_def, FP.le, FP.lt, h1, h2, Bool.not_false, Bool.true_and]
    rw [← decide_not]
    simp
  have n : ∀ x : FP ρ, x ≠ FP.nan → x.scaled c ≠ FP.nan := by intro x; cases x <;> simp
  rw [e _ _ hx hy, e _ _ (n x hx) (n y hy), scaled_lt]

theorem scaled_feq [h : ρ.Scales c] (x y : FP ρ) : (x.scaled c ==. y.scaled c) = (x ==. y) := by
  have e : ∀ x y : FP ρ, (x ==. y) = ((x <=. y) && (y <=. x)) := by
    intro x y
    simp only [le_def, feq_def, FP.le, FP.feq]
    cases hx : FP.isNaN x <;> cases hy : FP.isNaN y <;> simp [le_antisymm_iff]
  rw [e, e, scaled_le, scaled_le]

/-! ## The rules for one number -/
namespace Scaled
variable {n m j : ℤ} {x y x' y' : FP ρ}

theorem iff_zero : Scaled k 0 x y ↔ y = x := by simp [Scaled]

theorem lit : Scaled k 0 x x := iff_zero.2 rfl

theorem nan : Scaled k n (Traquer.nan : FP ρ) Traquer.nan := rfl

theorem zero : Scaled k n (0 : FP ρ) 0 := by
  show (mk false ((0 : ℕ) : ℝ) : FP ρ) = (mk false ((0 : ℕ) : ℝ)).scaled _
  have : ρ.rnd 0 = 0 := by simpa using ρ.nat 0 (by norm_num)
  simp [mk, this]

theorem of_eq (h : Scaled k n x y) (e : n = m) : Scaled k m x y := e ▸ h

variable [hk : ρ.Scales k]

theorem neg (h : Scaled k n x x') : Scaled k n (-x) (-x') := by
  subst h; exact scaled_neg _

theorem add (h : Scaled k n x x') (g : Scaled k n y y') : Scaled k n (x + y) (x' + y') := by
  subst h g; exact scaled_add _ _

theorem sub (h : Scaled k n x x') (g : Scaled k n y y') : Scaled k n (x - y) (x' - y') := by
  subst h g; exact scaled_sub _ _

theorem mul (h : Scaled k n x x') (g : Scaled k m y y') (e : n + m = j) : Scaled k j (x * y) (x' * y') := by
  subst h g e
  rw [Scaled, scaled_mul_left, scaled_mul_right, scaled_scaled, zpow_add₀ hk.pos.ne']

theorem div (h : Scaled k n x x') (g : Scaled k m y y') (e : n - m = j) : Scaled k j (x / y) (x' / y') := by
  subst h g e
  rw [Scaled, scaled_div_left, scaled_div_right, scaled_scaled, zpow_sub₀ hk.pos.ne', div_eq_mul_inv]

theorem fabs (h : Scaled k n x x') : Scaled k n (fabs x) (Traquer.fabs x') := by
  subst h; exact scaled_abs _

theorem signum (h : Scaled k n x x') : Scaled k 0 (signum x) (Traquer.signum x') := by
  subst h; rw [iff_zero]; exact scaled_signum _

theorem sqrt (h : Scaled k n x x') (e : n % 2 = 0) (e' : n / 2 = j) : Scaled k j (sqrt x) (Traquer.sqrt x') := by
  have : n = j + j := by omega
  subst h this
  rw [Scaled, zpow_add₀ hk.pos.ne']
  exact scaled_sqrt _

theorem ln (h : Scaled k 0 x x') : Scaled k 0 (ln x) (Traquer.ln x') := by rw [iff_zero] at *; rw [h]
theorem exp (h : Scaled k 0 x x') : Scaled k 0 (exp x) (Traquer.exp x') := by rw [iff_zero] at *; rw [h]
theorem atan (h : Scaled k 0 x x') : Scaled k 0 (atan x) (Traquer.atan x') := by rw [iff_zero] at *; rw [h]
theorem log10 (h : Scaled k 0 x x') : Scaled k 0 (log10 x) (Traquer.log10 x') := by rw [iff_zero] at *; rw [h]

theorem boolF {b b' : Bool} (e : b = b') : Scaled k 0 (boolF b : FP ρ) (Traquer.boolF b') := e ▸ lit

theorem isNaN (h : Scaled k n x x') : isNaN x = Traquer.isNaN x' := by subst h; exact (scaled_isNaN _).symm

theorem lt (h : Scaled k n x x') (g : Scaled k n y y') : (x <. y) = (x' <. y') := by
  subst h g; exact (scaled_lt _ _).symm
theorem le (h : Scaled k n x x') (g : Scaled k n y y') : (x <=. y) = (x' <=. y') := by
  subst h g; exact (scaled_le _ _).symm
theorem feq (h : Scaled k n x x') (g : Scaled k n y y') : (x ==. y) = (x' ==. y') := by
  subst h g; exact (scaled_feq _ _).symm

theorem ite {c c' : Bool} (e : c = c') (h : Scaled k n x x') (g : Scaled k n y y') :
    Scaled k n (if c then x else y) (if c' then x' else y') := by
  subst e; split <;> assumption

theorem ite_same {c : Prop} [Decidable c] (h : Scaled k n x x') (g : Scaled k n y y') :
    Scaled k n (if c then x else y) (if c then x' else y') := by
  split <;> assumption

theorem fmax (h : Scaled k n x x') (g : Scaled k n y y') : Scaled k n (fmax x y) (Traquer.fmax x' y') := by
  rw [Traquer.fmax, Traquer.fmax]
  exact ite (isNaN h) g (ite (isNaN g) h (ite (lt h g) g h))

theorem fmin (h : Scaled k n x x') (g : Scaled k n y y') : Scaled k n (fmin x y) (Traquer.fmin x' y') := by
  rw [Traquer.fmin, Traquer.fmin]
  exact ite (isNaN h) g (ite (isNaN g) h (ite (lt g h) g h))

theorem clampLit {z z' : FP ρ} (h : Scaled k n x x') (g : Scaled k n y y') (f : Scaled k n z z') :
    Scaled k n (clampLit x y z) (Traquer.clampLit x' y' z') := by
  rw [Traquer.clampLit, Traquer.clampLit]
  exact ite (lt h g) g (ite (lt f h) f h)

theorem powiLoop (e : ℕ) {n m : ℤ} {x y x' y' : FP ρ} (h : Scaled k n x x') (g : Scaled k m y y') :
    Scaled k (n + e * m) (powiLoop x y e) (Traquer.powiLoop x' y' e) := by
  induction e using Nat.strong_induction_on generalizing n m x y x' y' with
  | _ e ih =>
    rw [Traquer.powiLoop, Traquer.powiLoop]
    by_cases h0 : e = 0
    · simpa [h0] using h
    · rw [dif_neg h0, dif_neg h0]
      have step : Scaled k (n + (e % 2 : ℕ) * m) (if e % 2 = 1 then x * y else x) (if e % 2 = 1 then x' * y' else x') := by
        rcases Nat.mod_two_eq_zero_or_one e with h1 | h1
        · simpa [h1] using h
        · simpa [h1] using h.mul g rfl
      have he : (e : ℤ) = 2 * (e / 2 : ℕ) + (e % 2 : ℕ) := by omega
      by_cases h2 : e / 2 = 0
      · simp only [h2, if_true]
        refine step.of_eq ?_
        rw [he, h2]; simp
      · simp only [h2, if_false]
        refine (ih (e / 2) (by omega) step (g.mul g rfl)).of_eq ?_
        conv_rhs => rw [he]
        ring

theorem powi (e : ℕ) (h : Scaled k n x x') (d : n * e = j) : Scaled k j (powi x e) (Traquer.powi x' e) :=
  (powiLoop e lit h).of_eq (by rw [← d]; ring)

end Scaled
end Arith

/-! ## Pairs, lists, panics -/
section Lists
variable {α β γ δ ε ζ α' β' γ' δ' ε' ζ' σ τ : Type}
variable {P : α → α' → Prop} {Q : β → β' → Prop} {R : γ → γ' → Prop} {S : δ → δ' → Prop} {T : ε → ε' → Prop} {U : ζ → ζ' → Prop}

theorem Both.mk {a : α} {a' : α'} {b : β} {b' : β'} (h : P a a') (g : Q b b') : Both P Q (a, b) (a', b') := ⟨h, g⟩

theorem Both.forall {R : α × β → α' × β' → Prop} (h : ∀ a a', P a a' → ∀ b b', Q b b' → R (a, b) (a', b')) :
    ∀ x y, Both P Q x y → R x y := fun x y g => h x.1 y.1 g.1 x.2 y.2 g.2

theorem Both.fst {x : α × β} {y : α' × β'} (h : Both P Q x y) : P x.1 y.1 := h.1
theorem Both.snd {x : α × β} {y : α' × β'} (h : Both P Q x y) : Q x.2 y.2 := h.2

theorem Both.ite {c c' : Bool} (e : c = c') {x y : α × β} {x' y' : α' × β'} (h : Both P Q x x') (g : Both P Q y y') :
    Both P Q (if c then x else y) (if c' then x' else y') := by
  subst e; split <;> assumption
theorem Both.ite_same {c : Prop} [Decidable c] {x y : α × β} {x' y' : α' × β'} (h : Both P Q x x') (g : Both P Q y y') :
    Both P Q (if c then x else y) (if c then x' else y') := by
  split <;> assumption

theorem forall_eq_rel {R : α → α → Prop} (h : ∀ a, R a a) : ∀ x y, x = y → R x y := by
  rintro x _ rfl; exact h x

theorem each_iff {l : List α} {l' : List α'} :
    Each P l l' ↔ l.length = l'.length ∧ ∀ (i : ℕ) x y, l[i]? = some x → l'[i]? = some y → P x y := by
  show List.Forall₂ P l l' ↔ _
  rw [List.forall₂_iff_get]
  constructor
  · rintro ⟨h1, h2⟩
    refine ⟨h1, fun i x y hx hy => ?_⟩
    obtain ⟨a, rfl⟩ := List.getElem?_eq_some_iff.1 hx
    obtain ⟨b, rfl⟩ := List.getElem?_eq_some_iff.1 hy
    exact h2 i a b
  · rintro ⟨h1, h2⟩
    exact ⟨h1, fun i a b => h2 i _ _ (List.getElem?_eq_getElem a) (List.getElem?_eq_getElem b)⟩

theorem Each.length {l : List α} {l' : List α'} (h : Each P l l') : l.length = l'.length := (each_iff.1 h).1

theorem each_eq {l : List α} : Each Eq l l := List.forall₂_same.2 fun _ _ => rfl

theorem each_nil : Each P [] [] := .nil
theorem each_cons {x : α} {x' : α'} {l : List α} {l' : List α'} (h : P x x') (g : Each P l l') : Each P (x :: l) (x' :: l') := .cons h g

theorem each_append {l m : List α} {l' m' : List α'} (h : Each P l l') (g : Each P m m') : Each P (l ++ m) (l' ++ m') := by
  induction h with
  | nil => exact g
  | cons a _ ih => exact .cons a ih

theorem each_replicate {x : α} {x' : α'} (n : ℕ) (h : P x x') : Each P (List.replicate n x) (List.replicate n x') := by
  induction n with
  | zero => exact .nil
  | succ n ih => exact .cons h ih

theorem each_map {f : α → β} {g : α' → β'} {l : List α} {l' : List α'} (h : Each P l l') (hf : ∀ x y, P x y → Q (f x) (g y)) :
    Each Q (l.map f) (l'.map g) := by
  induction h with
  | nil => exact .nil
  | cons a _ ih => exact .cons (hf _ _ a) ih

theorem each_drop {l : List α} {l' : List α'} (n : ℕ) (h : Each P l l') : Each P (l.drop n) (l'.drop n) := by
  induction h generalizing n with
  | nil => simp
  | cons a b ih =>
    cases n with
    | zero => exact .cons a b
    | succ n => simpa using ih n

theorem each_take {l : List α} {l' : List α'} (n : ℕ) (h : Each P l l') : Each P (l.take n) (l'.take n) := by
  induction h generalizing n with
  | nil => simp
  | cons a b ih =>
    cases n with
    | zero => simp
    | succ n => simpa using List.Forall₂.cons a (ih n)

theorem each_reverse {l : List α} {l' : List α'} (h : Each P l l') : Each P l.reverse l'.reverse := by
  induction h with
  | nil => exact .nil
  | cons a _ ih =>
    rw [List.reverse_cons, List.reverse_cons]
    exact each_append ih (.cons a .nil)

theorem each_zip {l : List α} {l' : List α'} {m : List β} {m' : List β'} (h : Each P l l') (g : Each Q m m') :
    Each (Both P Q) (l.zip m) (l'.zip m') := by
  induction h generalizing m m' with
  | nil => simp
  | cons a _ ih =>
    cases g with
    | nil => simp
    | cons b g => exact .cons ⟨a, b⟩ (ih g)

theorem each_zip3 {l1 : List α} {l1' : List α'} {l2 : List β} {l2' : List β'} {l3 : List γ} {l3' : List γ'}
    (h1 : Each P l1 l1') (h2 : Each Q l2 l2') (h3 : Each R l3 l3') :
    Each (Both P (Both Q R)) (zip3 l1 l2 l3) (zip3 l1' l2' l3') := by
  simpa only [zip3_eq] using each_zip h1 (each_zip h2 h3)

theorem each_zip4 {l1 : List α} {l1' : List α'} {l2 : List β} {l2' : List β'} {l3 : List γ} {l3' : List γ'} {l4 : List δ} {l4' : List δ'}
    (h1 : Each P l1 l1') (h2 : Each Q l2 l2') (h3 : Each R l3 l3') (h4 : Each S l4 l4') :
    Each (Both P (Both Q (Both R S))) (zip4 l1 l2 l3 l4) (zip4 l1' l2' l3' l4') := by
  simpa only [zip4_eq] using each_zip h1 (each_zip h2 (each_zip h3 h4))

theorem each_zip5 {l1 : List α} {l1' : List α'} {l2 : List β} {l2' : List β'} {l3 : List γ} {l3' : List γ'} {l4 : List δ} {l4' : List δ'}
    {l5 : List ε} {l5' : List ε'}
    (h1 : Each P l1 l1') (h2 : Each Q l2 l2') (h3 : Each R l3 l3') (h4 : Each S l4 l4') (h5 : Each T l5 l5') :
    Each (Both P (Both Q (Both R (Both S T)))) (zip5 l1 l2 l3 l4 l5) (zip5 l1' l2' l3' l4' l5') := by
  simpa only [zip5_eq] using each_zip h1 (each_zip h2 (each_zip h3 (each_zip h4 h5)))

theorem each_zip6 {l1 : List α} {l1' : List α'} {l2 : List β} {l2' : List β'} {l3 : List γ} {l3' : List γ'} {l4 : List δ} {l4' : List δ'}
    {l5 : List ε} {l5' : List ε'} {l6 : List ζ} {l6' : List ζ'}
    (h1 : Each P l1 l1') (h2 : Each Q l2 l2') (h3 : Each R l3 l3') (h4 : Each S l4 l4') (h5 : Each T l5 l5') (h6 : Each U l6 l6') :
    Each (Both P (Both Q (Both R (Both S (Both T U))))) (zip6 l1 l2 l3 l4 l5 l6) (zip6 l1' l2' l3' l4' l5' l6') := by
  simpa only [zip6_eq] using each_zip h1 (each_zip h2 (each_zip h3 (each_zip h4 (each_zip h5 h6))))

theorem each_pairs {l : List α} {l' : List α'} (h : Each P l l') : Each (Both P P) (pairs l) (pairs l') := by
  rw [pairs_eq_zip, pairs_eq_zip]
  refine each_zip h ?_
  rw [← List.drop_one, ← List.drop_one]
  exact each_drop 1 h

theorem each_set {l : List α} {l' : List α'} {i j : ℕ} {x : α} {x' : α'} (h : Each P l l') (e : i = j) (g : P x x') :
    Each P (l.set i x) (l'.set j x') := by
  subst e
  induction h generalizing i with
  | nil => exact .nil
  | cons hx h ih =>
    cases i with
    | zero => exact .cons g h
    | succ i => exact .cons hx ih

theorem each_range {n m : ℕ} (h : n = m) : Each Eq (List.range n) (List.range m) := h ▸ each_eq
theorem each_range' {a n m : ℕ} (h : n = m) : Each Eq (List.range' a n) (List.range' a m) := h ▸ each_eq

theorem each_windowsOf {n : ℕ} {l : List α} {l' : List α'} (h : Each P l l') : Each (Each P) (windowsOf n l) (windowsOf n l') := by
  rw [windowsOf, windowsOf, h.length]
  refine each_map each_eq ?_
  rintro i _ rfl
  exact each_take _ (each_drop _ h)

theorem each_scan {f : σ → α → σ × β} {g : τ → α' → τ × β'} {s : σ} {t : τ} {X : σ → τ → Prop} {l : List α} {l' : List α'}
    (h0 : X s t) (h : Each P l l') (hf : ∀ s t, X s t → ∀ x y, P x y → Both X Q (f s x) (g t y)) :
    Each Q (scan f s l) (scan g t l') := by
  induction h generalizing s t with
  | nil => exact .nil
  | cons a _ ih => exact .cons (hf _ _ h0 _ _ a).2 (ih (hf _ _ h0 _ _ a).1)

theorem each_scanS {f : σ → α → σ} {g : τ → α' → τ} {s : σ} {t : τ} {X : σ → τ → Prop} {l : List α} {l' : List α'}
    (h0 : X s t) (h : Each P l l') (hf : ∀ s t, X s t → ∀ x y, P x y → X (f s x) (g t y)) :
    Each X (scanS f s l) (scanS g t l') :=
  each_scan h0 h fun s t hs x y hx => ⟨hf s t hs x y hx, hf s t hs x y hx⟩

theorem foldl_rel {f : σ → α → σ} {g : τ → α' → τ} {s : σ} {t : τ} {X : σ → τ → Prop} {l : List α} {l' : List α'}
    (h0 : X s t) (h : Each P l l') (hf : ∀ s t, X s t → ∀ x y, P x y → X (f s x) (g t y)) :
    X (l.foldl f s) (l'.foldl g t) := by
  induction h generalizing s t with
  | nil => exact h0
  | cons a _ ih => exact ih (hf _ _ h0 _ _ a)

namespace Alike

theorem same {o : Option α} : Alike Eq o o := by
  cases o
  · exact .panic
  · exact .answer rfl

theorem bind {o : Option α} {o' : Option α'} {f : α → Option β} {f' : α' → Option β'} (h : Alike P o o')
    (hf : ∀ x y, P x y → Alike Q (f x) (f' y)) : Alike Q (o.bind f) (o'.bind f') := by
  cases h with
  | panic => exact .panic
  | answer h => exact hf _ _ h

theorem ite {c c' : Prop} [Decidable c] [Decidable c'] (e : c ↔ c') {o p : Option α} {o' p' : Option α'} (h : Alike P o o') (g : Alike P p p') :
    Alike P (if c then o else p) (if c' then o' else p') := by
  by_cases hc : c
  · rw [if_pos hc, if_pos (e.1 hc)]; exact h
  · rw [if_neg hc, if_neg (fun x => hc (e.2 x))]; exact g

theorem usub {a a' b b' : ℕ} (h : a = a') (g : b = b') : Alike Eq (usub a b) (Traquer.usub a' b') := by
  subst h g; exact same

theorem sliceTo {l : List α} {l' : List α'} {n m : ℕ} (h : Each P l l') (e : n = m) : Alike (Each P) (sliceTo l n) (Traquer.sliceTo l' m) := by
  subst e
  rw [Traquer.sliceTo, Traquer.sliceTo, h.length]
  split
  · exact .answer (each_take _ h)
  · exact .panic

theorem sliceFrom {l : List α} {l' : List α'} {n m : ℕ} (h : Each P l l') (e : n = m) :
    Alike (Each P) (sliceFrom l n) (Traquer.sliceFrom l' m) := by
  subst e
  rw [Traquer.sliceFrom, Traquer.sliceFrom, h.length]
  split
  · exact .answer (each_drop _ h)
  · exact .panic

theorem windows {l : List α} {l' : List α'} {n : ℕ} (h : Each P l l') : Alike (Each (Each P)) (windows n l) (Traquer.windows n l') := by
  rw [Traquer.windows, Traquer.windows]
  split
  · exact .panic
  · exact .answer (each_windowsOf h)

theorem getElem? {l : List α} {l' : List α'} {n m : ℕ} (h : Each P l l') (e : n = m) : Alike P l[n]? l'[m]? := by
  subst e
  obtain ⟨h1, h2⟩ := each_iff.1 h
  by_cases hn : n < l.length
  · rw [List.getElem?_eq_getElem hn, List.getElem?_eq_getElem (h1 ▸ hn)]
    exact .answer (h2 n _ _ (List.getElem?_eq_getElem hn) (List.getElem?_eq_getElem (h1 ▸ hn)))
  · rw [List.getElem?_eq_none (by omega), List.getElem?_eq_none (by omega)]
    exact .panic

theorem getLast? {l : List α} {l' : List α'} (h : Each P l l') : Alike P l.getLast? l'.getLast? := by
  rw [List.getLast?_eq_getElem?, List.getLast?_eq_getElem?]
  exact getElem? h (by rw [h.length])

theorem head? {l : List α} {l' : List α'} (h : Each P l l') : Alike P l.head? l'.head? := by
  rw [List.head?_eq_getElem?, List.head?_eq_getElem?]
  exact getElem? h rfl

theorem mapP {f : α → Option β} {g : α' → Option β'} {l : List α} {l' : List α'} (h : Each P l l')
    (hf : ∀ x y, P x y → Alike Q (f x) (g y)) : Alike (Each Q) (mapP f l) (Traquer.mapP g l') := by
  induction h with
  | nil => exact .answer .nil
  | cons a _ ih =>
    rw [Traquer.mapP, Traquer.mapP]
    have hf := hf _ _ a
    revert hf
    generalize f _ = u
    generalize g _ = v
    intro hf
    cases hf with
    | panic => exact .panic
    | answer b =>
      dsimp only
      revert ih
      generalize Traquer.mapP f _ = u
      generalize Traquer.mapP g _ = v
      intro ih
      cases ih with
      | panic => exact .panic
      | answer c => exact .answer (.cons b c)

theorem scanM {f : σ → α → Option (σ × β)} {g : τ → α' → Option (τ × β')} {s : σ} {t : τ} {X : σ → τ → Prop} {l : List α} {l' : List α'}
    (h0 : X s t) (h : Each P l l') (hf : ∀ s t, X s t → ∀ x y, P x y → Alike (Both X Q) (f s x) (g t y)) :
    Alike (Each Q) (scanM f s l) (Traquer.scanM g t l') := by
  induction h generalizing s t with
  | nil => exact .answer .nil
  | cons a _ ih =>
    rw [Traquer.scanM, Traquer.scanM]
    generalize e1 : f s _ = u
    generalize e2 : g t _ = v
    have := hf _ _ h0 _ _ a
    rw [e1, e2] at this
    cases this with
    | panic => exact .panic
    | answer b =>
      have := ih b.1
      dsimp only
      revert this
      generalize Traquer.scanM f _ _ = u
      generalize Traquer.scanM g _ _ = v
      intro this
      cases this with
      | panic => exact .panic
      | answer c => exact .answer (.cons b.2 c)

theorem foldlM {f : σ → α → Option σ} {g : τ → α' → Option τ} {s : σ} {t : τ} {X : σ → τ → Prop} {l : List α} {l' : List α'}
    (h0 : X s t) (h : Each P l l') (hf : ∀ s t, X s t → ∀ x y, P x y → Alike X (f s x) (g t y)) :
    Alike X (l.foldlM f s) (l'.foldlM g t) := by
  induction h generalizing s t with
  | nil => exact .answer h0
  | cons a _ ih =>
    rw [List.foldlM_cons, List.foldlM_cons]
    exact bind (hf _ _ h0 _ _ a) fun _ _ h => ih h

end Alike
end Lists

section Numbers
variable {ρ : Rounding} {k : ℝ} {n : ℤ}

theorem each_lit {l : List (FP ρ)} : Each (Scaled k 0) l l := by
  induction l with
  | nil => exact .nil
  | cons x l ih => exact .cons .lit ih

theorem each_nans (m : ℕ) : Each (Scaled k n) (nans m : List (FP ρ)) (nans m) := each_replicate m .nan

variable [ρ.Scales k]

theorem Scaled.fsum {l l' : List (FP ρ)} (h : Each (Scaled k n) l l') : Scaled k n (fsum l) (Traquer.fsum l') :=
  foldl_rel .zero h fun _ _ hs _ _ hx => hs.add hx

theorem Scaled.foldl_fmax {l l' : List (FP ρ)} {s s' : FP ρ} (hs : Scaled k n s s') (h : Each (Scaled k n) l l') :
    Scaled k n (l.foldl Traquer.fmax s) (l'.foldl Traquer.fmax s') :=
  foldl_rel hs h fun _ _ hs _ _ hx => hs.fmax hx

theorem Scaled.foldl_fmin {l l' : List (FP ρ)} {s s' : FP ρ} (hs : Scaled k n s s') (h : Each (Scaled k n) l l') :
    Scaled k n (l.foldl Traquer.fmin s) (l'.foldl Traquer.fmin s') :=
  foldl_rel hs h fun _ _ hs _ _ hx => hs.fmin hx

theorem each_zero {l l' : List (FP ρ)} : Each (Scaled k 0) l l' ↔ l = l' := by
  refine ⟨fun h => ?_, fun h => h ▸ each_lit⟩
  induction h with
  | nil => rfl
  | cons h _ ih => rw [ih, Scaled.iff_zero.1 h]

theorem each_both_zero {l l' : List (FP ρ × FP ρ)} : Each (Both (Scaled k 0) (Scaled k 0)) l l' ↔ l = l' := by
  refine ⟨fun h => ?_, fun h => h ▸ List.forall₂_same.2 fun _ _ => ⟨.lit, .lit⟩⟩
  induction h with
  | nil => rfl
  | cons h _ ih => rw [ih, Prod.ext (Scaled.iff_zero.1 h.1) (Scaled.iff_zero.1 h.2)]

theorem Alike.refl {α : Type} {P : α → α → Prop} (h : ∀ a, P a a) {o : Option α} : Alike P o o := by
  cases o
  · exact .panic
  · exact .answer (h _)

theorem Alike.eq_of {α : Type} {P : α → α → Prop} (h : ∀ a b, P a b → a = b) {o o' : Option α} (g : Alike P o o') : o = o' := by
  cases g with
  | panic => rfl
  | answer g => rw [h _ _ g]

end Numbers
end Traquer
