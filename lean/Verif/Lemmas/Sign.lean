import Verif.Lemmas.Dominated
/-!
# The sign bit, in every rounding
-/

namespace Traquer
open FP FloatLit
variable {ρ : Rounding} {x y : FP ρ}

/-- NaN, or the sign bit is clear: `+0`, a positive number or `+∞`. -/
def SignClear (x : FP ρ) : Prop := x = FP.nan ∨ x = inf false ∨ ∃ r, 0 ≤ r ∧ x = fin r

theorem SignClear.nonNeg (h : SignClear x) : NonNegOrNaN x := by
  rcases h with h | h | ⟨r, h0, rfl⟩
  · exact .inl h
  · exact .inr (.inl h)
  · exact .inr (.inr ⟨r, is_fin r, h0⟩)

theorem signClear_mk {a : ℝ} (h : 0 ≤ a) : SignClear (mk false a : FP ρ) := by
  rw [mk]
  split
  · rw [if_neg (by simp [h])]; exact .inr (.inr ⟨0, le_rfl, rfl⟩)
  · split
    · exact .inr (.inr ⟨_, rnd_nonneg h, rfl⟩)
    · rw [decide_eq_false (not_lt.2 h)]; exact .inr (.inl rfl)

theorem signClear_flt (n : ℕ) : SignClear (flt n : FP ρ) := signClear_mk (Nat.cast_nonneg n)

theorem signClear_zero : SignClear (0 : FP ρ) := signClear_flt 0
theorem signClear_one : SignClear (1 : FP ρ) := signClear_flt 1

theorem signClear_abs (x : FP ρ) : SignClear (fabs x) := by
  show SignClear (FP.abs x)
  cases x with
  | nan => exact .inl rfl
  | inf => exact .inr (.inl rfl)
  | negz => exact .inr (.inr ⟨0, le_rfl, rfl⟩)
  | fin r => exact .inr (.inr ⟨_, abs_nonneg r, rfl⟩)

theorem SignClear.add (hx : SignClear x) (hy : SignClear y) : SignClear (x + y) := by
  show SignClear (FP.add x y)
  rcases hx with rfl | rfl | ⟨a, ha, rfl⟩
  · exact .inl rfl
  · rcases hy with rfl | rfl | ⟨b, hb, rfl⟩
    · exact .inl rfl
    · exact .inr (.inl rfl)
    · exact .inr (.inl rfl)
  · rcases hy with rfl | rfl | ⟨b, hb, rfl⟩
    · exact .inl rfl
    · exact .inr (.inl rfl)
    · exact signClear_mk (add_nonneg ha hb)

theorem sgn_fin_nonneg {a : ℝ} (h : 0 ≤ a) : sgn (fin a : FP ρ) = false := decide_eq_false (not_lt.2 h)

theorem SignClear.mul (hx : SignClear x) (hy : SignClear y) : SignClear (x * y) := by
  show SignClear (FP.mul x y)
  rcases hx with rfl | rfl | ⟨a, ha, rfl⟩
  · exact .inl rfl
  · rcases hy with rfl | rfl | ⟨b, hb, rfl⟩
    · exact .inl rfl
    · simp only [FP.mul]; split
      · exact .inl rfl
      · exact .inr (.inl rfl)
    · simp only [FP.mul]; split
      · exact .inl rfl
      · rw [sgn_fin_nonneg hb]; exact .inr (.inl rfl)
  · rcases hy with rfl | rfl | ⟨b, hb, rfl⟩
    · exact .inl rfl
    · simp only [FP.mul]; split
      · exact .inl rfl
      · rw [sgn_fin_nonneg ha]; exact .inr (.inl rfl)
    · simp only [FP.mul, sgn_fin_nonneg ha, sgn_fin_nonneg hb]
      exact signClear_mk (mul_nonneg ha hb)

theorem SignClear.div (hx : SignClear x) (hy : SignClear y) : SignClear (x / y) := by
  show SignClear (FP.div x y)
  rcases hx with rfl | rfl | ⟨a, ha, rfl⟩
  · exact .inl rfl
  · rcases hy with rfl | rfl | ⟨b, hb, rfl⟩
    · exact .inl rfl
    · exact .inl rfl
    · simp only [FP.div, sgn_fin_nonneg hb]; exact .inr (.inl rfl)
  · rcases hy with rfl | rfl | ⟨b, hb, rfl⟩
    · exact .inl rfl
    · simp only [FP.div, sgn_fin_nonneg ha]; exact .inr (.inr ⟨0, le_rfl, rfl⟩)
    · simp only [FP.div, sgn_fin_nonneg ha, sgn_fin_nonneg hb]
      split
      · split
        · exact .inl rfl
        · exact .inr (.inl rfl)
      · exact signClear_mk (div_nonneg ha hb)

theorem SignClear.sqrt (hx : SignClear x) : SignClear (Traquer.sqrt x) := by
  show SignClear (FP.sqrt x)
  rcases hx with rfl | rfl | ⟨a, ha, rfl⟩
  · exact .inl rfl
  · exact .inr (.inl rfl)
  · simp only [FP.sqrt, not_lt.2 ha, if_false]
    exact signClear_mk (Real.sqrt_nonneg a)

theorem signClear_mul_self (x : FP ρ) : SignClear (x * x) := by
  show SignClear (FP.mul x x)
  cases x with
  | nan => exact .inl rfl
  | inf b =>
    simp only [FP.mul]; split
    · exact .inl rfl
    · simp [sgn, SignClear]
  | negz => simpa [FP.mul, sgn, FP.val] using signClear_mk (ρ := ρ) (le_refl (0 : ℝ))
  | fin r => simpa [FP.mul, FP.val] using signClear_mk (ρ := ρ) (mul_self_nonneg r)

theorem powi_two {F : Type} [FloatOps F] (x : F) : powi x 2 = 1 * (x * x) := by
  simp [powi, powiLoop]

theorem signClear_sq (x : FP ρ) : SignClear (powi x 2) := by
  rw [powi_two]
  exact signClear_one.mul (signClear_mul_self x)

/-- `f64::max` returns one of its arguments. -/
theorem fmax_cases (x y : FP ρ) : fmax x y = x ∨ fmax x y = y := by
  simp only [fmax]
  split
  · exact .inr rfl
  · split
    · exact .inl rfl
    · split
      · exact .inr rfl
      · exact .inl rfl

theorem SignClear.fmax (hx : SignClear x) (hy : SignClear y) : SignClear (Traquer.fmax x y) := by
  rcases fmax_cases x y with h | h <;> rw [h] <;> assumption

theorem SignClear.foldl {α : Type} {t : α → FP ρ} {l : List α} (h : ∀ a ∈ l, SignClear (t a)) {s : FP ρ} (hs : SignClear s) :
    SignClear (l.foldl (fun s a => s + t a) s) := by
  induction l generalizing s with
  | nil => exact hs
  | cons a l ih => exact ih (fun b hb => h b (by simp [hb])) (hs.add (h a (by simp)))

theorem mk_false_zero : (mk false 0 : FP ρ) = fin 0 := by simp [mk, rnd_zero]

/-- A finite number minus itself is `+0`. -/
theorem sub_self_zero (h : x.Finite) : x - x = fin 0 := by
  show FP.add x (FP.neg x) = fin 0
  cases x with
  | nan => exact absurd h (by simp [FP.Finite])
  | inf => exact absurd h (by simp [FP.Finite])
  | negz => simp [FP.neg, FP.add, mk_false_zero]
  | fin r =>
    simp only [FP.neg]
    split
    · subst_vars; simp [FP.add, mk_false_zero]
    · simp [FP.add, mk_false_zero]

theorem zero_add_zero : (fin 0 : FP ρ) + fin 0 = fin 0 := by
  show FP.add _ _ = _
  simp [FP.add, mk_false_zero]

theorem zero_lit : (0 : FP ρ) = fin 0 := by
  show mk false ((0 : ℕ) : ℝ) = fin 0
  rw [Nat.cast_zero, mk_false_zero]

theorem foldl_zero {α : Type} {t : α → FP ρ} {l : List α} (h : ∀ a ∈ l, t a = fin 0) : l.foldl (fun s a => s + t a) (fin 0) = fin 0 := by
  induction l with
  | nil => rfl
  | cons a l ih => rw [List.foldl_cons, h a (by simp), zero_add_zero]; exact ih fun b hb => h b (by simp [hb])

/-- Zero over something with a clear sign. -/
theorem zero_div_signClear (hy : SignClear y) : (fin 0 : FP ρ) / y = FP.nan ∨ (fin 0 : FP ρ) / y = fin 0 := by
  show FP.div _ _ = _ ∨ FP.div _ _ = _
  rcases hy with rfl | rfl | ⟨b, hb, rfl⟩
  · exact .inl rfl
  · right; simp [FP.div, sgn]
  · simp only [FP.div, sgn_fin_nonneg hb, sgn_fin_nonneg le_rfl, FP.val, zero_div, if_true]
    split
    · exact .inl rfl
    · right; simp [mk_false_zero]

/-- Zero over a count. -/
theorem zero_div_flt {n : ℕ} (h : 1 ≤ n) : (fin 0 : FP ρ) / flt n = fin 0 := by
  have h1 : (1 : ℝ) ≤ ρ.rnd n := by
    rw [← rnd_one (ρ := ρ)]
    exact ρ.mono _ _ (by exact_mod_cast h)
  show FP.div _ (mk false (n : ℝ)) = _
  rw [mk, if_neg (by linarith)]
  split
  · simp only [FP.div, FP.val, if_neg (by linarith : ρ.rnd n ≠ 0), sgn_fin_nonneg (le_refl (0 : ℝ)), sgn_fin_nonneg (by linarith : 0 ≤ ρ.rnd (n : ℝ)), zero_div]
    simp [mk_false_zero]
  · rw [decide_eq_false (not_lt.2 (Nat.cast_nonneg n))]
    simp [FP.div, sgn]

theorem sqrt_zero' : Traquer.sqrt (fin 0 : FP ρ) = fin 0 := by
  show FP.sqrt _ = _
  simp [FP.sqrt, mk_false_zero]

theorem mul_zero_fin {c : FP ρ} {k : ℝ} (hc : c = fin k) (hk : 0 ≤ k) : c * fin 0 = fin 0 := by
  subst hc
  show FP.mul _ _ = _
  simp [FP.mul, sgn, FP.val, not_lt.2 hk, mk_false_zero]

theorem powi_two_zero : powi (fin 0 : FP ρ) 2 = fin 0 := by
  rw [powi_two]
  have h1 : (fin 0 : FP ρ) * fin 0 = fin 0 := mul_zero_fin rfl le_rfl
  have e : (1 : FP ρ) = fin 1 := by
    rcases is_iff.1 (isOne (ρ := ρ)) with h | ⟨-, h⟩
    · exact h
    · norm_num at h
  rw [h1, mul_zero_fin e zero_le_one]

theorem hundred_mul_zero : (100 : FP ρ) * fin 0 = fin 0 := by
  have e : (100 : FP ρ) = fin 100 := by
    rcases is_iff.1 (isLit (ρ := ρ) 100 (by norm_num)) with h | ⟨-, h⟩
    · exact h
    · norm_num at h
  exact mul_zero_fin e (by norm_num)

end Traquer
