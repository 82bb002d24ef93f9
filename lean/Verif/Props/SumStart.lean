import Verif.Lemmas.Rounded
import Verif.Props.Cond64
import Verif.Lemmas.Sign
/-! C92: whether a sum of floats starts at `+0.0` or at `-0.0` (both exist among the versions of the standard library) makes no difference
unless every term is `-0.0`; then the two sums are zeros of different sign. -/

namespace Traquer
open FP FloatLit

variable {ρ : Rounding}

/-- The sum of the standard library versions whose `Sum for f64` folds from `-0.0`. -/
noncomputable def fsumNeg (l : List (FP ρ)) : FP ρ := l.foldl (· + ·) negz

theorem zero_add_negz : (0 : FP ρ) + negz = 0 := by
  rw [zero_lit]
  exact mk_false_zero

theorem negz_add {x : FP ρ} (h : x ≠ negz) : (negz : FP ρ) + x = 0 + x := by
  rw [zero_lit]
  cases x with
  | nan => rfl
  | inf b => rfl
  | negz => exact absurd rfl h
  | fin r => show FP.mk false r = FP.mk false (0 + r); rw [zero_add]

/-- C92: the two sums agree as soon as one term is not `-0.0`. -/
theorem sum_start {l : List (FP ρ)} (h : ∃ x ∈ l, x ≠ negz) : fsumNeg l = fsum l := by
  have gen : ∀ l : List (FP ρ), (∀ x ∈ l, x = negz) ∧ l.foldl (· + ·) (negz : FP ρ) = negz ∨ l.foldl (· + ·) (negz : FP ρ) = l.foldl (· + ·) 0 := by
    intro l
    induction l with
    | nil => exact .inl ⟨by simp, rfl⟩
    | cons x l ih =>
      by_cases hx : x = negz
      · subst hx
        rw [List.foldl_cons, List.foldl_cons, zero_add_negz]
        rcases ih with ⟨h1, h2⟩ | h
        · exact .inl ⟨by simpa using h1, h2⟩
        · exact .inr h
      · rw [List.foldl_cons, List.foldl_cons, negz_add hx]
        exact .inr rfl
  rcases gen l with ⟨h1, -⟩ | h'
  · obtain ⟨x, hx, hne⟩ := h
    exact absurd (h1 x hx) hne
  · exact h'

/-- C92: otherwise they are zeros of different sign. -/
theorem sum_start_zeros {l : List (FP ρ)} (h : ∀ x ∈ l, x = negz) : fsumNeg l = negz ∧ fsum l = 0 := by
  have e : ∀ acc : FP ρ, acc = negz ∨ acc = 0 → l.foldl (· + ·) acc = acc := by
    induction l with
    | nil => exact fun _ _ => rfl
    | cons x l ih =>
      intro acc ha
      obtain rfl := h x (List.mem_cons_self ..)
      have z : acc + negz = acc := by
        rcases ha with rfl | rfl
        · rfl
        · exact zero_add_negz
      rw [List.foldl_cons, z]
      exact ih (fun y hy => h y (List.mem_cons_of_mem _ hy)) acc ha
  exact ⟨e _ (.inl rfl), e _ (.inr rfl)⟩

/-- C92: in value the two sums are the same on every input. -/
theorem sum_start_val (l : List (FP ρ)) (a : ℝ) : fsumNeg l ⇓ a ↔ fsum l ⇓ a := by
  by_cases h : ∃ x ∈ l, x ≠ negz
  · rw [sum_start h]
  · push Not at h
    obtain ⟨h1, h2⟩ := sum_start_zeros h
    rw [h1, h2, zero_lit]
    exact Iff.rfl

/-- C92: on a non-empty list of prices, none of which is `-0.0`, the two sums are the same number. -/
theorem sum_start_prices {l : List (FP ρ)} (hl : l ≠ []) (h : ∀ x ∈ l, x ≠ negz) : fsumNeg l = fsum l :=
  let ⟨x, hx⟩ := List.exists_mem_of_ne_nil l hl
  sum_start ⟨x, hx, h x hx⟩

example : fsumNeg ([negz, 3, negz] : List F64) = fsum [negz, 3, negz] := sum_start ⟨3, by simp, fun h => by
  have := (isLit (ρ := Rounding.binary64) 3 (by norm_num)).2
  rw [h] at this
  norm_num [val] at this⟩
example : fsumNeg ([negz, negz] : List F64) = negz ∧ fsum ([negz, negz] : List F64) = 0 := sum_start_zeros (by simp)

end Traquer
