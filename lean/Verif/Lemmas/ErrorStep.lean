import Verif.Lemmas.Error
/-!
# Rounding errors of one step of a recursive average
-/

namespace Traquer
open FP FloatLit

variable {ρ : Rounding} {u η B : ℝ}

/-- The invariant of a scan that knows its position. -/
theorem scanS_at {σ α : Type} {f : σ → α → σ} {P : ℕ → σ → Prop} {l : List α} {s : σ} (h0 : P 0 s)
    (hf : ∀ i x t, l[i]? = some x → P i t → P (i + 1) (f t x)) :
    ∀ i, i < l.length → ∃ y, (scanS f s l)[i]? = some y ∧ P (i + 1) y := by
  induction l generalizing s P with
  | nil => simp
  | cons x l ih =>
    intro i hi
    have h1 := hf 0 x s rfl h0
    cases i with
    | zero => exact ⟨_, rfl, h1⟩
    | succ i =>
      obtain ⟨y, e, h⟩ := ih (P := fun i => P (i + 1)) h1 (fun i x t hx h => hf (i + 1) x t hx h) i (by simpa using hi)
      exact ⟨y, e, h⟩

/-- The error of a product of two approximate numbers, before rounding. -/
theorem mul_near {r s a b d e : ℝ} (h1 : |r - a| ≤ d) (h2 : |s - b| ≤ e) : |r * s - a * b| ≤ d * |s| + |a| * e := by
  have : r * s - a * b = (r - a) * s + a * (s - b) := by ring
  rw [this]
  refine (abs_add_le _ _).trans ?_
  rw [abs_mul, abs_mul]
  exact add_le_add (mul_le_mul_of_nonneg_right h1 (abs_nonneg _)) (mul_le_mul_of_nonneg_left h2 (abs_nonneg _))

theorem abs_near {r a e : ℝ} (h : |r - a| ≤ e) : |r| ≤ |a| + e := by
  have := abs_add_le (r - a) a
  rw [sub_add_cancel] at this
  linarith

/-- One step of the exponential average: the error stays below `20 u M / α`. -/
theorem Accurate.ewma_step (A : Accurate ρ u η B) {M α E : ℝ} (hM : 0 ≤ M) (hα1 : α ≤ 1) (hu : 20 * u ≤ α) (hη : η ≤ u * M)
    (hB : 3 * M ≤ B) (hE : E * α = 20 * u * M) (hEM : E ≤ M) {α' β' x s' : FP ρ} {a b r s : ℝ} (ha : α' ⇓ a) (hb : β' ⇓ b)
    (hx : x ⇓ r) (ea : |a - α| ≤ 2 * u * α) (eb : |b - (1 - α)| ≤ 4 * u) (er : |r| ≤ M) (es : |s| ≤ M) (hs : Approx s' s E) :
    Approx (x * α' + s' * β') (r * α + s * (1 - α)) E := by
  obtain ⟨t, ht, et⟩ := hs
  have u0 := A.u0
  have α0 : 0 ≤ α := by linarith
  have E0 : 0 ≤ E := (abs_nonneg _).trans et
  have uM : 0 ≤ u * M := mul_nonneg u0 hM
  have uα : u * α * M ≤ u * M := by nlinarith
  have u20 : u ≤ 1 / 20 := by linarith
  have uB : u * M ≤ 1 / 20 * M := mul_le_mul_of_nonneg_right u20 hM
  have αM : 0 ≤ α * M := by positivity
  have h20 : 20 * u * M ≤ α * M := mul_le_mul_of_nonneg_right hu hM
  -- the first product
  obtain ⟨p, hp, ep⟩ := A.step (K := 2 * M) (rounds_mul hx ha) (c := r * α) (e := 2 * u * M)
    (by
      rw [← mul_sub, abs_mul]
      calc |r| * |a - α| ≤ M * (2 * u * α) := mul_le_mul er ea (abs_nonneg _) hM
        _ ≤ 2 * u * M := by nlinarith)
    (by
      rw [abs_mul, abs_of_nonneg α0]
      have : |r| * α ≤ M * 1 := mul_le_mul er hα1 α0 hM
      nlinarith)
    (by nlinarith)
  -- the second product
  have hb' : |b| ≤ 1 - α + 4 * u := by
    have := abs_near eb
    rwa [abs_of_nonneg (by linarith : 0 ≤ 1 - α)] at this
  have hEb : E * |b| ≤ E * (1 - α + 4 * u) := mul_le_mul_of_nonneg_left hb' E0
  have hEM' : E * (1 - α + 4 * u) ≤ M * (1 - α + 4 * u) := mul_le_mul_of_nonneg_right hEM (by linarith)
  have hsb : |s| * (4 * u) ≤ M * (4 * u) := mul_le_mul_of_nonneg_right es (by linarith)
  have hsβ : |s * (1 - α)| ≤ M * (1 - α) := by
    rw [abs_mul, abs_of_nonneg (by linarith : 0 ≤ 1 - α)]
    exact mul_le_mul_of_nonneg_right es (by linarith)
  obtain ⟨q, hq, eq⟩ := A.step (K := 2 * M) (rounds_mul ht hb) (c := s * (1 - α)) (e := E * (1 - α + 4 * u) + 4 * u * M)
    (by
      have := mul_near et eb
      linarith)
    (by nlinarith)
    (by nlinarith)
  -- the sum
  have hc : |r * α + s * (1 - α)| ≤ M := by
    refine (abs_add_le _ _).trans ?_
    have : |r * α| ≤ M * α := by
      rw [abs_mul, abs_of_nonneg α0]
      exact mul_le_mul_of_nonneg_right er α0
    linarith
  have := A.step (K := 2 * M) (rounds_add hp hq) (c := r * α + s * (1 - α)) (e := E * (1 - α + 4 * u) + 12 * u * M)
    (by
      rw [add_sub_add_comm]
      refine (abs_add_le _ _).trans ?_
      linarith)
    (by nlinarith)
    (by nlinarith)
  refine this.mono ?_
  have : E * (4 * u) ≤ 4 * u * M := by nlinarith
  nlinarith

/-- The smoothing factor of the exponential average and its complement. -/
theorem Accurate.alpha (A : Accurate ρ u η B) {v : ℕ} {α : ℝ} (hv : 2 ≤ v) (h53 : v ≤ 2 ^ 53) (hα : α = 2 / v) (hu : 20 * u ≤ α)
    (hη : η ≤ u * α) (hB : 2 ≤ B) :
    ∃ a b, (2 / flt v : FP ρ) ⇓ a ∧ (1 - 2 / flt v : FP ρ) ⇓ b ∧ |a - α| ≤ 2 * u * α ∧ |b - (1 - α)| ≤ 4 * u := by
  have u0 := A.u0
  have v2 : (2 : ℝ) ≤ v := by exact_mod_cast hv
  have α0 : 0 ≤ α := by linarith
  have α1 : α ≤ 1 := by rw [hα, div_le_one (by linarith)]; exact v2
  have uα : u * α ≤ u := by nlinarith
  obtain ⟨a, ha, ea⟩ := A.step (K := α) (rounds_div (isLit 2 (by norm_num)) (isFlt h53) (by positivity)) (c := α) (e := 0)
    (by rw [hα]; simp) (by rw [abs_of_nonneg α0]; simp) (by linarith)
  have ea' : |a - α| ≤ 2 * u * α := by linarith
  obtain ⟨b, hb, eb⟩ := A.step (K := 1) (rounds_sub isOne ha) (c := 1 - α) (e := 2 * u * α)
    (by rw [sub_sub_sub_cancel_left, abs_sub_comm]; exact ea')
    (by rw [abs_of_nonneg (by linarith)]; nlinarith)
    (by linarith)
  exact ⟨a, b, ha, hb, ea', by linarith⟩

/-- One step of Wilder's average: the error stays below `7 w u M`. -/
theorem Accurate.wilder_step (A : Accurate ρ u η B) {M E : ℝ} {k : ℕ} (hM : 0 ≤ M) (h53 : k + 1 ≤ 2 ^ 53) (hη : η ≤ u * M)
    (hu : 7 * ((k : ℝ) + 1) * u ≤ 1) (hE : E = 7 * ((k : ℝ) + 1) * u * M) (hB : 3 * ((k : ℝ) + 1) * M ≤ B) {x s' : FP ρ} {r s : ℝ}
    (hx : x ⇓ r) (er : |r| ≤ M) (es : |s| ≤ M) (hs : Approx s' s E) :
    Approx ((s' * flt k + x) / flt (k + 1)) ((s * k + r) / ((k : ℝ) + 1)) E := by
  obtain ⟨t, ht, et⟩ := hs
  have u0 := A.u0
  have k0 : (0 : ℝ) ≤ k := by positivity
  have uM : 0 ≤ u * M := mul_nonneg u0 hM
  have uk : 0 ≤ u * k := mul_nonneg u0 k0
  have kM : 0 ≤ k * M := mul_nonneg k0 hM
  have ukM : 0 ≤ u * k * M := mul_nonneg uk hM
  have E0 : 0 ≤ E := (abs_nonneg _).trans et
  have hEM : E ≤ M := by
    rw [hE]
    nlinarith
  have hu' : u ≤ 1 / 7 := by nlinarith
  have uB : u * M ≤ 1 / 7 * M := mul_le_mul_of_nonneg_right hu' hM
  have ukB : 7 * (u * k * M) ≤ M - 7 * (u * M) := by nlinarith
  have ukM' : u * k * M ≤ 1 / 7 * (k * M) := by nlinarith
  have hEk : E * k ≤ M * k := mul_le_mul_of_nonneg_right hEM k0
  have hsk : |s * k| ≤ M * k := by
    rw [abs_mul, abs_of_nonneg k0]
    exact mul_le_mul_of_nonneg_right es k0
  obtain ⟨p, hp, ep⟩ := A.step (K := 2 * k * M) (rounds_mul ht (isFlt (by omega : k ≤ 2 ^ 53))) (c := s * k) (e := E * k)
    (by
      rw [← sub_mul, abs_mul, abs_of_nonneg k0]
      exact mul_le_mul_of_nonneg_right et k0)
    (by linarith)
    (by nlinarith)
  have hc : |s * k + r| ≤ (k + 1) * M := by
    have := abs_add_le (s * k) r
    linarith
  obtain ⟨q, hq, eq⟩ := A.step (K := 2 * (k + 1) * M) (rounds_add hp hx) (c := s * k + r) (e := E * k + (2 * k + 1) * u * M)
    (by
      rw [add_sub_add_right_eq_sub]
      nlinarith)
    (by nlinarith)
    (by nlinarith)
  have k1 : (0 : ℝ) < k + 1 := by linarith
  have hfk := isFlt (ρ := ρ) h53
  push_cast at hfk
  have e1 : E * k + 4 * (k + 1) * u * M = (E - 3 * u * M) * (k + 1) := by
    rw [hE]; ring
  have := A.step (K := 2 * M) (rounds_div hq hfk k1.ne') (c := (s * k + r) / (k + 1)) (e := E - 3 * u * M)
    (by
      rw [← sub_div, abs_div, abs_of_pos k1, div_le_iff₀ k1]
      nlinarith)
    (by
      rw [abs_div, abs_of_pos k1]
      have : |s * k + r| / (k + 1) ≤ M := by rw [div_le_iff₀ k1]; linarith
      linarith)
    (by nlinarith)
  exact this.mono (by nlinarith)

end Traquer
