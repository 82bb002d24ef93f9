import Verif.Spec.Error
import Verif.Lemmas.Rounded
import Verif.Lemmas.Dominated
/-!
# Rounding errors
-/

namespace Traquer
open FP FloatLit

/-- One rounding errs by at most `u` of the number plus `η`, and numbers up to `B` do not overflow. -/
structure Accurate (ρ : Rounding) (u η B : ℝ) : Prop where
  u0 : 0 ≤ u
  η0 : 0 ≤ η
  near : ∀ x, |ρ.rnd x - x| ≤ u * |x| + η
  fits : ∀ x, |x| ≤ B → ρ.fits x

variable {ρ : Rounding} {u η B : ℝ}

theorem accurate64 : Accurate Rounding.binary64 unit64 (2⁻¹ ^ 1075) max64 where
  u0 := by unfold unit64; positivity
  η0 := by positivity
  near := rnd64_error
  fits := fun _ h => h

theorem Approx.mono {x : FP ρ} {a e e' : ℝ} (h : Approx x a e) (he : e ≤ e') : Approx x a e' := by
  obtain ⟨r, h1, h2⟩ := h
  exact ⟨r, h1, h2.trans he⟩

theorem Approx.is {x : FP ρ} {a : ℝ} (h : x ⇓ a) : Approx x a 0 := ⟨a, h, by simp⟩

/-- One more rounding. -/
theorem Accurate.round (A : Accurate ρ u η B) {x : FP ρ} {a K : ℝ} (h : Rounds x a) (ha : |a| ≤ K) (hB : K + (u * K + η) ≤ B) :
    Approx x a (u * K + η) := by
  have h0 := A.near a
  have h1 : u * |a| ≤ u * K := mul_le_mul_of_nonneg_left ha A.u0
  have h2 : |ρ.rnd a| ≤ B := by
    have : |ρ.rnd a| ≤ |ρ.rnd a - a| + |a| := by
      have := abs_add_le (ρ.rnd a - a) a
      rwa [sub_add_cancel] at this
    linarith
  rcases h.cases with ⟨-, i⟩ | ⟨n, -⟩
  · exact ⟨_, i, by linarith⟩
  · exact absurd (A.fits _ h2) n

/-- An operation on approximate numbers, followed by a rounding. -/
theorem Accurate.step (A : Accurate ρ u η B) {x : FP ρ} {a c e K : ℝ} (h : Rounds x a) (hc : |a - c| ≤ e) (hK : |c| + e ≤ K)
    (hB : K + (u * K + η) ≤ B) : Approx x c (e + (u * K + η)) := by
  have ha : |a| ≤ K := by
    have := abs_add_le (a - c) c
    rw [sub_add_cancel] at this
    linarith
  obtain ⟨r, h1, h2⟩ := A.round h ha hB
  refine ⟨r, h1, ?_⟩
  have := abs_add_le (r - a) (a - c)
  rw [sub_add_sub_cancel] at this
  linarith

theorem Bounded.fins {M : ℝ} {l : List (FP ρ)} (h : Bounded M l) : Fins l := fun x hx => by
  obtain ⟨r, h1, -⟩ := h x hx
  exact h1.1

theorem Bounded.sub {M : ℝ} {l m : List (FP ρ)} (h : Bounded M l) (hm : ∀ x ∈ m, x ∈ l) : Bounded M m :=
  fun x hx => h x (hm x hx)

theorem Bounded.recent {M : ℝ} {l : List (FP ρ)} (h : Bounded M l) (w i : ℕ) : Bounded M (recent l w i) :=
  h.sub fun _ hx => List.mem_of_mem_drop (List.mem_of_mem_take hx)

theorem Bounded.vals {M : ℝ} {l : List (FP ρ)} (h : Bounded M l) : ∀ r ∈ vals l, |r| ≤ M := fun r hr => by
  obtain ⟨x, hx, rfl⟩ := List.mem_map.1 hr
  obtain ⟨r, h1, h2⟩ := h x hx
  rwa [← h1.2] at h2

theorem abs_sum_bounded {M : ℝ} {l : List ℝ} (h : ∀ r ∈ l, |r| ≤ M) : |l.sum| ≤ l.length * M := by
  induction l with
  | nil => simp
  | cons a l ih =>
    have := ih fun r hr => h r (List.mem_cons_of_mem _ hr)
    have h1 := h a (by simp)
    rw [List.sum_cons, List.length_cons]
    push_cast
    have := abs_add_le a l.sum
    linarith

/-- The error of a plain sum. -/
theorem Accurate.near_fsum (A : Accurate ρ u η B) {M : ℝ} (hM : 0 ≤ M) (hη : η ≤ u * M) (hu : u ≤ 1 / 4) :
    ∀ {l : List (FP ρ)}, Bounded M l → l.length * u ≤ 1 → 3 * l.length * M ≤ B →
      Approx (fsum l) (vals l).sum (u * M * (l.length * (l.length + 1))) := by
  intro l
  induction l using List.reverseRecOn with
  | nil => intro _ _ _; simpa [Traquer.fsum] using Approx.is (ρ := ρ) isZero
  | append_singleton l x ih =>
    intro hb hn hB
    have u0 := A.u0
    rw [List.length_append, List.length_singleton] at hn hB ⊢
    push_cast at hn hB ⊢
    obtain ⟨s, hs, es⟩ := ih (hb.sub fun y hy => by simp [hy]) (by nlinarith) (by nlinarith)
    obtain ⟨r, hr, er⟩ := hb x (by simp)
    set n : ℝ := (l.length : ℝ) with hnd
    have n0 : 0 ≤ n := by positivity
    have e1 : Traquer.fsum (l ++ [x]) = Traquer.fsum l + x := by simp [Traquer.fsum]
    have e2 : (vals (l ++ [x])).sum = (vals l).sum + r := by
      simp [vals_append, hr.2]
    rw [e1, e2]
    have hsum : |(vals l).sum| ≤ n * M := by
      have := abs_sum_bounded (hb.sub (m := l) fun y hy => by simp [hy]).vals
      simpa using this
    have hE : u * M * (n * (n + 1)) ≤ M * n := by
      have : u * (n + 1) ≤ 1 := by linarith
      have h2 : (M * n) * (u * (n + 1)) ≤ (M * n) * 1 := mul_le_mul_of_nonneg_left this (by positivity)
      nlinarith
    have := A.step (K := (2 * n + 1) * M) (rounds_add hs hr) (c := (vals l).sum + r) (e := u * M * (n * (n + 1)))
      (by rw [add_sub_add_right_eq_sub]; exact es)
      (by
        have := abs_add_le (vals l).sum r
        nlinarith)
      (by
        have : u * ((2 * n + 1) * M) ≤ 1 / 4 * ((2 * n + 1) * M) := mul_le_mul_of_nonneg_right hu (by positivity)
        have h2 : u * M ≤ 1 / 4 * M := mul_le_mul_of_nonneg_right hu hM
        nlinarith)
    refine this.mono ?_
    have h2 : 0 ≤ u * M := by positivity
    nlinarith

/-- The error of a mean. -/
theorem Accurate.near_mean (A : Accurate ρ u η B) {M : ℝ} (hM : 0 ≤ M) (hη : η ≤ u * M) (hu : u ≤ 1 / 4) {l : List (FP ρ)}
    (hb : Bounded M l) (h1 : 1 ≤ l.length) (h53 : l.length ≤ 2 ^ 53) (hn : l.length * u ≤ 1) (hB : 4 * l.length * M ≤ B) :
    Approx (Traquer.fsum l / flt l.length) (mean (vals l)) (u * M * (l.length + 5)) := by
  have u0 := A.u0
  have n1 : (1 : ℝ) ≤ l.length := by exact_mod_cast h1
  obtain ⟨s, hs, es⟩ := A.near_fsum hM hη hu hb hn (by nlinarith)
  have hsum : |(vals l).sum| ≤ l.length * M := by
    have := abs_sum_bounded hb.vals
    simpa using this
  have hm : mean (vals l) = (vals l).sum / l.length := by rw [Traquer.mean]; simp
  rw [hm]
  set n : ℝ := (l.length : ℝ) with hnd
  have n0 : 0 < n := by linarith
  have hE : u * M * (n + 1) ≤ 2 * M := by
    have : u * (n + 1) ≤ 2 := by linarith
    nlinarith
  have := A.step (K := 3 * M) (rounds_div hs (isFlt h53) n0.ne') (c := (vals l).sum / n) (e := u * M * (n + 1))
    (by
      rw [← sub_div, abs_div, abs_of_pos n0, div_le_iff₀ n0]
      nlinarith)
    (by
      have : |(vals l).sum / n| ≤ M := by
        rw [abs_div, abs_of_pos n0, div_le_iff₀ n0]
        linarith
      linarith)
    (by
      have h2 : u * M ≤ 1 / 4 * M := mul_le_mul_of_nonneg_right hu hM
      nlinarith)
  refine this.mono ?_
  have h2 : 0 ≤ u * M := by positivity
  nlinarith

end Traquer
