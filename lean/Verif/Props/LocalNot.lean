import Verif.Props.LocalMomentum
import Verif.Props.SmoothMean
import Verif.Lemmas.Witness
/-!
# Averages that never forget
-/

namespace Traquer.Smooth
open FP FloatLit

theorem recent_differ (W w : ℕ) (x y : XF) :
    recent (x :: List.replicate (W + w) (fin 0)) W (W + w) = recent (y :: List.replicate (W + w) (fin 0)) W (W + w) := by
  rw [recent, recent, show W + w + 1 - W = w + 1 by omega, List.drop_succ_cons, List.drop_succ_cons]

/-- A history with one value and then zeros. -/
noncomputable def pulse (W w : ℕ) (x : ℝ) : List XF := fin x :: List.replicate (W + w) (fin 0)

theorem pulse_length (W w : ℕ) (x : ℝ) : (pulse W w x).length = W + w + 1 := by simp [pulse]

theorem pulse_fins (W w : ℕ) (x : ℝ) : Fins (pulse W w x) := fun y hy => by
  rcases List.mem_cons.1 hy with rfl | hy
  · trivial
  · rw [(List.mem_replicate.1 hy).2]; trivial

theorem pulse_vals (W w : ℕ) (x : ℝ) : vals (pulse W w x) = x :: List.replicate (W + w) 0 := by simp [vals, val, pulse]

/-- An average that starts from the mean of the first `w` values and shrinks by the same factor at each zero remembers its first value. -/
theorem not_local_of_decay {w : ℕ} (hw : 2 ≤ w) (W : ℕ) {f : List XF → Option (List XF)} {r : ℝ} (hr : 0 < r)
    (hv : ∀ x, ∃ v, Reports (W + w + 1) (w - 1) v (f (pulse W w x)) ∧ v (w - 1) = mean ((vals (pulse W w x)).take w) ∧
      ∀ i, w - 1 ≤ i → (vals (pulse W w x))[i + 1]? = some 0 → v (i + 1) = v i * r) : ¬ DependsOnLast W f := by
  intro h
  have hw0 : (0 : ℝ) < w := by exact_mod_cast (show 0 < w by omega)
  have key : ∀ x : ℝ, ∃ v : ℕ → ℝ, Reports (W + w + 1) (w - 1) v (f (pulse W w x)) ∧ v (W + w) = x / w * r ^ (W + 1) := by
    intro x
    obtain ⟨v, h1, h2, h3⟩ := hv x
    refine ⟨v, h1, ?_⟩
    rw [pulse_vals] at h2 h3
    have base : v (w - 1) = x / w := by
      obtain ⟨m, rfl⟩ : ∃ m, w = m + 1 := ⟨w - 1, by omega⟩
      have ht : (x :: List.replicate (W + (m + 1)) (0 : ℝ)).take (m + 1) = x :: List.replicate m 0 := by
        rw [List.take_succ_cons, List.take_replicate, min_eq_left (by omega)]
      rw [h2, ht, mean]
      simp
    have step : ∀ n, n ≤ W + 1 → v (w - 1 + n) = x / w * r ^ n := by
      intro n
      induction n with
      | zero => intro _; simpa using base
      | succ n ih =>
        intro hn
        have e : (x :: List.replicate (W + w) (0 : ℝ))[w - 1 + n + 1]? = some 0 := by
          rw [List.getElem?_cons_succ, List.getElem?_replicate, if_pos (by omega)]
        rw [← Nat.add_assoc, h3 _ (by omega) e, ih (by omega), pow_succ]
        ring
    have := step (W + 1) (le_refl _)
    rwa [show w - 1 + (W + 1) = W + w by omega] at this
  obtain ⟨v, ⟨o, e, l, -, q⟩, ev⟩ := key 1
  obtain ⟨v', ⟨o', e', l', -, q'⟩, ev'⟩ := key 0
  have := h _ _ (W + w) (W + w) o o' e e' (by omega) (by omega) (by rw [pulse_length]; omega) (by rw [pulse_length]; omega)
    (recent_differ W w _ _)
  obtain ⟨y, hy, iy⟩ := q (W + w) (by omega) (by omega)
  obtain ⟨y', hy', iy'⟩ := q' (W + w) (by omega) (by omega)
  rw [hy, hy'] at this
  cases this
  have := iy.unique iy'
  rw [ev, ev'] at this
  have p : (0 : ℝ) < 1 / w * r ^ (W + 1) := mul_pos (by positivity) (pow_pos hr _)
  rw [this] at p
  simp at p

/-- The exponential average of two or more bars depends on the whole history: no number of last bars determines it. -/
theorem ewma_not_local {w : ℕ} (hw : 2 ≤ w) (W : ℕ) : ¬ DependsOnLast W fun l : List XF => ewma l w := by
  have hw1 : (1 : ℝ) < w := by exact_mod_cast (show 1 < w by omega)
  refine not_local_of_decay hw W (r := 1 - 2 / (w + 1)) ?_ fun x => ?_
  · rw [sub_pos, div_lt_one (by positivity)]
    linarith
  · obtain ⟨v, h1, h2, h3⟩ := ewma_reports (pulse W w x) w (by omega) (by rw [pulse_length]; omega) (pulse_fins W w x)
    rw [pulse_length] at h1
    exact ⟨v, h1, h2, fun i hi hx => by rw [h3 i 0 hi hx]; ring⟩

/-- So does Wilder's average. -/
theorem wilder_not_local {w : ℕ} (hw : 2 ≤ w) (W : ℕ) : ¬ DependsOnLast W fun l : List XF => wilder l w := by
  have hw1 : (1 : ℝ) < w := by exact_mod_cast (show 1 < w by omega)
  refine not_local_of_decay hw W (r := (w - 1) / w) (div_pos (by linarith) (by linarith)) fun x => ?_
  obtain ⟨v, h1, h2, h3⟩ := wilder_reports (pulse W w x) w (by omega) (by rw [pulse_length]; omega) (pulse_fins W w x)
  rw [pulse_length] at h1
  exact ⟨v, h1, h2, fun i hi hx => by rw [h3 i 0 hi hx]; ring⟩

end Traquer.Smooth
