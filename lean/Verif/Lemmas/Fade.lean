import Verif.Lemmas.NearSeries
import Verif.Spec.Forget

/-! How the difference of two recursive averages fades over common bars. -/

namespace Traquer
open FP

variable {k w p p' n : ℕ} {x y : ℕ → ℝ} {E : ℝ} {P : ℕ → ℝ}

/-- The factor by which one bar shrinks the past in an exponential average of window `w`. -/
noncomputable def keep (w : ℕ) : ℝ := 1 - 2 / (w + 1)

theorem keep_nonneg (hw : 1 ≤ w) : 0 ≤ keep w := by
  have : (1 : ℝ) ≤ w := by exact_mod_cast hw
  rw [keep, sub_nonneg, div_le_one (by linarith)]
  linarith

theorem keep_lt_one (w : ℕ) : keep w < 1 := by
  have : (0 : ℝ) < 2 / (w + 1) := by positivity
  unfold keep
  linarith

/-- One average after the other: at the `j`-th common bar the difference has shrunk by `keep ^ (j + 1)`. -/
theorem ewmaFrom_fades (hw : 1 ≤ w) (hp : k + w ≤ p) (hp' : k + w ≤ p') (h0 : |ewmaFrom k w x (p - 1) - ewmaFrom k w y (p' - 1)| ≤ E)
    (hP : ∀ j, j < n → |x (p + j) - y (p' + j)| ≤ keep w ^ (j + 1) * P j) :
    ∀ j, j < n → |ewmaFrom k w x (p + j) - ewmaFrom k w y (p' + j)| ≤
      keep w ^ (j + 1) * (E + 2 / (w + 1) * ∑ i ∈ Finset.range (j + 1), P i) := by
  have b0 := keep_nonneg hw
  have a0 : (0 : ℝ) ≤ 2 / (w + 1) := by positivity
  have step : ∀ q q', k + w ≤ q + 1 → k + w ≤ q' + 1 → ewmaFrom k w x (q + 1) - ewmaFrom k w y (q' + 1) =
      2 / (w + 1) * (x (q + 1) - y (q' + 1)) + keep w * (ewmaFrom k w x q - ewmaFrom k w y q') := fun q q' h h' => by
    rw [ewmaFrom, ewmaFrom, if_neg (by omega), if_neg (by omega), keep]
    ring
  have key : ∀ q q' d e z, k + w ≤ q + 1 → k + w ≤ q' + 1 → |x (q + 1) - y (q' + 1)| ≤ keep w * d →
      |ewmaFrom k w x q - ewmaFrom k w y q'| ≤ e → e ≤ z →
      |ewmaFrom k w x (q + 1) - ewmaFrom k w y (q' + 1)| ≤ keep w * (z + 2 / (w + 1) * d) := fun q q' d e z h h' hd he hz => by
    rw [step q q' h h']
    refine (abs_add_le _ _).trans ?_
    rw [abs_mul, abs_mul, abs_of_nonneg a0, abs_of_nonneg b0]
    have h1 := mul_le_mul_of_nonneg_left hd a0
    have h2 := mul_le_mul_of_nonneg_left (he.trans hz) b0
    linarith
  intro j
  induction j with
  | zero =>
    intro hj
    have := key (p - 1) (p' - 1) (P 0) E E (by omega) (by omega) (by
      have := hP 0 hj
      rw [show p - 1 + 1 = p + 0 by omega, show p' - 1 + 1 = p' + 0 by omega]
      simpa using this) h0 le_rfl
    rw [show p - 1 + 1 = p + 0 by omega, show p' - 1 + 1 = p' + 0 by omega] at this
    simpa using this
  | succ j ih =>
    intro hj
    have := key (p + j) (p' + j) (keep w ^ (j + 1) * P (j + 1)) _ _ (by omega) (by omega) (by
      have := hP (j + 1) hj
      rw [pow_succ'] at this
      rw [add_assoc, add_assoc, ← mul_assoc]
      exact this) (ih (by omega)) le_rfl
    rw [add_assoc, add_assoc] at this
    refine this.trans (le_of_eq ?_)
    rw [Finset.sum_range_succ _ (j + 1)]
    ring

/-- The same for Wilder's average. -/
theorem wilderFrom_fades (hw : 1 ≤ w) (hp : k + w ≤ p) (hp' : k + w ≤ p') (h0 : |wilderFrom k w x (p - 1) - wilderFrom k w y (p' - 1)| ≤ E)
    (hP : ∀ j, j < n → x (p + j) = y (p' + j)) :
    ∀ j, j < n → |wilderFrom k w x (p + j) - wilderFrom k w y (p' + j)| ≤ (1 - 1 / w) ^ (j + 1) * E := by
  have w1 : (1 : ℝ) ≤ w := by exact_mod_cast hw
  have b0 : (0 : ℝ) ≤ 1 - 1 / w := by
    rw [sub_nonneg, div_le_one (by linarith)]
    exact w1
  have key : ∀ q q' e, k + w ≤ q + 1 → k + w ≤ q' + 1 → x (q + 1) = y (q' + 1) → |wilderFrom k w x q - wilderFrom k w y q'| ≤ e →
      |wilderFrom k w x (q + 1) - wilderFrom k w y (q' + 1)| ≤ (1 - 1 / w) * e := fun q q' e h h' hx he => by
    have : wilderFrom k w x (q + 1) - wilderFrom k w y (q' + 1) = (1 - 1 / w) * (wilderFrom k w x q - wilderFrom k w y q') := by
      rw [wilderFrom, wilderFrom, if_neg (by omega), if_neg (by omega), hx]
      field_simp
      ring
    rw [this, abs_mul, abs_of_nonneg b0]
    exact mul_le_mul_of_nonneg_left he b0
  intro j
  induction j with
  | zero =>
    intro hj
    have := key (p - 1) (p' - 1) E (by omega) (by omega) (by
      have := hP 0 hj
      rwa [show p - 1 + 1 = p + 0 by omega, show p' - 1 + 1 = p' + 0 by omega]) h0
    rw [show p - 1 + 1 = p + 0 by omega, show p' - 1 + 1 = p' + 0 by omega] at this
    simpa using this
  | succ j ih =>
    intro hj
    have := key (p + j) (p' + j) _ (by omega) (by omega) (hP (j + 1) hj) (ih (by omega))
    rw [pow_succ', mul_assoc]
    exact this

/-- Two reports whose values differ by at most `B j` at the `j`-th common bar. -/
theorem Reports.agree {r r' : Option (List XF)} {N N' K K' : ℕ} {v v' : ℕ → ℝ} (h : Reports N K v r) (h' : Reports N' K' v' r') {B : ℕ → ℝ}
    (hK : K ≤ p) (hK' : K' ≤ p') (hN : N = p + n) (hN' : N' = p' + n) (hB : ∀ j, j < n → |v (p + j) - v' (p' + j)| ≤ B j) :
    Agree p p' n B r r' := by
  obtain ⟨o, e, -, -, f⟩ := h
  obtain ⟨o', e', -, -, f'⟩ := h'
  refine ⟨o, o', e, e', fun j hj => ?_⟩
  obtain ⟨y, hy, iy⟩ := f (p + j) (by omega) (by omega)
  obtain ⟨y', hy', iy'⟩ := f' (p' + j) (by omega) (by omega)
  exact ⟨y, y', _, _, hy, hy', iy, iy', hB j hj⟩

theorem Agree.mono {r r' : Option (List XF)} {B B' : ℕ → ℝ} (h : Agree p p' n B r r') (hB : ∀ j, j < n → B j ≤ B' j) : Agree p p' n B' r r' := by
  obtain ⟨o, o', e, e', f⟩ := h
  refine ⟨o, o', e, e', fun j hj => ?_⟩
  obtain ⟨y, y', a, a', h1, h2, h3, h4, h5⟩ := f j hj
  exact ⟨y, y', a, a', h1, h2, h3, h4, h5.trans (hB j hj)⟩

theorem bounded_bar {ρ : Rounding} {M : ℝ} {l : List (FP ρ)} (h : Bounded M l) {i : ℕ} (hi : i < l.length) : |bar (vals l) i| ≤ M := by
  obtain ⟨r, hr, b⟩ := h _ (List.getElem_mem hi)
  have : bar (vals l) i = r := by
    rw [bar, vals, List.getD_eq_getElem?_getD, List.getElem?_map, List.getElem?_eq_getElem hi]
    rcases is_iff.1 hr with e | ⟨e, e2⟩
    · rw [e]; rfl
    · rw [e, e2]; rfl
  rwa [this]

theorem bar_append {ρ : Rounding} (past recent : List (FP ρ)) (j : ℕ) : bar (vals (past ++ recent)) (past.length + j) = bar (vals recent) j := by
  rw [bar, bar, vals, vals, List.getD_eq_getElem?_getD, List.getD_eq_getElem?_getD, List.map_append, List.getElem?_append_right (by simp)]
  simp

end Traquer
