import Verif.Lemmas.Near
/-!
# Rounding errors of whole series
-/

namespace Traquer
open FP FloatLit

/-- The series has `n` values, the first `k` of them NaN, and from then on the value at bar `i` is within `e` units of `v i`. -/
def NearS (M : ℝ) (n k : ℕ) (v : ℕ → ℝ) (c e : ℝ) (m : List F64) : Prop := ReportsP n k (fun i y => Nearly M y (v i) c e) (some m)

/-- Two exponential averages of series that differ by at most `e` differ by at most `e`. -/
theorem ewmaFrom_near {k w n : ℕ} {v v' : ℕ → ℝ} {e : ℝ} (hw : 1 ≤ w) (h : ∀ i, k ≤ i → i < n → |v i - v' i| ≤ e) :
    ∀ i, k + (w - 1) ≤ i → i < n → |ewmaFrom k w v i - ewmaFrom k w v' i| ≤ e := by
  intro i hi
  induction i, hi using Nat.le_induction with
  | base =>
    intro hin
    have e0 : ∀ x : ℕ → ℝ, ewmaFrom k w x (k + (w - 1)) = mean (lastOf x w (k + w - 1)) := fun x => by
      cases hk : k + (w - 1) with
      | zero => rfl
      | succ j => rw [ewmaFrom, if_pos (by omega)]
    rw [e0, e0]
    refine mean_near ?_ (by simp [lastOf]; omega)
    rw [List.forall₂_iff_get]
    refine ⟨by simp [lastOf], fun j h1 h2 => ?_⟩
    simp only [lastOf, List.length_map, List.length_range] at h1
    simp only [lastOf, List.get_eq_getElem, List.getElem_map, List.getElem_range]
    exact h _ (by omega) (by omega)
  | succ i hi ih =>
    intro hin
    have h1 := ih (by omega)
    have h2 := h (i + 1) (by omega) hin
    rw [ewmaFrom, ewmaFrom, if_neg (by omega), if_neg (by omega)]
    obtain ⟨a0, a1⟩ := Smooth.two_div_succ_range hw
    generalize (2 : ℝ) / (w + 1) = α at a0 a1 ⊢
    have : v (i + 1) * α + ewmaFrom k w v i * (1 - α) - (v' (i + 1) * α + ewmaFrom k w v' i * (1 - α)) =
        α * (v (i + 1) - v' (i + 1)) + (1 - α) * (ewmaFrom k w v i - ewmaFrom k w v' i) := by ring
    rw [this]
    refine (abs_add_le _ _).trans ?_
    rw [abs_mul, abs_mul, abs_of_nonneg a0, abs_of_nonneg (sub_nonneg.2 a1)]
    have := mul_le_mul_of_nonneg_left h2 a0
    have := mul_le_mul_of_nonneg_left h1 (sub_nonneg.2 a1)
    linarith

/-- The same for Wilder's average. -/
theorem wilderFrom_near {k w n : ℕ} {v v' : ℕ → ℝ} {e : ℝ} (hw : 1 ≤ w) (h : ∀ i, k ≤ i → i < n → |v i - v' i| ≤ e) :
    ∀ i, k + (w - 1) ≤ i → i < n → |wilderFrom k w v i - wilderFrom k w v' i| ≤ e := by
  intro i hi
  induction i, hi using Nat.le_induction with
  | base =>
    intro hin
    have e0 : ∀ x : ℕ → ℝ, wilderFrom k w x (k + (w - 1)) = mean (lastOf x w (k + w - 1)) := fun x => by
      cases hk : k + (w - 1) with
      | zero => rfl
      | succ j => rw [wilderFrom, if_pos (by omega)]
    rw [e0, e0]
    refine mean_near ?_ (by simp [lastOf]; omega)
    rw [List.forall₂_iff_get]
    refine ⟨by simp [lastOf], fun j h1 h2 => ?_⟩
    simp only [lastOf, List.length_map, List.length_range] at h1
    simp only [lastOf, List.get_eq_getElem, List.getElem_map, List.getElem_range]
    exact h _ (by omega) (by omega)
  | succ i hi ih =>
    intro hin
    have h1 := ih (by omega)
    have h2 := h (i + 1) (by omega) hin
    rw [wilderFrom, wilderFrom, if_neg (by omega), if_neg (by omega)]
    have w1 : (1 : ℝ) ≤ w := by exact_mod_cast hw
    rw [← sub_div, abs_div, abs_of_pos (show (0 : ℝ) < w by linarith), div_le_iff₀ (by linarith)]
    have : wilderFrom k w v i * ((w : ℝ) - 1) + v (i + 1) - (wilderFrom k w v' i * (w - 1) + v' (i + 1)) =
        (w - 1) * (wilderFrom k w v i - wilderFrom k w v' i) + (v (i + 1) - v' (i + 1)) := by ring
    rw [this]
    refine (abs_add_le _ _).trans ?_
    rw [abs_mul, abs_of_nonneg (show (0 : ℝ) ≤ w - 1 by linarith)]
    have := mul_le_mul_of_nonneg_left h1 (show (0 : ℝ) ≤ w - 1 by linarith)
    linarith

theorem ewmaFrom_zero (k w : ℕ) (i : ℕ) : ewmaFrom k w (fun _ => 0) i = 0 := by
  induction i with
  | zero => simp [ewmaFrom, mean, lastOf]
  | succ i ih => simp [ewmaFrom, mean, lastOf, ih]

theorem wilderFrom_zero (k w : ℕ) (i : ℕ) : wilderFrom k w (fun _ => 0) i = 0 := by
  induction i with
  | zero => simp [wilderFrom, mean, lastOf]
  | succ i ih => simp [wilderFrom, mean, lastOf, ih]

/-- An exponential average is at most as large as what it averages. -/
theorem ewmaFrom_bounded {k w n : ℕ} {v : ℕ → ℝ} {B : ℝ} (hw : 1 ≤ w) (h : ∀ i, k ≤ i → i < n → |v i| ≤ B) (i : ℕ) (hi : k + (w - 1) ≤ i)
    (hin : i < n) : |ewmaFrom k w v i| ≤ B := by
  have := ewmaFrom_near (v' := fun _ => 0) hw (fun i h1 h2 => by simpa using h i h1 h2) i hi hin
  rwa [ewmaFrom_zero, sub_zero] at this

theorem wilderFrom_bounded {k w n : ℕ} {v : ℕ → ℝ} {B : ℝ} (hw : 1 ≤ w) (h : ∀ i, k ≤ i → i < n → |v i| ≤ B) (i : ℕ)
    (hi : k + (w - 1) ≤ i) (hin : i < n) : |wilderFrom k w v i| ≤ B := by
  have := wilderFrom_near (v' := fun _ => 0) hw (fun i h1 h2 => by simpa using h i h1 h2) i hi hin
  rwa [wilderFrom_zero, sub_zero] at this

theorem mean_lastOf_near {k w n : ℕ} {v v' : ℕ → ℝ} {e : ℝ} (hw : 1 ≤ w) (h : ∀ i, k ≤ i → i < n → |v i - v' i| ≤ e) (i : ℕ)
    (hi : k + (w - 1) ≤ i) (hin : i < n) : |mean (lastOf v w i) - mean (lastOf v' w i)| ≤ e := by
  refine mean_near ?_ (by simp [lastOf]; omega)
  rw [List.forall₂_iff_get]
  refine ⟨by simp [lastOf], fun j h1 h2 => ?_⟩
  simp only [lastOf, List.length_map, List.length_range] at h1
  simp only [lastOf, List.get_eq_getElem, List.getElem_map, List.getElem_range]
  exact h _ (by omega) (by omega)

theorem mean_lastOf_bounded {k w n : ℕ} {v : ℕ → ℝ} {B : ℝ} (hw : 1 ≤ w) (h : ∀ i, k ≤ i → i < n → |v i| ≤ B) (i : ℕ)
    (hi : k + (w - 1) ≤ i) (hin : i < n) : |mean (lastOf v w i)| ≤ B := by
  have := mean_lastOf_near (v' := fun _ => 0) hw (fun i h1 h2 => by simpa using h i h1 h2) i hi hin
  have e : mean (lastOf (fun _ => (0 : ℝ)) w i) = 0 := by simp [mean, lastOf]
  rwa [e, sub_zero] at this

namespace NearS
variable {M : ℝ} {n k w : ℕ} {v : ℕ → ℝ} {c e : ℝ} {m : List F64}

theorem length (h : NearS M n k v c e m) : m.length = n := by
  obtain ⟨o, h1, h2, -⟩ := h
  cases h1
  exact h2

theorem at_nan (h : NearS M n k v c e m) {i : ℕ} {y : F64} (hy : m[i]? = some y) (hi : i < k) : y = nan := by
  obtain ⟨o, h1, h2, h3, -⟩ := h
  cases h1
  have := (List.getElem?_eq_some_iff.1 hy).1
  rw [h3 i hi (by omega)] at hy
  exact (Option.some.inj hy).symm

theorem at' (h : NearS M n k v c e m) {i : ℕ} {y : F64} (hy : m[i]? = some y) (hi : k ≤ i) : Nearly M y (v i) c e := by
  obtain ⟨o, h1, h2, -, h4⟩ := h
  cases h1
  have := (List.getElem?_eq_some_iff.1 hy).1
  obtain ⟨z, hz, p⟩ := h4 i hi (by omega)
  rw [hy] at hz
  cases hz
  exact p

theorem bound (h : NearS M n k v c e m) : ∀ i, k ≤ i → i < n → |v i| ≤ c * M := fun i h1 h2 => by
  obtain ⟨o, -, -, -, h4⟩ := h
  obtain ⟨z, -, p⟩ := h4 i h1 h2
  exact p.bound

theorem congr {v' : ℕ → ℝ} (h : NearS M n k v c e m) (hv : ∀ i, k ≤ i → i < n → v i = v' i) : NearS M n k v' c e m := by
  obtain ⟨o, h1, h2, h3, h4⟩ := h
  refine ⟨o, h1, h2, h3, fun i hi hin => ?_⟩
  obtain ⟨y, hy, p⟩ := h4 i hi hin
  exact ⟨y, hy, by show Nearly M y (v' i) c e; rw [← hv i hi hin]; exact p⟩

theorem mono (h : NearS M n k v c e m) (hM : Sized M) {c' e' : ℝ} (hc : c ≤ c') (he : e ≤ e') : NearS M n k v c' e' m := by
  obtain ⟨o, h1, h2, h3, h4⟩ := h
  refine ⟨o, h1, h2, h3, fun i hi hin => ?_⟩
  obtain ⟨y, hy, p⟩ := h4 i hi hin
  exact ⟨y, hy, p.mono hM hc he⟩

/-- The exact values of the computed series. -/
theorem exists_vals (hM : Sized M) (he : e ≤ 2 ^ 53) (h : NearS M n k v c e m) :
    ∃ v' : ℕ → ℝ, Reports n k v' (some m) ∧ Bounded ((c + 1) * M) (m.drop k) ∧
      ∀ i, k ≤ i → i < n → |v' i - v i| ≤ e * unit64 * M := by
  have key : ∀ i, k ≤ i → i < n → ∃ y r, m[i]? = some y ∧ y ⇓ r ∧ |r - v i| ≤ e * unit64 * M ∧ |r| ≤ (c + 1) * M := by
    intro i h1 h2
    obtain ⟨o, h3, -, -, h4⟩ := id h
    cases h3
    obtain ⟨y, hy, p⟩ := h4 i h1 h2
    obtain ⟨r, hr, er⟩ := p.approx
    refine ⟨y, r, hy, hr, er, ?_⟩
    have := abs_near er
    have := p.bound
    have := hM.units he
    linarith
  classical
  choose! y r hy hr er br using key
  refine ⟨r, ⟨m, rfl, h.length, fun i h1 h2 => ?_, fun i h1 h2 => ⟨y i, hy i h1 h2, hr i h1 h2⟩⟩, ?_, er⟩
  · obtain ⟨o, h3, -, h4, -⟩ := id h
    cases h3
    exact h4 i h1 h2
  · intro x hx
    obtain ⟨i, hi⟩ := List.mem_iff_getElem?.1 hx
    rw [List.getElem?_drop] at hi
    have hl := (List.getElem?_eq_some_iff.1 hi).1
    rw [h.length] at hl
    have := hy (k + i) (by omega) hl
    rw [hi] at this
    cases this
    exact ⟨_, hr _ (by omega) hl, br _ (by omega) hl⟩

theorem room (hM : Sized M) (c0 : 0 ≤ c) (hw : (w : ℝ) * (c + 1) ≤ 2 ^ 50) : 4 * (w : ℝ) * ((c + 1) * M) ≤ max64 := by
  have := hM.fits (K := 2 ^ 62 * M) le_rfl (mul_nonneg (by norm_num) hM.nonneg)
  have h1 : 4 * (w : ℝ) * ((c + 1) * M) ≤ 2 ^ 62 * M := by
    have := mul_le_mul_of_nonneg_right (show 4 * ((w : ℝ) * (c + 1)) ≤ 2 ^ 62 by linarith) hM.nonneg
    linarith
  have h2 : 0 ≤ unit64 * (2 ^ 62 * M) := mul_nonneg accurate64.u0 (mul_nonneg (by norm_num) hM.nonneg)
  have h3 : (0 : ℝ) ≤ 2⁻¹ ^ 1075 := by positivity
  generalize (2⁻¹ ^ 1075 : ℝ) = D at this h3
  linarith

/-- The exponential average of a series. -/
theorem ewma (hM : Sized M) (h : NearS M n k v c e m) (c0 : 0 ≤ c) (he : e ≤ 2 ^ 53) (hw : 1 ≤ w) (h32 : w < 2 ^ 49) (hn : k + w ≤ n)
    (hwc : (w : ℝ) * (c + 1) ≤ 2 ^ 50) : ∃ m', sliceFrom m k = some (m.drop k) ∧ Smooth.ewma (m.drop k) w = some m' ∧
      NearS M n (k + (w - 1)) (ewmaFrom k w v) c (e + 10 * (w + 1) * (c + 1)) (nans k ++ m') ∧ m'.length = n - k := by
  obtain ⟨v', r, b, d⟩ := h.exists_vals hM he
  obtain ⟨-, h2, h3⟩ := r.drop
  have M1 : M ≤ (c + 1) * M := le_mul_of_one_le_left hM.nonneg (by linarith)
  have key := ewma_error (m.drop k) w hw (by omega) (by omega) (hM.low.trans M1) (room hM c0 hwc) b
  obtain ⟨m', e1, l1, -⟩ := id key
  rw [e1] at key
  have key := key.pad k
  rw [h2, show k + (n - k) = n by omega] at key
  refine ⟨m', sliceFrom_of_le (by have := h.length; omega), e1, ?_, by omega⟩
  obtain ⟨o, g1, g2, g3, g4⟩ := key
  refine ⟨o, g1, g2, g3, fun i hi hin => ?_⟩
  obtain ⟨y, hy, z, hz, ez⟩ := g4 i hi hin
  refine ⟨y, hy, ⟨z, hz, ?_⟩, ewmaFrom_bounded hw h.bound i hi hin⟩
  rw [ewmaOf_eq hw h3 (by omega) (i - k) (by omega) (by omega), show k + (i - k) = i by omega] at ez
  have := ewmaFrom_near hw d i hi hin
  have := abs_add_le (z - ewmaFrom k w v' i) (ewmaFrom k w v' i - ewmaFrom k w v i)
  rw [sub_add_sub_cancel] at this
  linarith

/-- Wilder's average of a series. -/
theorem wilder (hM : Sized M) (h : NearS M n k v c e m) (c0 : 0 ≤ c) (he : e ≤ 2 ^ 53) (hw : 1 ≤ w) (h32 : w < 2 ^ 49) (hn : k + w ≤ n)
    (hwc : (w : ℝ) * (c + 1) ≤ 2 ^ 50) : ∃ m', sliceFrom m k = some (m.drop k) ∧ Smooth.wilder (m.drop k) w = some m' ∧
      NearS M n (k + (w - 1)) (wilderFrom k w v) c (e + 7 * w * (c + 1)) (nans k ++ m') ∧ m'.length = n - k := by
  obtain ⟨v', r, b, d⟩ := h.exists_vals hM he
  obtain ⟨-, h2, h3⟩ := r.drop
  have M1 : M ≤ (c + 1) * M := le_mul_of_one_le_left hM.nonneg (by linarith)
  have key := wilder_error (m.drop k) w hw (by omega) (by omega) (hM.low.trans M1) (room hM c0 hwc) b
  obtain ⟨m', e1, l1, -⟩ := id key
  rw [e1] at key
  have key := key.pad k
  rw [h2, show k + (n - k) = n by omega] at key
  refine ⟨m', sliceFrom_of_le (by have := h.length; omega), e1, ?_, by omega⟩
  obtain ⟨o, g1, g2, g3, g4⟩ := key
  refine ⟨o, g1, g2, g3, fun i hi hin => ?_⟩
  obtain ⟨y, hy, z, hz, ez⟩ := g4 i hi hin
  refine ⟨y, hy, ⟨z, hz, ?_⟩, wilderFrom_bounded hw h.bound i hi hin⟩
  rw [wilderOf_eq hw h3 (by omega) (i - k) (by omega) (by omega), show k + (i - k) = i by omega] at ez
  have := wilderFrom_near hw d i hi hin
  have := abs_add_le (z - wilderFrom k w v' i) (wilderFrom k w v' i - wilderFrom k w v i)
  rw [sub_add_sub_cancel] at this
  linarith

/-- The moving average of a series. -/
theorem sma (hM : Sized M) (h : NearS M n k v c e m) (c0 : 0 ≤ c) (he : e ≤ 2 ^ 53) (hw : 1 ≤ w) (h32 : w < 2 ^ 49) (hn : k + w ≤ n + 1)
    (hk : k ≤ n) (hwc : (w : ℝ) * (c + 1) ≤ 2 ^ 50) : ∃ m', sliceFrom m k = some (m.drop k) ∧ Smooth.sma (m.drop k) w = some m' ∧
      NearS M n (k + (w - 1)) (fun i => mean (lastOf v w i)) c (e + (w + 5) * (c + 1)) (nans k ++ m') ∧ m'.length = n - k := by
  obtain ⟨v', r, b, d⟩ := h.exists_vals hM he
  obtain ⟨-, h2, h3⟩ := r.drop
  have M1 : M ≤ (c + 1) * M := le_mul_of_one_le_left hM.nonneg (by linarith)
  have key := sma_error (m.drop k) w hw (by omega) (by omega) (hM.low.trans M1) (room hM c0 hwc) b
  obtain ⟨m', e1, l1, -⟩ := id key
  rw [e1] at key
  have key := key.pad k
  rw [h2, show k + (n - k) = n by omega] at key
  refine ⟨m', sliceFrom_of_le (by have := h.length; omega), e1, ?_, by omega⟩
  obtain ⟨o, g1, g2, g3, g4⟩ := key
  refine ⟨o, g1, g2, g3, fun i hi hin => ?_⟩
  obtain ⟨y, hy, z, hz, ez⟩ := g4 i hi hin
  refine ⟨y, hy, ⟨z, hz, ?_⟩, mean_lastOf_bounded hw h.bound i hi hin⟩
  have e2 : recent (vals (m.drop k)) w (i - k) = lastOf v' w i := by
    apply List.ext_getElem?
    intro j
    by_cases hj : j < w
    · rw [recent, List.getElem?_take_of_lt hj, List.getElem?_drop, h3 _ (by omega), lastOf, List.getElem?_map, List.getElem?_range hj]
      simp only [Option.map_some]
      congr 2; omega
    · rw [List.getElem?_eq_none (by simp [recent]; omega), List.getElem?_eq_none (by simp [lastOf]; omega)]
  rw [e2] at ez
  have := mean_lastOf_near hw d i hi hin
  have := abs_add_le (z - mean (lastOf v' w i)) (mean (lastOf v' w i) - mean (lastOf v w i))
  rw [sub_add_sub_cancel] at this
  linarith

/-- A bounded series is its own approximation. -/
theorem ofBounded (hd : Bounded M m) : NearS M m.length 0 (bar (vals m)) 1 0 m := by
  refine ⟨m, rfl, rfl, fun i h => by omega, fun i _ hi => ?_⟩
  obtain ⟨r, hr, br⟩ := hd _ (List.getElem_mem hi)
  refine ⟨m[i], List.getElem?_eq_getElem hi, ?_⟩
  have : bar (vals m) i = r := by simp [bar, vals, hi, hr.2]
  show Nearly M m[i] (bar (vals m) i) 1 0
  rw [this]
  exact .exact hr (by linarith)

end NearS
end Traquer
