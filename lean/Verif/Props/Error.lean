import Verif.Lemmas.ErrorStep
/-!
# C74: rounding errors of the averages in binary64 arithmetic
-/

namespace Traquer
open FP FloatLit

variable {ρ : Rounding} {u η B : ℝ}

theorem reportsP_after_nans {n k : ℕ} {P : ℕ → FP ρ → Prop} {r : List (FP ρ)} (hn : k + r.length = n)
    (h : ∀ i, i < r.length → ∃ y, r[i]? = some y ∧ P (k + i) y) : ReportsP n k P (some (nans k ++ r)) := by
  refine ⟨_, rfl, by simp; omega, fun i hi _ => ?_, fun i hi hn' => ?_⟩
  · rw [List.getElem?_append_left (by simpa using hi), nans, List.getElem?_replicate, if_pos hi]
  · rw [List.getElem?_append_right (by simpa using hi), nans_length]
    obtain ⟨y, h1, h2⟩ := h (i - k) (by omega)
    rw [show k + (i - k) = i by omega] at h2
    exact ⟨y, h1, h2⟩

theorem within_of_bounded {M : ℝ} {l : List ℝ} (h : ∀ r ∈ l, |r| ≤ M) (n : ℕ) : Within (-M) M (l.take n) := fun x hx =>
  abs_le.1 (h x (List.mem_of_mem_take hx))

theorem Accurate.sma (A : Accurate ρ u η B) {M : ℝ} (hM : 0 ≤ M) (hη : η ≤ u * M) (hu : u ≤ 1 / 4) (data : List (FP ρ)) (w : ℕ)
    (hw : 1 ≤ w) (hn : w ≤ data.length + 1) (h53 : w ≤ 2 ^ 53) (hwu : w * u ≤ 1) (hB : 4 * w * M ≤ B) (hd : Bounded M data) :
    ReportsP data.length (w - 1) (fun i y => Approx y (mean (recent (vals data) w i)) (u * M * (w + 5))) (Smooth.sma data w) := by
  run_model [Smooth.sma]
  refine reportsP_windows hw hn fun i h1 h2 => ?_
  have l := recent_length h1 h2
  have := A.near_mean hM hη hu (hd.recent w i) (by omega) (by omega) (by rw [l]; exact hwu) (by rw [l]; exact hB)
  rwa [l, recent_vals] at this

theorem Accurate.ewma (A : Accurate ρ u η B) {M : ℝ} (hM : 0 ≤ M) (hη : η ≤ u * M) (data : List (FP ρ)) (w : ℕ)
    (hw : 1 ≤ w) (hn : w ≤ data.length) (h53 : w + 1 ≤ 2 ^ 53) (hwu : 10 * ((w : ℝ) + 1) * u ≤ 1) (hη' : η * (w + 1) ≤ 2 * u)
    (hB : 4 * w * M ≤ B) (hB2 : 2 ≤ B) (hd : Bounded M data) :
    ReportsP data.length (w - 1) (fun i y => Approx y (ewmaOf w (vals data) i) (10 * ((w : ℝ) + 1) * u * M)) (Smooth.ewma data w) := by
  have u0 := A.u0
  have w1 : (1 : ℝ) ≤ w := by exact_mod_cast hw
  have hv : (0 : ℝ) < (w : ℝ) + 1 := by linarith
  set α : ℝ := 2 / ((w : ℝ) + 1) with hα
  have hαv : α * (w + 1) = 2 := by rw [hα]; field_simp
  have α1 : α ≤ 1 := (Smooth.two_div_succ_range hw).2
  have hu : 20 * u ≤ α := by rw [hα, le_div_iff₀ hv]; linarith
  have hη2 : η ≤ u * α := by
    rw [hα, mul_div_assoc', le_div_iff₀ hv]; linarith
  obtain ⟨a, b, ha, hb, ea, eb⟩ := A.alpha (v := w + 1) (by omega) h53 (by push_cast; rfl) hu hη2 hB2
  have uM : 0 ≤ u * M := mul_nonneg u0 hM
  have hwB : M ≤ w * M := by nlinarith
  have h0 : Approx (fsum (data.take w) / flt w) (ewmaOf w (vals data) (w - 1)) (10 * ((w : ℝ) + 1) * u * M) := by
    have l : (data.take w).length = w := by simp; omega
    have := A.near_mean hM hη (by linarith) (hd.sub (m := data.take w) fun x hx => List.mem_of_mem_take hx) (by omega) (by omega)
      (by rw [l]; nlinarith) (by rw [l]; exact hB)
    rw [l, vals_take] at this
    have e : ewmaOf w (vals data) (w - 1) = mean ((vals data).take w) := by
      cases h : w - 1 with
      | zero => rfl
      | succ j => rw [ewmaOf, if_pos (by omega)]
    rw [e]
    exact this.mono (by nlinarith)
  run_model [Smooth.ewma]
  refine reportsP_after_nans (by simp; omega) fun i hi => ?_
  cases i with
  | zero => exact ⟨_, rfl, h0⟩
  | succ i =>
    simp at hi
    have := scanS_at (f := fun state x : FP ρ => x * (2 / flt (w + 1)) + state * (1 - 2 / flt (w + 1)))
      (P := fun i y => i ≤ data.length - w → Approx y (ewmaOf w (vals data) (w - 1 + i)) (10 * ((w : ℝ) + 1) * u * M))
      (l := data.drop w) (fun _ => h0) (fun i x t hx ht hi => by
        rw [List.getElem?_drop] at hx
        have hxl := (List.getElem?_eq_some_iff.1 hx).1
        obtain ⟨r, hr, er⟩ := hd x (List.mem_of_getElem? hx)
        have e : ewmaOf w (vals data) (w - 1 + (i + 1)) = r * α + ewmaOf w (vals data) (w - 1 + i) * (1 - α) := by
          rw [show w - 1 + (i + 1) = w - 1 + i + 1 by omega, ewmaOf, if_neg (by omega), show w - 1 + i + 1 = w + i by omega, vals_getElem?,
            hx, Option.map_some, Option.getD_some, hr.2]
        rw [e]
        have hs := ewmaOf_within (w := w) (l := vals data) hw (i := w - 1 + i) (by omega) (by simp; omega) (within_of_bounded hd.vals _)
        exact A.ewma_step hM α1 hu hη (by linarith)
          (by rw [show 10 * ((w : ℝ) + 1) * u * M * α = 10 * u * M * (α * (w + 1)) by ring, hαv]; ring)
          (by nlinarith) ha hb hr ea eb er (abs_le.2 hs) (ht (by omega)))
      i (by simp; omega)
    obtain ⟨y, h1, h2⟩ := this
    exact ⟨y, h1, h2 (by omega)⟩

theorem Accurate.wilder (A : Accurate ρ u η B) {M : ℝ} (hM : 0 ≤ M) (hη : η ≤ u * M) (data : List (FP ρ)) (w : ℕ)
    (hw : 1 ≤ w) (hn : w ≤ data.length) (h53 : w ≤ 2 ^ 53) (hwu : 7 * (w : ℝ) * u ≤ 1) (hB : 4 * w * M ≤ B) (hd : Bounded M data) :
    ReportsP data.length (w - 1) (fun i y => Approx y (wilderOf w (vals data) i) (7 * (w : ℝ) * u * M)) (Smooth.wilder data w) := by
  have u0 := A.u0
  have w1 : (1 : ℝ) ≤ w := by exact_mod_cast hw
  have uM : 0 ≤ u * M := mul_nonneg u0 hM
  by_cases hw1 : w = 1
  · subst hw1
    run_model [Smooth.wilder]
    refine ⟨_, rfl, rfl, fun i hi _ => absurd hi (by omega), fun i _ hi => ?_⟩
    obtain ⟨x, hx⟩ : ∃ x, data[i]? = some x := ⟨_, List.getElem?_eq_getElem hi⟩
    obtain ⟨r, hr, -⟩ := hd x (List.mem_of_getElem? hx)
    refine ⟨x, hx, r, hr, ?_⟩
    have e : wilderOf 1 (vals data) i = r := by
      cases i with
      | zero =>
        cases data with
        | nil => simp at hx
        | cons y l =>
          simp at hx
          subst hx
          simp [wilderOf, Traquer.mean, hr.2]
      | succ i => simp [wilderOf, vals_getElem?, hx, hr.2]
    rw [e]
    simp
    positivity
  obtain ⟨k, rfl⟩ : ∃ k, w = k + 1 := ⟨w - 1, by omega⟩
  push_cast at hwu hB w1 ⊢
  have k1 : (1 : ℝ) ≤ k := by exact_mod_cast (show 1 ≤ k by omega)
  have kM : M ≤ k * M := by nlinarith
  have l : (data.take k).length = k := by simp; omega
  have hm := A.near_mean hM hη (by nlinarith) (hd.sub (m := data.take k) fun x hx => List.mem_of_mem_take hx) (by omega) (by omega)
    (by rw [l]; nlinarith) (by rw [l]; nlinarith)
  rw [l, vals_take] at hm
  have e0 : (mean ((vals data).take k) * k + (vals data)[k]?.getD 0) / ((k : ℝ) + 1) = wilderOf (k + 1) (vals data) k := by
    have e : wilderOf (k + 1) (vals data) k = mean ((vals data).take (k + 1)) := by
      cases k with
      | zero => rfl
      | succ j => rw [wilderOf, if_pos (by omega)]
    have hk : k < (vals data).length := by simp; omega
    rw [e, Traquer.mean, Traquer.mean, List.take_add_one, List.getElem?_eq_getElem hk, List.sum_append, List.length_append, List.length_take,
      min_eq_left (by omega)]
    simp
    rw [div_mul_cancel₀ _ (by linarith)]
  have hmb : |mean ((vals data).take k)| ≤ M :=
    abs_le.2 (within_mean (within_of_bounded hd.vals _) (by rw [← List.length_pos_iff]; simp; omega))
  have step : ∀ (i : ℕ) (x t : FP ρ) (s : ℝ), (data.drop k)[i]? = some x → |s| ≤ M → Approx t s (7 * ((k : ℝ) + 1) * u * M) →
      Approx ((t * flt k + x) / flt (k + 1)) ((s * k + (vals data)[k + i]?.getD 0) / ((k : ℝ) + 1)) (7 * ((k : ℝ) + 1) * u * M) := by
    intro i x t s hx hs ht
    rw [List.getElem?_drop] at hx
    obtain ⟨r, hr, er⟩ := hd x (List.mem_of_getElem? hx)
    rw [vals_getElem?, hx, Option.map_some, Option.getD_some, hr.2]
    exact A.wilder_step hM h53 hη hwu rfl (by nlinarith) hr er hs ht
  run_model [Smooth.wilder]
  rw [if_neg hw1, Nat.add_sub_cancel]
  refine reportsP_after_nans (by simp; omega) fun i hi => ?_
  simp at hi
  have := scanS_at (f := fun state x : FP ρ => (state * flt k + x) / flt (k + 1))
    (P := fun i y => i ≤ data.length - k → if i = 0 then Approx y (mean ((vals data).take k)) (7 * ((k : ℝ) + 1) * u * M)
      else Approx y (wilderOf (k + 1) (vals data) (k + i - 1)) (7 * ((k : ℝ) + 1) * u * M))
    (l := data.drop k) (fun _ => by rw [if_pos rfl]; exact hm.mono (by nlinarith)) (fun i x t hx ht hi => by
      have ht := ht (by omega)
      rw [if_neg (by omega)]
      cases i with
      | zero =>
        rw [if_pos rfl] at ht
        have := step 0 x t _ hx hmb ht
        rw [show k + 0 = k from rfl, e0] at this
        simpa using this
      | succ i =>
        rw [if_neg (by omega), show k + (i + 1) - 1 = k + i by omega] at ht
        have hs := wilderOf_within (w := k + 1) (l := vals data) hw (i := k + i) (by omega) (by simp; omega) (within_of_bounded hd.vals _)
        have := step (i + 1) x t _ hx (abs_le.2 hs) ht
        rw [show k + (i + 1 + 1) - 1 = k + i + 1 by omega, wilderOf, if_neg (by omega)]
        push_cast
        rw [add_sub_cancel_right]
        exact this)
    i (by simp; omega)
  obtain ⟨y, h1, h2⟩ := this
  have h2 := h2 (by omega)
  rw [if_neg (by omega)] at h2
  exact ⟨y, h1, h2⟩

/-! ## binary64 -/

theorem tiny64_pos : 0 < tiny64 := by unfold tiny64; positivity

theorem underflow64 {M : ℝ} (h : tiny64 ≤ M) : (2⁻¹ ^ 1075 : ℝ) ≤ unit64 * M := by
  have : (2⁻¹ ^ 1075 : ℝ) = unit64 * tiny64 := by rw [unit64, tiny64, ← pow_add]
  rw [this]
  exact mul_le_mul_of_nonneg_left h accurate64.u0

theorem unit64_mul {w : ℕ} {c : ℝ} (hc : c ≤ 16) (h : w ≤ 2 ^ 49) : c * w * unit64 ≤ 1 := by
  have h1 : (w : ℝ) ≤ 2 ^ 49 := by exact_mod_cast h
  have h2 : c * w ≤ 16 * 2 ^ 49 := mul_le_mul hc h1 (by positivity) (by norm_num)
  have h3 : c * w * unit64 ≤ 16 * 2 ^ 49 * unit64 := mul_le_mul_of_nonneg_right h2 accurate64.u0
  refine h3.trans ?_
  unfold unit64
  norm_num

theorem large_le_max64 : (2 : ℝ) ^ 53 - 1 ≤ max64 :=
  le_mul_of_one_le_right (by norm_num) (one_le_pow₀ (by norm_num))

theorem two_le_max64 : (2 : ℝ) ≤ max64 := by
  have h : (1 : ℝ) ≤ 2 ^ 971 := one_le_pow₀ (by norm_num)
  unfold max64
  have h2 : (2 : ℝ) ≤ 2 ^ 53 - 1 := by norm_num
  calc (2 : ℝ) = 2 * 1 := by norm_num
    _ ≤ (2 ^ 53 - 1) * 2 ^ 971 := mul_le_mul h2 h (by norm_num) (by norm_num)

/-- C74: the moving average computed in binary64 is within `(w + 5) * 2^-53 * M` of the exact mean of the window, where `M` bounds the
data. -/
theorem sma_error (data : List F64) (w : ℕ) (hw : 1 ≤ w) (hn : w ≤ data.length + 1) (h49 : w < 2 ^ 49) {M : ℝ} (hM : tiny64 ≤ M)
    (hB : 4 * w * M ≤ max64) (hd : Bounded M data) :
    ReportsP data.length (w - 1) (fun i y => Approx y (mean (recent (vals data) w i)) ((w + 5) * unit64 * M)) (Smooth.sma data w) := by
  have := accurate64.sma (tiny64_pos.le.trans hM) (underflow64 hM) (by unfold unit64; norm_num) data w hw hn (by omega)
    (by simpa using unit64_mul (c := 1) (by norm_num) h49.le) hB hd
  simpa [mul_comm, mul_left_comm, mul_assoc] using this

/-- C74: the exponential average computed in binary64 stays within `10 * (w + 1) * 2^-53 * M` of the exact recurrence at every bar:
the error does not grow with the length of the series. -/
theorem ewma_error (data : List F64) (w : ℕ) (hw : 1 ≤ w) (hn : w ≤ data.length) (h49 : w < 2 ^ 49) {M : ℝ} (hM : tiny64 ≤ M)
    (hB : 4 * w * M ≤ max64) (hd : Bounded M data) :
    ReportsP data.length (w - 1) (fun i y => Approx y (ewmaOf w (vals data) i) (10 * (w + 1) * unit64 * M)) (Smooth.ewma data w) := by
  refine accurate64.ewma (tiny64_pos.le.trans hM) (underflow64 hM) data w hw hn (by omega)
    (by exact_mod_cast unit64_mul (w := w + 1) (c := 10) (by norm_num) (by omega)) ?_ hB two_le_max64 hd
  have h1 : (w : ℝ) + 1 ≤ 2 ^ 49 := by exact_mod_cast h49
  have h2 : (2⁻¹ ^ 1075 : ℝ) ≤ 2⁻¹ ^ 102 := pow_le_pow_of_le_one (by norm_num) (by norm_num) (by norm_num)
  have h3 := mul_le_mul h2 h1 (by positivity) (by positivity)
  refine h3.trans ?_
  unfold unit64
  norm_num

/-- C74: the same for Wilder's average, within `7 * w * 2^-53 * M`. -/
theorem wilder_error (data : List F64) (w : ℕ) (hw : 1 ≤ w) (hn : w ≤ data.length) (h49 : w < 2 ^ 49) {M : ℝ} (hM : tiny64 ≤ M)
    (hB : 4 * w * M ≤ max64) (hd : Bounded M data) :
    ReportsP data.length (w - 1) (fun i y => Approx y (wilderOf w (vals data) i) (7 * w * unit64 * M)) (Smooth.wilder data w) :=
  accurate64.wilder (tiny64_pos.le.trans hM) (underflow64 hM) data w hw hn (by omega)
    (unit64_mul (by norm_num) h49.le) hB hd

/-- The bars 1, 5, 3, 7 and a window of 3 meet the hypotheses. -/
theorem error_example : Bounded 7 ([1, 5, 3, 7] : List F64) ∧ tiny64 ≤ 7 ∧ 4 * ((3 : ℕ) : ℝ) * 7 ≤ max64 := by
  refine ⟨?_, ?_, ?_⟩
  · intro x hx
    simp only [List.mem_cons, List.not_mem_nil, or_false] at hx
    rcases hx with rfl | rfl | rfl | rfl
    · exact ⟨1, isOne, by norm_num⟩
    · exact ⟨5, isLit 5 (by norm_num), by norm_num⟩
    · exact ⟨3, isLit 3 (by norm_num), by norm_num⟩
    · exact ⟨7, isLit 7 (by norm_num), by norm_num⟩
  · have : tiny64 ≤ 1 := pow_le_one₀ (by norm_num) (by norm_num)
    linarith
  · exact le_trans (by norm_num) large_le_max64

example : ReportsP 4 2 (fun i y => Approx y (mean (recent (vals ([1, 5, 3, 7] : List F64)) 3 i)) ((((3 : ℕ) : ℝ) + 5) * unit64 * 7))
    (Smooth.sma ([1, 5, 3, 7] : List F64) 3) :=
  sma_error _ 3 (by norm_num) (by simp) (by norm_num) error_example.2.1 error_example.2.2 error_example.1
example : ReportsP 4 2 (fun i y => Approx y (ewmaOf 3 (vals ([1, 5, 3, 7] : List F64)) i) (10 * (((3 : ℕ) : ℝ) + 1) * unit64 * 7))
    (Smooth.ewma ([1, 5, 3, 7] : List F64) 3) :=
  ewma_error _ 3 (by norm_num) (by simp) (by norm_num) error_example.2.1 error_example.2.2 error_example.1
example : ReportsP 4 2 (fun i y => Approx y (wilderOf 3 (vals ([1, 5, 3, 7] : List F64)) i) (7 * ((3 : ℕ) : ℝ) * unit64 * 7))
    (Smooth.wilder ([1, 5, 3, 7] : List F64) 3) :=
  wilder_error _ 3 (by norm_num) (by simp) (by norm_num) error_example.2.1 error_example.2.2 error_example.1

end Traquer
