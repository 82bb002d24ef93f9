import Verif.Lemmas.NearSeries
import Verif.Props.SmoothWeights
import Mathlib.Algebra.BigOperators.Intervals
/-!
# Rounding errors of sums and of weighted means
-/

namespace Traquer
open FP FloatLit Finset

variable {M : ℝ}

/-- A sum of approximate terms. `S * M` bounds the partial sums. -/
theorem near_sum (hM : Sized M) {f : ℕ → F64} {g t : ℕ → ℝ} {S : ℝ} (hS : S ≤ 2 ^ 60) : ∀ {n : ℕ},
    (∀ i < n, Approx (f i) (g i) (t i * unit64 * M)) → (∀ i < n, 0 ≤ t i) → (∀ j ≤ n, |∑ i ∈ range j, g i| ≤ S * M) →
    ∑ i ∈ range n, t i + n * (S + 2) ≤ 2 ^ 53 →
    Nearly M (fsum ((List.range n).map f)) (∑ i ∈ range n, g i) S (∑ i ∈ range n, t i + n * (S + 2)) := by
  intro n
  induction n with
  | zero =>
    intro _ _ hp _
    have := hp 0 le_rfl
    simp only [range_zero, sum_empty] at this
    simpa [fsum] using Nearly.exact (M := M) (c := S) (isZero (ρ := Rounding.binary64)) this
  | succ n ih =>
    intro h ht hp hk
    have S0 : 0 ≤ S := by
      have := (abs_nonneg _).trans (hp 0 (by omega))
      by_contra hc
      push Not at hc
      nlinarith [hM.pos]
    have hT : t n ≥ 0 := ht n (by omega)
    rw [sum_range_succ] at hk ⊢
    rw [sum_range_succ]
    push_cast at hk ⊢
    have hi := ih (fun i hi => h i (by omega)) (fun i hi => ht i (by omega)) (fun j hj => hp j (by omega)) (by linarith)
    obtain ⟨r, hr, er⟩ := hi.approx
    obtain ⟨s, hs, es⟩ := h n (by omega)
    have e1 : fsum ((List.range (n + 1)).map f) = fsum ((List.range n).map f) + f n := by
      simp [fsum, List.range_succ]
    rw [e1]
    have := Nearly.of_rounds hM (rounds_add hr hs) (a := ∑ i ∈ range n, g i + g n) (c := S)
      (k := ∑ i ∈ range n, t i + n * (S + 2) + t n)
      (by rw [add_sub_add_comm]; exact (abs_add_le _ _).trans (by linarith))
      (by rw [← sum_range_succ]; exact hp (n + 1) le_rfl) (by linarith) hS
    exact this.mono hM le_rfl (by linarith)

/-- A weight between 0 and 1, rounded once. -/
theorem near_weight {y : F64} {q : ℝ} (h : Rounds y q) (h0 : 0 ≤ q) (h1 : q ≤ 1) :
    ∃ s, y ⇓ s ∧ |s - q| ≤ unit64 * q + 2⁻¹ ^ 1075 := by
  have := accurate64.round (K := q) h (by rw [abs_of_nonneg h0])
    (by
      have := sized_one.fits (K := q) (by linarith) h0
      exact this)
  exact this

theorem tiny_products : (2⁻¹ ^ 1075 : ℝ) ≤ unit64 / 4 := by
  have h : (2⁻¹ ^ 1075 : ℝ) ≤ 2⁻¹ ^ 55 := pow_le_pow_of_le_one (by norm_num) (by norm_num) (by norm_num)
  refine h.trans ?_
  unfold unit64
  norm_num

/-- A number times a weight. -/
theorem near_term (hM : Sized M) {x y : F64} {r q : ℝ} (hx : x ⇓ r) (hr : |r| ≤ M) (h : Rounds y q) (h0 : 0 ≤ q) (h1 : q ≤ 1) :
    Approx (x * y) (r * q) ((2 * q + 2) * unit64 * M) := by
  obtain ⟨s, hs, es⟩ := near_weight h h0 h1
  have u0 := accurate64.u0
  have M0 := hM.nonneg
  have hη := underflow64 hM.low
  have t := tiny_products
  have hu : unit64 ≤ 1 / 4 := by unfold unit64; norm_num
  have hη0 : (0 : ℝ) ≤ 2⁻¹ ^ 1075 := by positivity
  generalize hD : (2⁻¹ ^ 1075 : ℝ) = D at es hη t hη0
  have e1 : |r * s - r * q| ≤ M * (unit64 * q + D) := by
    rw [← mul_sub, abs_mul]
    exact mul_le_mul hr es (abs_nonneg _) M0
  have e2 : |r * q| ≤ M * q := by
    rw [abs_mul, abs_of_nonneg h0]
    exact mul_le_mul_of_nonneg_right hr h0
  have uq : unit64 * q ≤ unit64 := mul_le_of_le_one_right u0 h1
  have uq0 : 0 ≤ unit64 * q := mul_nonneg u0 h0
  have b1 : M * (unit64 * q + D) ≤ M * (2 * unit64) := mul_le_mul_of_nonneg_left (by linarith) M0
  have b2 : M * q ≤ M := mul_le_of_le_one_right M0 h1
  have b3 : M * unit64 ≤ M * (1 / 4) := mul_le_mul_of_nonneg_left hu M0
  have b4 : M * D ≤ M * (unit64 / 4) := mul_le_mul_of_nonneg_left t M0
  have := accurate64.step (K := M * q + M * (unit64 * q + D)) (rounds_mul hx hs) e1 (by linarith)
    (hM.fits (by linarith) (by have := mul_nonneg M0 h0; have := mul_nonneg M0 (add_nonneg uq0 hη0); linarith))
  refine this.mono ?_
  rw [hD]
  have c1 : unit64 * (M * (unit64 * q + D)) ≤ 1 / 4 * (M * (2 * unit64)) :=
    mul_le_mul hu b1 (mul_nonneg M0 (add_nonneg uq0 hη0)) (by norm_num)
  linarith

theorem sum_map_range (g : ℕ → ℝ) (n : ℕ) : ((List.range n).map g).sum = ∑ i ∈ range n, g i := by
  induction n with
  | zero => rfl
  | succ n ih => rw [List.range_succ, List.map_append, List.sum_append, ih, sum_range_succ]; simp

theorem list_eq_map_range {α β : Type} (l : List α) (d : α) (f : α → β) : l.map f = (List.range l.length).map fun i => f (l.getD i d) := by
  apply List.ext_getElem?
  intro i
  by_cases h : i < l.length
  · simp [h]
  · rw [List.getElem?_eq_none (by simpa using h), List.getElem?_eq_none (by simpa using h)]

theorem zip_eq_map_range {α β : Type} (l : List α) (m : List β) (d : α) (e : β) (h : l.length = m.length) :
    l.zip m = (List.range l.length).map fun i => (l.getD i d, m.getD i e) := by
  apply List.ext_getElem?
  intro i
  by_cases hi : i < l.length
  · have h2 : i < m.length := h ▸ hi
    rw [List.getElem?_map, List.getElem?_range hi, List.getElem?_zip_eq_some (z := (l[i], m[i])) |>.2
      ⟨List.getElem?_eq_getElem hi, List.getElem?_eq_getElem h2⟩]
    simp [hi, h2]
  · rw [List.getElem?_eq_none (by simp; omega), List.getElem?_eq_none (by simpa using hi)]

/-- A weighted mean with weights that are themselves rounded once. -/
theorem near_dot (hM : Sized M) {ws l : List F64} {us : List ℝ} (hu : ∀ u ∈ us, 0 ≤ u) (hs : 0 < us.sum) (hw : ws.length = us.length)
    (hR : ∀ i (h : i < us.length), Rounds (ws[i]'(by omega)) (us[i] / us.sum)) (hl : l.length = us.length) (hb : Bounded M l)
    (hn : 5 * (us.length : ℝ) + 2 ≤ 2 ^ 53) :
    Nearly M (Smooth.dot ws l) (weightedMean us (vals l)) 1 (5 * us.length + 2) := by
  set D := us.sum with hD
  set x : ℕ → ℝ := fun i => (vals l).getD i 0 with hx
  set q : ℕ → ℝ := fun i => us.getD i 0 / D with hq
  have q0 : ∀ i, 0 ≤ q i := fun i => by
    refine div_nonneg ?_ hs.le
    rw [List.getD_eq_getElem?_getD]
    by_cases h : i < us.length
    · rw [List.getElem?_eq_getElem h]; exact hu _ (List.getElem_mem h)
    · rw [List.getElem?_eq_none (by omega)]; exact le_rfl
  have qs : ∑ i ∈ range us.length, q i = 1 := by
    rw [← sum_map_range, hq, ← list_eq_map_range us 0 fun u => u / D]
    have : ∀ (d : ℝ) (l : List ℝ), (l.map fun u => u / d).sum = l.sum / d := fun d l => by
      induction l with
      | nil => simp
      | cons a l ih => rw [List.map_cons, List.sum_cons, ih, List.sum_cons, add_div]
    rw [this, ← hD, div_self hs.ne']
  have q1 : ∀ i < us.length, q i ≤ 1 := fun i hi => by
    rw [← qs]
    exact single_le_sum (f := q) (fun j _ => q0 j) (mem_range.2 hi)
  have hxi : ∀ i < us.length, l.getD i 0 ⇓ x i ∧ |x i| ≤ M := fun i hi => by
    obtain ⟨r, hr, br⟩ := hb _ (List.getElem_mem (show i < l.length by omega))
    have : x i = r := by simp [hx, vals, show i < l.length by omega, hr.2]
    rw [this]
    simp only [List.getD_eq_getElem?_getD, List.getElem?_eq_getElem (show i < l.length by omega), Option.getD_some]
    exact ⟨hr, br⟩
  have e1 : Smooth.dot ws l = fsum ((List.range us.length).map fun i => l.getD i 0 * ws.getD i 0) := by
    rw [Smooth.dot, zip_eq_map_range l ws 0 0 (by omega), List.map_map, hl]
    rfl
  have e2 : weightedMean us (vals l) = ∑ i ∈ range us.length, x i * q i := by
    rw [weightedMean, ← dot_div, zip_eq_map_range _ (vals l) 0 0 (by simp [hl]), List.map_map, sum_map_range, List.length_map]
    refine sum_congr rfl fun i hi => ?_
    have hi := mem_range.1 hi
    simp [hx, hq, hi, hD, mul_comm]
  rw [e1, e2]
  have hp : ∀ j ≤ us.length, |∑ i ∈ range j, x i * q i| ≤ 1 * M := fun j hj => by
    calc |∑ i ∈ range j, x i * q i| ≤ ∑ i ∈ range j, |x i * q i| := abs_sum_le_sum_abs _ _
      _ ≤ ∑ i ∈ range j, M * q i := sum_le_sum fun i hi => by
          rw [abs_mul, abs_of_nonneg (q0 i)]
          exact mul_le_mul_of_nonneg_right (hxi i (by have := mem_range.1 hi; omega)).2 (q0 i)
      _ = M * ∑ i ∈ range j, q i := by rw [mul_sum]
      _ ≤ M * ∑ i ∈ range us.length, q i :=
          mul_le_mul_of_nonneg_left (sum_le_sum_of_subset_of_nonneg (range_mono hj) fun i _ _ => q0 i) hM.nonneg
      _ = 1 * M := by rw [qs]; ring
  have hT : ∑ i ∈ range us.length, (2 * q i + 2) = 2 + 2 * us.length := by
    rw [sum_add_distrib, ← mul_sum, qs]; simp [mul_comm]
  have := near_sum hM (f := fun i => l.getD i 0 * ws.getD i 0) (g := fun i => x i * q i) (t := fun i => 2 * q i + 2) (S := 1) (by norm_num)
    (n := us.length) (fun i hi => by
      have hR := hR i hi
      have e : ws.getD i 0 = ws[i] := by simp [show i < ws.length by omega]
      have e' : us[i] / D = q i := by simp [hq, hi]
      simp only [e]
      rw [e'] at hR
      exact near_term hM (hxi i hi).1 (hxi i hi).2 hR (q0 i) (q1 i hi))
    (fun i _ => by have := q0 i; linarith) hp (by rw [hT]; linarith)
  refine this.mono hM le_rfl ?_
  rw [hT]
  linarith

end Traquer
