import Verif.Props.Identities
import Verif.Props.VolatilityFormulas
import Verif.Lemmas.AverageOrder
/-!
# How large a statistic of a window can get (C98)
-/

namespace Traquer
open FP

/-! ## The values of a list as deviations from their mean -/

theorem sq_sum_le (l : List ℝ) : l.sum ^ 2 ≤ l.length * (l.map fun x => x ^ 2).sum := by
  induction l with
  | nil => simp
  | cons a l ih =>
    have key : ∀ (a : ℝ) (l : List ℝ), 0 ≤ l.length * a ^ 2 - 2 * a * l.sum + (l.map fun x => x ^ 2).sum := by
      intro a l
      induction l with
      | nil => simp
      | cons b l ih => simp only [List.map_cons, List.sum_cons, List.length_cons]; push_cast; nlinarith [sq_nonneg (a - b)]
    simp only [List.map_cons, List.sum_cons, List.length_cons]
    push_cast
    nlinarith [key a l]

theorem sum_deviations {l : List ℝ} : (l.map fun x => x - mean l).sum = 0 := by
  rcases l.eq_nil_or_concat with rfl | ⟨_, _, e⟩
  · simp
  have hp : (l.length : ℝ) ≠ 0 := by rw [e]; simp; positivity
  have : ∀ (c : ℝ) (l : List ℝ), (l.map fun x => x - c).sum = l.sum - l.length * c := by
    intro c l
    induction l with
    | nil => simp
    | cons a l ih => simp only [List.map_cons, List.sum_cons, ih, List.length_cons]; push_cast; ring
  rw [this, mean]
  field_simp
  ring

theorem moment_sum {l : List ℝ} (hl : l ≠ []) (k : ℕ) : ((l.map fun x => x - mean l).map fun d => d ^ k).sum = l.length * moment k l := by
  have hp : (l.length : ℝ) ≠ 0 := by exact_mod_cast (List.length_pos_iff.2 hl).ne'
  rw [moment, mean_of_length (List.length_map _), List.map_map]
  field_simp
  rfl

/-- In a list of numbers with sum 0, each is at most `√(n - 1)` times their root mean square. -/
theorem centred_le {d : List ℝ} (h0 : d.sum = 0) {x : ℝ} (hx : x ∈ d) : d.length * x ^ 2 ≤ (d.length - 1) * (d.map fun x => x ^ 2).sum := by
  obtain ⟨a, b, rfl⟩ := List.append_of_mem hx
  have hs := sq_sum_le (a ++ b)
  simp only [List.sum_append, List.sum_cons, List.map_append, List.map_cons, List.length_append, List.length_cons] at h0 hs ⊢
  have e : a.sum + b.sum = -x := by linarith
  rw [e] at hs
  push_cast at hs ⊢
  nlinarith [hs]

/-- No value is further than `√(n - 1)` standard deviations from the mean. -/
theorem samuelson {l : List ℝ} {x : ℝ} (hx : x ∈ l) : (x - mean l) ^ 2 ≤ (l.length - 1) * moment 2 l := by
  have hl : l ≠ [] := List.ne_nil_of_mem hx
  have hp : (0 : ℝ) < l.length := by exact_mod_cast List.length_pos_iff.2 hl
  have := centred_le (sum_deviations (l := l)) (List.mem_map_of_mem (f := fun x => x - mean l) hx)
  rw [moment_sum hl, List.length_map] at this
  nlinarith

theorem centred_cube_le {d : List ℝ} {M c : ℝ} (h0 : d.sum = 0) (h : ∀ x ∈ d, x ≤ M) :
    (d.map fun x => x ^ 3).sum ≤ (M - 2 * c) * (d.map fun x => x ^ 2).sum + d.length * (c ^ 2 * M) := by
  have key : ∀ d : List ℝ, (∀ x ∈ d, x ≤ M) →
      (d.map fun x => x ^ 3).sum ≤ (M - 2 * c) * (d.map fun x => x ^ 2).sum + d.length * (c ^ 2 * M) + (2 * c * M - c ^ 2) * d.sum := by
    intro d
    induction d with
    | nil => simp
    | cons a d ih =>
      intro h
      have h1 := ih fun x hx => h x (List.mem_cons_of_mem _ hx)
      have h2 : 0 ≤ (M - a) * (a + c) ^ 2 := mul_nonneg (by linarith [h a List.mem_cons_self]) (sq_nonneg _)
      simp only [List.map_cons, List.sum_cons, List.length_cons]
      push_cast
      nlinarith [h1, h2]
  have := key d h
  rwa [h0, mul_zero, add_zero] at this

theorem moment_three_le {d : List ℝ} {m : ℝ} (hn : 2 ≤ d.length) (h0 : d.sum = 0) (hm : 0 ≤ m) (h2 : (d.map fun x => x ^ 2).sum = d.length * m) :
    (d.map fun x => x ^ 3).sum * √(d.length - 1) ≤ d.length * (d.length - 2) * √m ^ 3 := by
  have hN : (2 : ℝ) ≤ d.length := by exact_mod_cast hn
  have hr : 0 < √((d.length : ℝ) - 1) := Real.sqrt_pos.2 (by linarith)
  have er : √((d.length : ℝ) - 1) ^ 2 = d.length - 1 := Real.sq_sqrt (by linarith)
  have es : √m ^ 2 = m := Real.sq_sqrt hm
  have hb : ∀ x ∈ d, x ≤ √((d.length : ℝ) - 1) * √m := fun x hx => by
    refine le_of_abs_le (abs_le_of_sq_le_sq ?_ (by positivity))
    have := centred_le h0 hx
    rw [h2] at this
    rw [mul_pow, er, es]
    nlinarith
  have := centred_cube_le (c := √m / √((d.length : ℝ) - 1)) h0 hb
  rw [h2] at this
  generalize hr' : √((d.length : ℝ) - 1) = r at *
  generalize hs' : √m = s at *
  have eN : (d.length : ℝ) = r ^ 2 + 1 := by linarith
  rw [eN] at this ⊢
  rw [← es] at this
  calc (d.map fun x => x ^ 3).sum * r ≤ _ := mul_le_mul_of_nonneg_right this hr.le
    _ = _ := by field_simp; ring

/-- The third moment against the second: `|m₃| √(n - 1) ≤ (n - 2) m₂^(3/2)`. -/
theorem abs_moment_three_le {l : List ℝ} (hn : 2 ≤ l.length) : |moment 3 l| * √(l.length - 1) ≤ (l.length - 2) * √(moment 2 l) ^ 3 := by
  have hl : l ≠ [] := by rintro rfl; simp at hn
  have hp : (0 : ℝ) < l.length := by exact_mod_cast List.length_pos_iff.2 hl
  set d := l.map fun x => x - mean l with hd
  have hdl : d.length = l.length := by simp [hd]
  have s2 := moment_sum hl 2
  have s3 := moment_sum hl 3
  have n0 : (d.map fun x => -x).sum = 0 := by
    have : ∀ d : List ℝ, (d.map fun x => -x).sum = -d.sum := by
      intro d; induction d with
      | nil => simp
      | cons a d ih => simp only [List.map_cons, List.sum_cons, ih]; ring
    rw [this, hd, sum_deviations, neg_zero]
  have n2 : ((d.map fun x => -x).map fun x => x ^ 2).sum = l.length * moment 2 l := by
    rw [← s2, List.map_map]; congr 1; refine List.map_congr_left fun x _ => ?_; simp
  have n3 : ((d.map fun x => -x).map fun x => x ^ 3).sum = -(l.length * moment 3 l) := by
    rw [← s3, List.map_map]
    have : ∀ d : List ℝ, (d.map ((fun x => x ^ 3) ∘ fun x => -x)).sum = -(d.map fun x => x ^ 3).sum := by
      intro d; induction d with
      | nil => simp
      | cons a d ih => simp only [List.map_cons, List.sum_cons, ih, Function.comp_apply]; ring
    exact this d
  have h1 := moment_three_le (d := d) (m := moment 2 l) (by omega) sum_deviations (moment_two_nonneg l) (by rw [hdl]; exact s2)
  have h2 := moment_three_le (d := d.map fun x => -x) (m := moment 2 l) (by simpa [hdl] using hn) n0 (moment_two_nonneg l)
    (by rw [List.length_map, hdl]; exact n2)
  rw [hdl, s3] at h1
  rw [List.length_map, hdl, n3] at h2
  have hr := Real.sqrt_nonneg ((l.length : ℝ) - 1)
  rw [show |moment 3 l| * √((l.length : ℝ) - 1) = |moment 3 l * √((l.length : ℝ) - 1)| by rw [abs_mul, abs_of_nonneg hr], abs_le]
  constructor <;> nlinarith

theorem sq_moment_two_le (l : List ℝ) : moment 2 l ^ 2 ≤ moment 4 l := by
  rw [moment, moment]
  refine sq_mean_le.trans (le_of_eq ?_)
  rw [List.map_map]
  congr 1
  refine List.map_congr_left fun x _ => ?_
  simp only [Function.comp_apply]
  ring

theorem moment_four_le {l : List ℝ} (hl : l ≠ []) : moment 4 l ≤ (l.length - 1) * moment 2 l ^ 2 := by
  have hp : (0 : ℝ) < l.length := by exact_mod_cast List.length_pos_iff.2 hl
  have key : ∀ (B : ℝ) (d : List ℝ), (∀ x ∈ d, x ^ 2 ≤ B) → (d.map fun x => x ^ 4).sum ≤ B * (d.map fun x => x ^ 2).sum := by
    intro B d
    induction d with
    | nil => simp
    | cons a d ih =>
      intro h
      have h1 := ih fun x hx => h x (List.mem_cons_of_mem _ hx)
      have h2 := mul_nonneg (sub_nonneg.2 (h a List.mem_cons_self)) (sq_nonneg a)
      simp only [List.map_cons, List.sum_cons]
      nlinarith
  have := key ((l.length - 1) * moment 2 l) (l.map fun x => x - mean l) (by
    intro x hx
    obtain ⟨y, hy, rfl⟩ := List.mem_map.1 hx
    exact samuelson hy)
  rw [moment_sum hl, moment_sum hl] at this
  nlinarith

/-- Pearson's inequality between the moments. -/
theorem sq_moment_three_le {l : List ℝ} (hl : l ≠ []) : moment 3 l ^ 2 ≤ moment 2 l * (moment 4 l - moment 2 l ^ 2) := by
  have hp : (0 : ℝ) < l.length := by exact_mod_cast List.length_pos_iff.2 hl
  have quad : ∀ (t u : ℝ), 0 ≤ moment 4 l + t ^ 2 * moment 2 l + u ^ 2 + 2 * t * moment 3 l + 2 * u * moment 2 l := by
    intro t u
    have key : ∀ d : List ℝ, 0 ≤ (d.map fun x => x ^ 4).sum + t ^ 2 * (d.map fun x => x ^ 2).sum + d.length * u ^ 2 + 2 * t * (d.map fun x => x ^ 3).sum +
        2 * u * (d.map fun x => x ^ 2).sum + 2 * t * u * d.sum := by
      intro d
      induction d with
      | nil => simp
      | cons a d ih =>
        simp only [List.map_cons, List.sum_cons, List.length_cons]
        push_cast
        nlinarith [sq_nonneg (a ^ 2 + t * a + u)]
    have := key (l.map fun x => x - mean l)
    rw [moment_sum hl, moment_sum hl, moment_sum hl, sum_deviations, List.length_map] at this
    have e : (l.length : ℝ) * (moment 4 l + t ^ 2 * moment 2 l + u ^ 2 + 2 * t * moment 3 l + 2 * u * moment 2 l) =
      l.length * moment 4 l + t ^ 2 * (l.length * moment 2 l) + l.length * u ^ 2 + 2 * t * (l.length * moment 3 l) + 2 * u * (l.length * moment 2 l) +
        2 * t * u * 0 := by ring
    exact nonneg_of_mul_nonneg_right (e ▸ this) hp
  have h2 := moment_two_nonneg l
  rcases h2.eq_or_lt with h | h
  · have h4 := sq_moment_two_le l
    have h5 := moment_four_le hl
    have q := quad (-(moment 3 l)) 0
    rw [← h] at h4 h5 q ⊢
    nlinarith
  · have := quad (-(moment 3 l) / moment 2 l) (-(moment 2 l))
    have e : moment 4 l + (-(moment 3 l) / moment 2 l) ^ 2 * moment 2 l + (-(moment 2 l)) ^ 2 + 2 * (-(moment 3 l) / moment 2 l) * moment 3 l +
        2 * -(moment 2 l) * moment 2 l = (moment 2 l * (moment 4 l - moment 2 l ^ 2) - moment 3 l ^ 2) / moment 2 l := by
      field_simp
      ring
    rw [e] at this
    have := mul_nonneg this h.le
    rw [div_mul_cancel₀ _ h.ne'] at this
    linarith

/-- The variance of non-negative numbers is at most `n - 1` times the square of their mean. -/
theorem moment_two_le_mean {l : List ℝ} (hl : l ≠ []) (h : ∀ x ∈ l, 0 ≤ x) : moment 2 l ≤ (l.length - 1) * mean l ^ 2 := by
  have hp : (0 : ℝ) < l.length := by exact_mod_cast List.length_pos_iff.2 hl
  have key : ∀ l : List ℝ, (∀ x ∈ l, 0 ≤ x) → (l.map fun x => x ^ 2).sum ≤ l.sum ^ 2 := by
    intro l
    induction l with
    | nil => simp
    | cons a l ih =>
      intro h
      have h1 := ih fun x hx => h x (List.mem_cons_of_mem _ hx)
      have h2 := mul_nonneg (h a List.mem_cons_self) (List.sum_nonneg fun x hx => h x (List.mem_cons_of_mem _ hx))
      simp only [List.map_cons, List.sum_cons]
      nlinarith
  have exp : ∀ (c : ℝ) (l : List ℝ), (l.map fun x => (x - c) ^ 2).sum = (l.map fun x => x ^ 2).sum - 2 * c * l.sum + l.length * c ^ 2 := by
    intro c l
    induction l with
    | nil => simp
    | cons a l ih => simp only [List.map_cons, List.sum_cons, ih, List.length_cons]; push_cast; ring
  have h1 := key l h
  have es : l.sum = mean l * l.length := by rw [mean]; field_simp
  rw [moment, mean_of_length (List.length_map _), div_le_iff₀ hp, exp]
  rw [es] at h1 ⊢
  nlinarith

/-- How far a walk gets is at most the length of its steps. -/
theorem walk_le (v : ℕ → ℝ) {a b : ℕ} (h : a ≤ b) : |v b - v a| ≤ ∑ j ∈ Finset.Ico (a + 1) (b + 1), |v j - v (j - 1)| := by
  induction b, h using Nat.le_induction with
  | base => simp
  | succ b h ih =>
    rw [Finset.sum_Ico_succ_top (by omega), Nat.add_sub_cancel]
    have := abs_add_le (v (b + 1) - v b) (v b - v a)
    rw [sub_add_sub_cancel] at this
    linarith

theorem kurtosis_formula {m2 m4 n : ℝ} (hp : 0 < m2) (hn : 4 ≤ n) :
    (n + 1) * n * (n - 1) / ((n - 2) * (n - 3)) * (n * m4) / (n * m2) ^ 2 - 3 * (n - 1) ^ 2 / ((n - 2) * (n - 3)) =
      (n - 1) / ((n - 2) * (n - 3)) * ((n + 1) * (m4 / m2 ^ 2) - 3 * (n - 1)) := by
  have h1 : n - 2 ≠ 0 := by linarith
  have h2 : n - 3 ≠ 0 := by linarith
  have h3 : n ≠ 0 := by linarith
  field_simp

end Traquer

namespace Traquer.Distribution
open FP FloatLit
variable (data : List XF) {w i : ℕ} (h1 : w ≤ i + 1) (h2 : i < data.length) (hd : Fins data)
include h1 h2 hd

theorem mem_window (hw : 1 ≤ w) : bar (vals data) i ∈ recent (vals data) w i := by
  rw [← lastOf_bar h1 (by simpa [vals] using h2), lastOf, List.mem_map]
  exact ⟨w - 1, by simp; omega, by congr 1; omega⟩

theorem window_length : (recent (vals data) w i).length = w := recent_length h1 (by simpa [vals] using h2)

theorem window_ne (hw : 1 ≤ w) : recent (vals data) w i ≠ [] := List.ne_nil_of_mem (mem_window data h1 h2 hd hw)

/-- C98: `zscore` is at most `√(w - 1)` in absolute value. -/
theorem zscore_bound (hw : 1 ≤ w) (hf : ¬ Flat (recent (vals data) w i)) : ∃ z, Shows i (zscore data w) z ∧ |z| ≤ √(w - 1) := by
  obtain ⟨z, s, a, hz, hs, ha, e⟩ := zscore_mul_std_dev data hw h1 h2 hd hf
  refine ⟨z, hz, Real.abs_le_sqrt ?_⟩
  obtain rfl := hs.unique ((std_dev_reports data w hw (by omega) hd).shows (by omega) h2)
  obtain rfl := ha.unique ((Smooth.sma_reports data w hw (by omega) hd).shows (by omega) h2)
  have hm := samuelson (mem_window data h1 h2 hd hw)
  have hp : 0 < moment 2 (recent (vals data) w i) := lt_of_le_of_ne (moment_two_nonneg _) fun h => hf (moment_two_eq_zero.1 h.symm)
  rw [← e, mul_pow, stdDev, Real.sq_sqrt hp.le, window_length data h1 h2 hd] at hm
  exact le_of_mul_le_mul_right hm hp

omit h1 in
/-- C98: on a window of two different values `zscore` is 1 or -1. -/
theorem zscore_two (hi : 1 ≤ i) (hne : bar (vals data) (i - 1) ≠ bar (vals data) i) :
    Shows i (zscore data 2) (if bar (vals data) (i - 1) < bar (vals data) i then 1 else -1) := by
  have e : recent (vals data) 2 i = [bar (vals data) (i - 1), bar (vals data) i] := by
    rw [← lastOf_bar (by omega) (by simpa [vals] using h2), lastOf, show List.range 2 = [0, 1] from rfl]
    simp only [List.map_cons, List.map_nil, show i + 1 - 2 + 0 = i - 1 by omega, show i + 1 - 2 + 1 = i by omega]
  have hf : ¬ Flat (recent (vals data) 2 i) := fun h => hne (h _ (by simp [e]) _ (by simp [e]))
  have hx : (vals data)[i]? = some (bar (vals data) i) := by
    rw [bar, List.getD_eq_getElem?_getD, List.getElem?_eq_getElem (by simpa [vals] using h2)]; rfl
  refine ((zscore_reports data 2 (by norm_num) (by omega) hd).shows (by omega) h2 fun y hy => hy.1 hf _ hx).congr ?_
  rw [e]
  generalize bar (vals data) (i - 1) = a at *
  generalize bar (vals data) i = b at *
  have em : mean [a, b] = (a + b) / 2 := by simp [mean]
  have es : stdDev [a, b] = |b - a| / 2 := by
    rw [stdDev, moment, em, show |b - a| / 2 = |(b - a) / 2| by rw [abs_div, abs_of_pos (two_pos : (0 : ℝ) < 2)], ← Real.sqrt_sq_eq_abs]
    congr 1
    simp only [mean, List.map_cons, List.map_nil, List.sum_cons, List.sum_nil, List.length_cons, List.length_nil]
    push_cast
    ring
  rw [em, es]
  split
  · next h => rw [abs_of_pos (by linarith), div_eq_iff (by linarith)]; ring
  · next h =>
    have h' : b < a := lt_of_le_of_ne (not_lt.1 h) hne.symm
    rw [abs_of_neg (by linarith), div_eq_iff (by linarith)]
    ring

/-- C98: `skew` is at most `√w` in absolute value. -/
theorem skew_bound (hw : 3 ≤ w) (hf : ¬ Flat (recent (vals data) w i)) : ∃ g, Shows i (skew data w) g ∧ |g| ≤ √w := by
  refine ⟨_, (skew_reports data w hw (by omega) hd).shows (by omega) h2 fun y hy => hy hf, ?_⟩
  have hl := window_length data h1 h2 hd
  have hm := abs_moment_three_le (l := recent (vals data) w i) (by omega)
  have hp : 0 < moment 2 (recent (vals data) w i) := lt_of_le_of_ne (moment_two_nonneg _) fun h => hf (moment_two_eq_zero.1 h.symm)
  rw [hl] at hm
  generalize recent (vals data) w i = l at *
  have hw3 : (3 : ℝ) ≤ w := by exact_mod_cast hw
  have e : moment 2 l ^ (3 / 2 : ℝ) = √(moment 2 l) ^ 3 := by
    rw [Real.sqrt_eq_rpow, ← Real.rpow_natCast, ← Real.rpow_mul hp.le]; norm_num
  have hs : 0 < √(moment 2 l) := Real.sqrt_pos.2 hp
  have hr : 0 < √((w : ℝ) - 1) := Real.sqrt_pos.2 (by linarith)
  rw [e, abs_div, abs_mul, abs_of_nonneg (div_nonneg (Real.sqrt_nonneg _) (by linarith)), abs_of_pos (pow_pos hs 3), div_le_iff₀ (pow_pos hs 3),
    Real.sqrt_mul (by linarith), div_mul_eq_mul_div, div_le_iff₀ (by linarith)]
  nlinarith [mul_le_mul_of_nonneg_left hm (Real.sqrt_nonneg (w : ℝ))]

/-- C98: `kurtosis` lies between `-2(w - 1)/(w - 3)` and `(w - 1)²/(w - 3)`. -/
theorem kurtosis_bounds (hw : 4 ≤ w) (hf : ¬ Flat (recent (vals data) w i)) :
    ∃ k, Shows i (kurtosis data w) k ∧ -2 * (w - 1) / (w - 3) ≤ k ∧ k ≤ (w - 1) ^ 2 / (w - 3) := by
  refine ⟨_, (kurtosis_reports data w hw (by omega) hd).shows (by omega) h2 fun y hy => hy hf, ?_⟩
  have hl := window_length data h1 h2 hd
  have hp : 0 < moment 2 (recent (vals data) w i) := lt_of_le_of_ne (moment_two_nonneg _) fun h => hf (moment_two_eq_zero.1 h.symm)
  have hw4 : (4 : ℝ) ≤ w := by exact_mod_cast hw
  have lo := sq_moment_two_le (recent (vals data) w i)
  have hi := moment_four_le (window_ne data h1 h2 hd (by omega))
  rw [hl] at hi
  rw [kurtosis_formula hp hw4]
  generalize recent (vals data) w i = l at *
  have b1 : 1 ≤ moment 4 l / moment 2 l ^ 2 := by rw [le_div_iff₀ (by positivity)]; linarith
  have b2 : moment 4 l / moment 2 l ^ 2 ≤ w - 1 := by rw [div_le_iff₀ (by positivity)]; linarith
  generalize moment 4 l / moment 2 l ^ 2 = b at *
  have p2 : (0 : ℝ) < w - 2 := by linarith
  have p3 : (0 : ℝ) < w - 3 := by linarith
  have e1 : -2 * ((w : ℝ) - 1) / (w - 3) = (w - 1) / ((w - 2) * (w - 3)) * ((w + 1) * 1 - 3 * (w - 1)) := by field_simp; ring
  have e2 : ((w : ℝ) - 1) ^ 2 / (w - 3) = (w - 1) / ((w - 2) * (w - 3)) * ((w + 1) * (w - 1) - 3 * (w - 1)) := by field_simp; ring
  have hc : 0 ≤ ((w : ℝ) - 1) / ((w - 2) * (w - 3)) := div_nonneg (by linarith) (by positivity)
  rw [e1, e2]
  constructor <;> gcongr

/-- C98: Pearson's inequality between `skew` and `kurtosis`: a skewed window cannot have too small a kurtosis. -/
theorem skew_kurtosis (hw : 4 ≤ w) (hf : ¬ Flat (recent (vals data) w i)) : ∃ g k, Shows i (skew data w) g ∧ Shows i (kurtosis data w) k ∧
    (w - 2) ^ 2 / (w * (w - 1)) * g ^ 2 + 1 ≤ ((w - 2) * (w - 3) / (w - 1) * k + 3 * (w - 1)) / (w + 1) := by
  refine ⟨_, _, (skew_reports data w (by omega) (by omega) hd).shows (by omega) h2 fun y hy => hy hf,
    (kurtosis_reports data w hw (by omega) hd).shows (by omega) h2 fun y hy => hy hf, ?_⟩
  have hp : 0 < moment 2 (recent (vals data) w i) := lt_of_le_of_ne (moment_two_nonneg _) fun h => hf (moment_two_eq_zero.1 h.symm)
  have hw4 : (4 : ℝ) ≤ w := by exact_mod_cast hw
  have hm := sq_moment_three_le (window_ne data h1 h2 hd (by omega))
  rw [kurtosis_formula hp hw4]
  generalize recent (vals data) w i = l at *
  have e : (moment 2 l ^ (3 / 2 : ℝ)) ^ 2 = moment 2 l ^ 3 := by
    rw [← Real.rpow_natCast, ← Real.rpow_mul hp.le, ← Real.rpow_natCast]; norm_num
  have p1 : (0 : ℝ) < w - 1 := by linarith
  have p2 : (0 : ℝ) < w - 2 := by linarith
  have p3 : (0 : ℝ) < w - 3 := by linarith
  have p4 : (0 : ℝ) < w := by linarith
  have er : √((w : ℝ) * (w - 1)) ^ 2 = w * (w - 1) := Real.sq_sqrt (by positivity)
  rw [div_pow, mul_pow, div_pow, er, e]
  have e1 : ((w : ℝ) - 2) ^ 2 / (w * (w - 1)) * (w * (w - 1) / (w - 2) ^ 2 * moment 3 l ^ 2 / moment 2 l ^ 3) = moment 3 l ^ 2 / moment 2 l ^ 3 := by
    field_simp
  have e2 : (((w : ℝ) - 2) * (w - 3) / (w - 1) * ((w - 1) / ((w - 2) * (w - 3)) * ((w + 1) * (moment 4 l / moment 2 l ^ 2) - 3 * (w - 1))) + 3 * (w - 1)) / (w + 1) =
      moment 4 l / moment 2 l ^ 2 := by
    field_simp
    ring
  rw [e1, e2, div_add_one (by positivity), div_le_div_iff₀ (by positivity) (by positivity)]
  nlinarith [mul_le_mul_of_nonneg_left hm (sq_nonneg (moment 2 l))]

/-- C98: on non-negative data `cv` is at most `√(w - 1)`. -/
theorem cv_bound (hw : 1 ≤ w) (h0 : ∀ x ∈ vals data, 0 ≤ x) (hm : mean (recent (vals data) w i) ≠ 0) :
    ∃ c, Shows i (cv data w) c ∧ 0 ≤ c ∧ c ≤ √(w - 1) := by
  refine ⟨_, (cv_reports data w hw (by omega) hd).shows (by omega) h2 fun y hy => hy hm, ?_⟩
  have hin : ∀ x ∈ recent (vals data) w i, 0 ≤ x := fun x hx => h0 x (List.mem_of_mem_drop (List.mem_of_mem_take hx))
  have hp : 0 < mean (recent (vals data) w i) := lt_of_le_of_ne (mean_nonneg hin) hm.symm
  have := moment_two_le_mean (window_ne data h1 h2 hd hw) hin
  rw [window_length data h1 h2 hd] at this
  refine ⟨div_nonneg (Real.sqrt_nonneg _) hp.le, ?_⟩
  rw [div_le_iff₀ hp, stdDev, Real.sqrt_le_left (by positivity), mul_pow, Real.sq_sqrt]
  · exact this
  · have : (1 : ℝ) ≤ w := by exact_mod_cast hw
    linarith

end Traquer.Distribution

namespace Traquer
open FP FloatLit

/-- The value of the last bar of a window belongs to it. -/
theorem last_mem_recent {l : List ℝ} {w i : ℕ} (hw : 1 ≤ w) (h1 : w ≤ i + 1) (h2 : i < l.length) : bar l i ∈ recent l w i := by
  rw [← lastOf_bar h1 h2, lastOf, List.mem_map]
  exact ⟨w - 1, by simp; omega, by congr 1; omega⟩

theorem mem_of_recent {l : List ℝ} {w i : ℕ} {x : ℝ} (h : x ∈ recent l w i) : x ∈ l := List.mem_of_mem_drop (List.mem_of_mem_take h)

end Traquer

namespace Traquer.Momentum
open FP FloatLit
open Traquer.Smooth (ema1)
variable (data : List XF) {w i : ℕ}

/-- C98: on positive prices `cog` lies between `-w` and `-1`. -/
theorem cog_bounds (hw : 1 ≤ w) (h1 : w ≤ i + 1) (h2 : i < data.length) (hd : Fins data) (hp : ∀ x ∈ vals data, 0 < x) :
    ∃ c, Shows i (cog data w) c ∧ -w ≤ c ∧ c ≤ -1 := by
  have hv : i < (vals data).length := by simpa [vals] using h2
  have hpos : ∀ j, j ≤ i → 0 < bar (vals data) j := fun j hj => by
    rw [bar, List.getD_eq_getElem?_getD, List.getElem?_eq_getElem (by omega)]
    exact hp _ (List.getElem_mem _)
  have es : (recent (vals data) w i).sum = ∑ j ∈ Finset.range w, bar (vals data) (i - j) := by
    rw [← lastOf_bar h1 hv, lastOf, sum_over_range, ← Finset.sum_range_reflect]
    refine Finset.sum_congr rfl fun k hk => ?_
    rw [Finset.mem_range] at hk
    congr 1
    omega
  have hs : 0 < ∑ j ∈ Finset.range w, bar (vals data) (i - j) := Finset.sum_pos (fun j _ => hpos _ (by omega)) ⟨0, by simp; omega⟩
  refine ⟨_, (cog_reports data w hw (by omega) hd).shows (by omega) h2 fun y hy => hy.1 (by rw [es]; exact hs.ne'), ?_, ?_⟩
  · rw [es, sum_over_range, neg_div, neg_le_neg_iff, div_le_iff₀ hs, Finset.mul_sum]
    refine Finset.sum_le_sum fun j hj => ?_
    have hj : (j : ℝ) + 1 ≤ w := by exact_mod_cast Finset.mem_range.1 hj
    nlinarith [hpos (i - j) (by omega)]
  · rw [es, sum_over_range, neg_div, neg_le_neg_iff, le_div_iff₀ hs, one_mul]
    refine Finset.sum_le_sum fun j hj => ?_
    nlinarith [hpos (i - j) (by omega), (Nat.cast_nonneg j : (0 : ℝ) ≤ j)]

theorem ewmaFrom_const (c : ℝ) (k : ℕ) (hw : 1 ≤ w) (i : ℕ) : ewmaFrom k w (fun _ => c) i = c := by
  have hm : ∀ j, mean (lastOf (fun _ => c) w j) = c := fun j => by
    have : (w : ℝ) ≠ 0 := by positivity
    simp only [lastOf, mean, List.map_const', List.sum_replicate, List.length_replicate, List.length_range, nsmul_eq_mul]
    field_simp
  induction i with
  | zero => exact hm _
  | succ i ih =>
    rw [ewmaFrom]
    split
    · exact hm _
    · rw [ih]; ring

theorem ema_pos (hw : 1 ≤ w) (h1 : w ≤ i + 1) (h2 : i < data.length) (hp : ∀ x ∈ vals data, 0 < x) : 0 < ema1 w (bar (vals data)) i := by
  have hv : i < (vals data).length := by simpa [vals] using h2
  have hne : vals data ≠ [] := by intro e; rw [e] at hv; simp at hv
  have hm : 0 < minOf (vals data) := hp _ (minOf_mem hne)
  refine hm.trans_le ?_
  have := ewmaFrom_mono (k := 0) (w := w) (n := data.length) (f := fun _ => minOf (vals data)) (g := bar (vals data)) hw (fun j _ hj => by
    have hj' : j < (vals data).length := by simpa [vals] using hj
    rw [bar, List.getD_eq_getElem?_getD, List.getElem?_eq_getElem hj']
    exact minOf_le (List.getElem_mem _)) i (by omega) h2
  rwa [ewmaFrom_const _ _ hw] at this

theorem bar_pos_of {l : List ℝ} (hp : ∀ x ∈ l, 0 < x) {j : ℕ} (hj : j < l.length) : 0 < bar l j := by
  rw [bar, List.getD_eq_getElem?_getD, List.getElem?_eq_getElem hj]
  exact hp _ (List.getElem_mem _)

/-- C98: on positive prices `disparity` is above -100. -/
theorem disparity_above (hw : 1 ≤ w) (h1 : w ≤ i + 1) (h2 : i < data.length) (hd : Fins data) (hp : ∀ x ∈ vals data, 0 < x) :
    ∃ d, Shows i (disparity data w) d ∧ -100 < d := by
  have he := ema_pos data hw h1 h2 hp
  refine ⟨_, (disparity_reports data w hw (by omega) hd).shows (by omega) h2 fun y hy => hy.1 he.ne', ?_⟩
  rw [lt_div_iff₀ he]
  linarith [bar_pos_of hp (show i < (vals data).length by simpa [vals] using h2)]

/-- C98: on positive prices `ppo` is above -100. -/
theorem ppo_above {short long : ℕ} (hs : 1 ≤ short) (hl : 1 ≤ long) (h1 : max short long ≤ i + 1)
    (h2 : i < data.length) (hd : Fins data) (hp : ∀ x ∈ vals data, 0 < x) : ∃ p, Shows i (ppo data short long) p ∧ -100 < p := by
  have he := ema_pos data hl (by omega) h2 hp
  refine ⟨_, (ppo_reports data short long hs hl (by omega) hd).shows (by omega) h2 fun y hy => hy.1 he.ne', ?_⟩
  rw [lt_div_iff₀ he]
  linarith [ema_pos data hs (by omega) h2 hp]

/-- C98: on positive prices `roc` is above -100. -/
theorem roc_above (hw : 1 ≤ w) (h1 : w ≤ i + 1) (h2 : i < data.length) (hd : Fins data) (hp : ∀ x ∈ vals data, 0 < x) :
    ∃ d, Shows i (roc data w) d ∧ -100 < d := by
  have hb : ∀ j, j ≤ i → 0 < bar (vals data) j := fun j hj => bar_pos_of hp (show j < (vals data).length by rw [vals, List.length_map]; omega)
  refine ⟨_, (roc_reports data w hw (by omega) hd).shows (by omega) h2 fun y hy => hy.1 (hb _ (by omega)).ne', ?_⟩
  rw [lt_div_iff₀ (hb _ (by omega))]
  linarith [hb i le_rfl]

end Traquer.Momentum

namespace Traquer.Trend
open FP FloatLit

/-- C98: on positive prices `ulcer` is below 100. -/
theorem ulcer_below (data : List XF) {w i : ℕ} (hw : 1 ≤ w) (h1 : 2 * (w - 1) ≤ i) (h2 : i < data.length) (hd : Fins data)
    (hp : ∀ x ∈ vals data, 0 < x) : ∃ u, Shows i (ulcer data w) u ∧ 0 ≤ u ∧ u < 100 := by
  have mpos : ∀ j, w ≤ j + 1 → j < data.length → 0 < bar (vals data) j ∧ bar (vals data) j ≤ maxOf (recent (vals data) w j) := fun j a b =>
    have hj : j < (vals data).length := by simpa [vals] using b
    ⟨hp _ (mem_of_recent (last_mem_recent hw a hj)), le_maxOf (last_mem_recent hw a hj)⟩
  refine ⟨_, (ulcer_reports data w hw (by omega) hd fun j a b => ((mpos j a b).1.trans_le (mpos j a b).2).ne').shows (by omega) h2, Real.sqrt_nonneg _, ?_⟩
  rw [Real.sqrt_lt' (by norm_num)]
  have hw0 : (0 : ℝ) < w := by positivity
  rw [mean_of_length (w := w) (by simp [lastOf]), div_lt_iff₀ hw0, lastOf, sum_over_range]
  have : ∑ k ∈ Finset.range w, drawdown (vals data) w (i + 1 - w + k) ^ 2 < ∑ k ∈ Finset.range w, (100 : ℝ) ^ 2 := by
    refine Finset.sum_lt_sum_of_nonempty ⟨0, by simp; omega⟩ fun k hk => ?_
    rw [Finset.mem_range] at hk
    obtain ⟨a, b⟩ := mpos (i + 1 - w + k) (by omega) (by omega)
    rw [drawdown, sq_lt_sq, abs_of_pos (by norm_num : (0 : ℝ) < 100), abs_div, abs_of_pos (a.trans_le b), div_lt_iff₀ (a.trans_le b),
      abs_of_nonpos (by linarith)]
    linarith
  rw [Finset.sum_const, Finset.card_range, nsmul_eq_mul] at this
  linarith

end Traquer.Trend

namespace Traquer.Volatility
open FP FloatLit

/-- C98: on a single series `vhf` lies between 0 and 1. -/
theorem vhf_bounds (data : List XF) {w i : ℕ} (hw : 1 ≤ w) (h1 : w ≤ i) (h2 : i < data.length) (hd : Fins data)
    (hm : ∃ j, i + 1 - w ≤ j ∧ j ≤ i ∧ bar (vals data) j ≠ bar (vals data) (j - 1)) :
    ∃ v, Shows i (vhf data data data w) v ∧ 0 ≤ v ∧ v ≤ 1 := by
  have hv : i < (vals data).length := by simpa [vals] using h2
  have hne : recent (vals data) w i ≠ [] := List.ne_nil_of_mem (last_mem_recent hw (by omega) hv)
  have hs : 0 < (lastOf (fun j => |bar (vals data) j - bar (vals data) (j - 1)|) w i).sum := by
    rw [lastOf_sum_Ico _ (by omega)]
    obtain ⟨j, a, b, c⟩ := hm
    exact Finset.sum_pos' (fun _ _ => abs_nonneg _) ⟨j, Finset.mem_Ico.2 ⟨a, by omega⟩, abs_pos.2 (sub_ne_zero.2 c)⟩
  have at_bar : ∀ x ∈ recent (vals data) w i, ∃ j, i + 1 - w ≤ j ∧ j ≤ i ∧ x = bar (vals data) j := by
    intro x hx
    rw [← lastOf_bar (by omega) hv, lastOf, List.mem_map] at hx
    obtain ⟨k, hk, rfl⟩ := hx
    rw [List.mem_range] at hk
    exact ⟨_, by omega, by omega, rfl⟩
  obtain ⟨p, p1, p2, ep⟩ := at_bar _ (maxOf_mem hne)
  obtain ⟨q, q1, q2, eq⟩ := at_bar _ (minOf_mem hne)
  have sub : ∀ a b, i + 1 - w ≤ a → a ≤ b → b ≤ i → |bar (vals data) b - bar (vals data) a| ≤
      ∑ j ∈ Finset.Ico (i + 1 - w) (i + 1), |bar (vals data) j - bar (vals data) (j - 1)| := fun a b ha hab hb =>
    (walk_le (bar (vals data)) hab).trans (Finset.sum_le_sum_of_subset_of_nonneg (Finset.Ico_subset_Ico (by omega) (by omega)) fun _ _ _ => abs_nonneg _)
  refine ⟨_, (vhf_reports data data data w rfl rfl hw (by omega) hd hd hd).shows (by omega) h2 fun y hy => hy.1 hs.ne', ?_, ?_⟩
  · refine div_nonneg (sub_nonneg.2 ?_) hs.le
    exact (minOf_le (maxOf_mem hne))
  · rw [div_le_one hs, lastOf_sum_Ico _ (by omega), ep, eq]
    rcases le_total p q with h | h
    · rw [← neg_sub]
      exact (neg_le_abs _).trans (sub p q p1 h q2)
    · exact (le_abs_self _).trans (sub q p q1 h p2)

/-- C98: with a simple average in the middle and `k` deviations, `k² ≥ w - 1`, the Bollinger bands always contain the price: with the usual two
deviations no price can leave them unless the window has more than five bars. -/
theorem bbands_contain (data : List XF) {w i : ℕ} (k : XF) {r : ℝ} (hk : k ⇓ r) (h0 : 0 ≤ r) (hr : (w : ℝ) - 1 ≤ r ^ 2) (hw : 1 ≤ w) (h1 : w ≤ i + 1)
    (h2 : i < data.length) (hd : Fins data) : ∃ out u m d U D, bbands data w (some k) (some .SMA) = some out ∧ out[i]? = some (u, m, d) ∧
      u ⇓ U ∧ d ⇓ D ∧ D ≤ bar (vals data) i ∧ bar (vals data) i ≤ U := by
  have hv : i < (vals data).length := by simpa [vals] using h2
  obtain ⟨s, es, rs, ls⟩ := (Distribution.std_dev_reports data w hw (by omega) hd).some
  obtain ⟨m, em, rm, lm⟩ := (Smooth.sma_reports data w hw (by omega) hd).some
  have eb : bbands data w (some k) (some .SMA) = some ((m.zip (s.map fun x => x * k)).map fun p => (p.1 + p.2, p.1, p.1 - p.2)) := by
    run_model [bbands, std_dev, es, Smooth.ma, em]
    rfl
  obtain ⟨a, ha⟩ : ∃ y, m[i]? = some y := ⟨_, List.getElem?_eq_getElem (by omega)⟩
  obtain ⟨b, hb⟩ : ∃ y, s[i]? = some y := ⟨_, List.getElem?_eq_getElem (by omega)⟩
  have ho : ((m.zip (s.map fun x => x * k)).map fun p => (p.1 + p.2, p.1, p.1 - p.2))[i]? = some (a + b * k, a, a - b * k) := by
    have : (m.zip (s.map fun x => x * k))[i]? = some (a, b * k) := List.getElem?_zip_eq_some.2 ⟨ha, by simp [hb]⟩
    rw [List.getElem?_map, this]
    rfl
  have hma := rm.at ha (by omega)
  have hsb := rs.at hb (by omega)
  refine ⟨_, _, _, _, _, _, eb, ho, is_add hma (is_mul hsb hk), is_sub hma (is_mul hsb hk), ?_⟩
  have hl : (recent (vals data) w i).length = w := recent_length h1 hv
  have sam := samuelson (last_mem_recent hw h1 hv)
  rw [hl] at sam
  have hsd : (bar (vals data) i - mean (recent (vals data) w i)) ^ 2 ≤ (stdDev (recent (vals data) w i) * r) ^ 2 := by
    rw [mul_pow, stdDev, Real.sq_sqrt (moment_two_nonneg _)]
    nlinarith [moment_two_nonneg (recent (vals data) w i)]
  have := abs_le_of_sq_le_sq hsd (mul_nonneg (Real.sqrt_nonneg _) h0)
  rw [abs_le] at this
  constructor <;> linarith [this.1, this.2]

end Traquer.Volatility

/-! ## The hypotheses can be met -/

namespace Traquer
open FP FloatLit

private noncomputable def quotes : List XF := [fin 4, fin 5, fin 2, fin 7, fin 3, fin 3]

private theorem quotes_fin : Fins quotes := by intro x hx; fin_cases hx <;> simp [FP.Finite]
private theorem quotes_pos : ∀ x ∈ vals quotes, 0 < x := by intro x hx; simp [quotes, vals, FP.val] at hx; rcases hx with rfl | rfl | rfl | rfl | rfl <;> norm_num
private theorem quotes_move : ¬ Flat (recent (vals quotes) 4 4) := by
  intro h
  have := h 2 (by simp [recent, quotes, vals, FP.val]) 7 (by simp [recent, quotes, vals, FP.val])
  norm_num at this

example : ∃ z, Shows 4 (Distribution.zscore quotes 4) z ∧ |z| ≤ √((4 : ℕ) - 1) :=
  Distribution.zscore_bound quotes (by norm_num) (by simp [quotes]) quotes_fin (by norm_num) quotes_move

example : Shows 3 (Distribution.zscore quotes 2) (if bar (vals quotes) 2 < bar (vals quotes) 3 then 1 else -1) :=
  Distribution.zscore_two quotes (by simp [quotes]) quotes_fin (by norm_num) (by simp [quotes, vals, bar, FP.val])

example : ∃ g, Shows 4 (Distribution.skew quotes 4) g ∧ |g| ≤ √(4 : ℕ) :=
  Distribution.skew_bound quotes (by norm_num) (by simp [quotes]) quotes_fin (by norm_num) quotes_move

example : ∃ k, Shows 4 (Distribution.kurtosis quotes 4) k ∧ -2 * ((4 : ℕ) - 1 : ℝ) / ((4 : ℕ) - 3) ≤ k ∧ k ≤ ((4 : ℕ) - 1 : ℝ) ^ 2 / ((4 : ℕ) - 3) :=
  Distribution.kurtosis_bounds quotes (by norm_num) (by simp [quotes]) quotes_fin (by norm_num) quotes_move

example : ∃ c, Shows 4 (Distribution.cv quotes 3) c ∧ 0 ≤ c ∧ c ≤ √((3 : ℕ) - 1) :=
  Distribution.cv_bound quotes (by norm_num) (by simp [quotes]) quotes_fin (by norm_num) (fun x hx => (quotes_pos x hx).le)
    (by simp [recent, quotes, vals, FP.val, mean]; norm_num)

example : ∃ c, Shows 4 (Momentum.cog quotes 3) c ∧ -(3 : ℕ) ≤ c ∧ c ≤ -1 :=
  Momentum.cog_bounds quotes (by norm_num) (by norm_num) (by simp [quotes]) quotes_fin quotes_pos

example : ∃ u, Shows 5 (Trend.ulcer quotes 3) u ∧ 0 ≤ u ∧ u < 100 :=
  Trend.ulcer_below quotes (by norm_num) (by norm_num) (by simp [quotes]) quotes_fin quotes_pos

example : ∃ v, Shows 5 (Volatility.vhf quotes quotes quotes 3) v ∧ 0 ≤ v ∧ v ≤ 1 :=
  Volatility.vhf_bounds quotes (by norm_num) (by norm_num) (by simp [quotes]) quotes_fin ⟨4, by norm_num, by norm_num, by simp [quotes, vals, bar, FP.val]⟩

example : ∃ out u m d U D, Volatility.bbands quotes 5 (some (fin 2)) (some .SMA) = some out ∧ out[5]? = some (u, m, d) ∧
    u ⇓ U ∧ d ⇓ D ∧ D ≤ bar (vals quotes) 5 ∧ bar (vals quotes) 5 ≤ U :=
  Volatility.bbands_contain quotes (fin 2) (r := 2) ⟨by simp [FP.Finite], by simp [FP.val]⟩ (by norm_num) (by norm_num) (by norm_num) (by norm_num)
    (by simp [quotes]) quotes_fin

end Traquer
