import Verif.Spec.Portfolio
import Verif.Props.Reverse
/-!
# C131: the risk of two assets held together

The standard deviation and the mean absolute deviation of a holding of two assets are at most the sum and at least the difference of
those of the assets; the variance is the sum of the variances and twice the correlation `pcc` times the two standard deviations.
-/

namespace Traquer
open FP FloatLit

theorem mean_zip_add {α : Type} (P : List α) (f g : α → ℝ) : mean (P.map fun p => f p + g p) = mean (P.map f) + mean (P.map g) := by
  have : (P.map fun p => f p + g p).sum = (P.map f).sum + (P.map g).sum := by
    induction P with
    | nil => simp
    | cons a l ih => simp only [List.map_cons, List.sum_cons, ih]; ring
  rw [mean, mean, mean, this, List.length_map, List.length_map, List.length_map, add_div]

theorem mean_zip_mul {α : Type} (P : List α) (c : ℝ) (f : α → ℝ) : mean (P.map fun p => c * f p) = c * mean (P.map f) := by
  have : (P.map fun p => c * f p).sum = c * (P.map f).sum := by
    induction P with
    | nil => simp
    | cons a l ih => simp only [List.map_cons, List.sum_cons, ih]; ring
  rw [mean, mean, this, List.length_map, List.length_map, mul_div_assoc]

theorem mean_zip_le {α : Type} (P : List α) {f g : α → ℝ} (h : ∀ p ∈ P, f p ≤ g p) : mean (P.map f) ≤ mean (P.map g) := by
  have : (P.map f).sum ≤ (P.map g).sum := List.sum_le_sum h
  rw [mean, mean, List.length_map, List.length_map]
  exact div_le_div_of_nonneg_right this (by positivity)

section
variable {xs ys : List ℝ} (h : ys.length = xs.length)
include h

theorem mean_zip_fst (f : ℝ → ℝ) : mean ((xs.zip ys).map fun p => f p.1) = mean (xs.map f) := by
  rw [show ((xs.zip ys).map fun p => f p.1) = ((xs.zip ys).map Prod.fst).map f by rw [List.map_map]; rfl, List.map_fst_zip (by omega)]

theorem mean_zip_snd (f : ℝ → ℝ) : mean ((xs.zip ys).map fun p => f p.2) = mean (ys.map f) := by
  rw [show ((xs.zip ys).map fun p => f p.2) = ((xs.zip ys).map Prod.snd).map f by rw [List.map_map]; rfl, List.map_snd_zip (by omega)]

theorem mean_holding : mean ((xs.zip ys).map fun p => p.1 + p.2) = mean xs + mean ys := by
  rw [mean_zip_add]
  have a := mean_zip_fst h (fun x => x)
  have b := mean_zip_snd h (fun x => x)
  rw [List.map_id'] at a b
  rw [a, b]

theorem moment_holding : moment 2 ((xs.zip ys).map fun p => p.1 + p.2) = moment 2 xs + moment 2 ys + 2 * covar xs ys := by
  rw [moment, mean_holding h, List.map_map]
  have e : ((fun x => (x - (mean xs + mean ys)) ^ 2) ∘ fun p : ℝ × ℝ => p.1 + p.2) = fun p : ℝ × ℝ =>
      ((p.1 - mean xs) ^ 2 + (p.2 - mean ys) ^ 2) + 2 * ((p.1 - mean xs) * (p.2 - mean ys)) := by
    funext p
    simp only [Function.comp]
    ring
  rw [e, mean_zip_add, mean_zip_add, mean_zip_mul, mean_zip_fst h fun x => (x - mean xs) ^ 2, mean_zip_snd h fun y => (y - mean ys) ^ 2]
  rfl

theorem stdDev_holding : |stdDev xs - stdDev ys| ≤ stdDev ((xs.zip ys).map fun p => p.1 + p.2) ∧
    stdDev ((xs.zip ys).map fun p => p.1 + p.2) ≤ stdDev xs + stdDev ys := by
  have a0 : 0 ≤ stdDev xs := Real.sqrt_nonneg _
  have b0 : 0 ≤ stdDev ys := Real.sqrt_nonneg _
  have nn : ∀ l : List ℝ, 0 ≤ moment 2 l := fun l => div_nonneg (List.sum_nonneg fun x hx => by
    obtain ⟨y, -, rfl⟩ := List.mem_map.1 hx
    positivity) (by positivity)
  have a2 : stdDev xs ^ 2 = moment 2 xs := Real.sq_sqrt (nn xs)
  have b2 : stdDev ys ^ 2 = moment 2 ys := Real.sq_sqrt (nn ys)
  obtain ⟨c1, c2⟩ := abs_le.1 (abs_covar_le h)
  constructor
  · rw [stdDev.eq_def ((xs.zip ys).map _)]
    refine Real.le_sqrt_of_sq_le ?_
    rw [sq_abs, moment_holding h, ← a2, ← b2]
    nlinarith
  · rw [stdDev.eq_def ((xs.zip ys).map _)]
    refine Real.sqrt_le_iff.2 ⟨by linarith, ?_⟩
    rw [moment_holding h, ← a2, ← b2]
    nlinarith

theorem meanAbsDev_holding : |meanAbsDev xs - meanAbsDev ys| ≤ meanAbsDev ((xs.zip ys).map fun p => p.1 + p.2) ∧
    meanAbsDev ((xs.zip ys).map fun p => p.1 + p.2) ≤ meanAbsDev xs + meanAbsDev ys := by
  have e1 := mean_zip_fst h fun x => |x - mean xs|
  have e2 := mean_zip_snd h fun y => |y - mean ys|
  have e3 : meanAbsDev ((xs.zip ys).map fun p => p.1 + p.2) = mean ((xs.zip ys).map fun p => |(p.1 - mean xs) + (p.2 - mean ys)|) := by
    rw [meanAbsDev, mean_holding h, List.map_map]
    congr 2
    funext p
    simp only [Function.comp]
    congr 1
    ring
  rw [e3, meanAbsDev, meanAbsDev, ← e1, ← e2]
  refine ⟨abs_le.2 ⟨?_, ?_⟩, ?_⟩
  · have := mean_zip_le (xs.zip ys) (f := fun p => |p.2 - mean ys|) (g := fun p => |p.1 - mean xs + (p.2 - mean ys)| + |p.1 - mean xs|) fun p _ => by
      have := abs_add_le (p.1 - mean xs + (p.2 - mean ys)) (-(p.1 - mean xs))
      rw [abs_neg] at this
      rwa [show p.1 - mean xs + (p.2 - mean ys) + -(p.1 - mean xs) = p.2 - mean ys by ring] at this
    rw [mean_zip_add] at this
    linarith
  · have := mean_zip_le (xs.zip ys) (f := fun p => |p.1 - mean xs|) (g := fun p => |p.1 - mean xs + (p.2 - mean ys)| + |p.2 - mean ys|) fun p _ => by
      have := abs_add_le (p.1 - mean xs + (p.2 - mean ys)) (-(p.2 - mean ys))
      rw [abs_neg] at this
      rwa [show p.1 - mean xs + (p.2 - mean ys) + -(p.2 - mean ys) = p.1 - mean xs by ring] at this
    rw [mean_zip_add] at this
    linarith
  · rw [← mean_zip_add]
    exact mean_zip_le _ fun p _ => abs_add_le _ _

end

theorem holding_vals {x y : List XF} (hx : Fins x) (hy : Fins y) :
    Fins (holding x y) ∧ vals (holding x y) = ((vals x).zip (vals y)).map fun p => p.1 + p.2 := by
  have key : ∀ p ∈ x.zip y, p.1 + p.2 ⇓ p.1.val + p.2.val := fun p hp =>
    is_add (hx _ (List.of_mem_zip hp).1).is (hy _ (List.of_mem_zip hp).2).is
  constructor
  · intro z hz
    obtain ⟨p, hp, rfl⟩ := List.mem_map.1 hz
    exact (key p hp).1
  · rw [vals, vals, vals, holding, List.map_map, List.zip_map, List.map_map]
    exact List.map_congr_left fun p hp => (key p hp).2

theorem recent_holding (xs ys : List ℝ) (w i : ℕ) : recent ((xs.zip ys).map fun p => p.1 + p.2) w i =
    ((recent xs w i).zip (recent ys w i)).map fun p => p.1 + p.2 := by
  rw [recent, recent, recent, ← List.map_drop, ← List.map_take, List.zip_eq_zipWith, List.zip_eq_zipWith, List.drop_zipWith, List.take_zipWith]

end Traquer

namespace Traquer.Distribution
open FP FloatLit
variable (x y : List XF) (w : ℕ) (hl : y.length = x.length) (hw : 1 ≤ w) (hn : w ≤ x.length + 1) (hx : Fins x) (hy : Fins y)
include hl hw hn hx hy

theorem diversifies_of {f : List XF → ℕ → Option (List XF)} {V : List ℝ → ℝ}
    (hf : ∀ d : List XF, w ≤ d.length + 1 → Fins d → Reports d.length (w - 1) (fun i => V (recent (vals d) w i)) (f d w))
    (hV : ∀ xs ys : List ℝ, ys.length = xs.length → |V xs - V ys| ≤ V ((xs.zip ys).map fun p => p.1 + p.2) ∧
      V ((xs.zip ys).map fun p => p.1 + p.2) ≤ V xs + V ys) :
    Diversifies x.length (w - 1) (f x w) (f y w) (f (holding x y) w) := by
  obtain ⟨fz, ez⟩ := holding_vals hx hy
  have lz : (holding x y).length = x.length := by simp [holding, hl]
  have h1 := hf x hn hx
  have h2 := hf y (by omega) hy
  have h3 := hf (holding x y) (by omega) fz
  rw [hl] at h2
  rw [lz, ez] at h3
  refine ⟨_, _, _, h1, h2, h3, fun i g1 g2 => ?_⟩
  rw [recent_holding]
  exact hV _ _ (by rw [recent_length (by omega) (by simp; omega), recent_length (by omega) (by simp; omega)])

/-- C131: `std_dev`. -/
theorem std_dev_holding : Diversifies x.length (w - 1) (std_dev x w) (std_dev y w) (std_dev (holding x y) w) :=
  diversifies_of x y w hl hw hn hx hy (fun d h1 h2 => std_dev_reports d w hw h1 h2) fun _ _ h => stdDev_holding h

/-- C131: `mad`. -/
theorem mad_holding : Diversifies x.length (w - 1) (mad x w) (mad y w) (mad (holding x y) w) :=
  diversifies_of x y w hl hw hn hx hy (fun d h1 h2 => mad_reports d w hw h1 h2) fun _ _ h => meanAbsDev_holding h

/-- C131: `variance` and `pcc`. Where neither window is constant, `pcc` reports a number `r` and the variance of the holding is
`a + b + 2 r √a √b`. -/
theorem variance_holding : ∃ a b c out, Reports x.length (w - 1) a (variance x w) ∧ Reports x.length (w - 1) b (variance y w) ∧
    Reports x.length (w - 1) c (variance (holding x y) w) ∧ Correlation.pcc x y w = some out ∧
    ∀ i, w - 1 ≤ i → i < x.length → ¬ Flat (recent (vals x) w i) → ¬ Flat (recent (vals y) w i) →
      ∃ z r, out[i]? = some z ∧ z ⇓ r ∧ c i = a i + b i + 2 * r * (√(a i) * √(b i)) := by
  obtain ⟨fz, ez⟩ := holding_vals hx hy
  have lz : (holding x y).length = x.length := by simp [holding, hl]
  have h1 := variance_reports x w hw hn hx
  have h2 := variance_reports y w hw (by omega) hy
  have h3 := variance_reports (holding x y) w hw (by omega) fz
  rw [hl] at h2
  rw [lz, ez] at h3
  obtain ⟨out, eo, -, -, ho⟩ := Correlation.pcc_reports x y w hl hw hn hx hy
  refine ⟨_, _, _, out, h1, h2, h3, eo, fun i g1 g2 f1 f2 => ?_⟩
  obtain ⟨z, hz, c1, -⟩ := ho i g1 g2
  refine ⟨z, _, hz, c1 f1 f2, ?_⟩
  have lw : (recent (vals y) w i).length = (recent (vals x) w i).length := by
    rw [recent_length (by omega) (by simp; omega), recent_length (by omega) (by simp; omega)]
  rw [recent_holding, moment_holding lw, pearson]
  have s1 : 0 < stdDev (recent (vals x) w i) := stdDev_pos f1
  have s2 : 0 < stdDev (recent (vals y) w i) := stdDev_pos f2
  rw [← stdDev, ← stdDev, mul_assoc, div_mul_cancel₀ _ (mul_pos s1 s2).ne']

end Traquer.Distribution

namespace Traquer
open FP
example := Distribution.std_dev_holding ([1, 5, 2, 9].map fin) ([4, 4, 8, 1].map fin) 3 (by simp) (by decide) (by simp) (fins_map_fin _) (fins_map_fin _)
example := Distribution.variance_holding ([1, 5, 2, 9].map fin) ([4, 4, 8, 1].map fin) 3 (by simp) (by decide) (by simp) (fins_map_fin _) (fins_map_fin _)
example := Distribution.mad_holding ([1, 5, 2, 9].map fin) ([4, 4, 8, 1].map fin) 3 (by simp) (by decide) (by simp) (fins_map_fin _) (fins_map_fin _)
end Traquer
