import Verif.Lemmas.Cauchy
import Verif.Lemmas.Items
import Verif.Props.ShapeStats
import Verif.Props.RankModes
/-!
# C43: Pearson's and Spearman's correlation
-/

namespace Traquer
open FP FloatLit

namespace FP
variable {ρ : Rounding}

theorem mul_comm' (x y : FP ρ) : x * y = y * x := by
  show FP.mul x y = FP.mul y x
  cases x <;> cases y <;> simp [FP.mul, mul_comm, bne_comm, FP.sgn]
end FP

theorem CorrIs.inRange {xs ys : List ℝ} {y : XF} (h : CorrIs xs ys y) (hl : ys.length = xs.length) : InRange (-1) 1 y := by
  by_cases hx : Flat xs
  · exact .inl (h.2 (.inl hx))
  by_cases hy : Flat ys
  · exact .inl (h.2 (.inr hy))
  exact .inr ⟨_, h.1 hx hy, pearson_range hl⟩

theorem CorrIs.symm {xs ys : List ℝ} {y : XF} (h : CorrIs xs ys y) : CorrIs ys xs y :=
  ⟨fun h1 h2 => pearson_symm xs ys ▸ h.1 h2 h1, fun h1 => h.2 h1.symm⟩

/-- A quotient that is a positive multiple of covariance over the product of the deviations. -/
theorem corrIs_of_quot {xs ys : List ℝ} {y : XF} {c : ℝ} (hl : ys.length = xs.length) (hc : 0 < c)
    (h : QuotIs (c * covar xs ys) (c * (stdDev xs * stdDev ys)) y) : CorrIs xs ys y := by
  refine ⟨fun h1 h2 => ?_, fun hf => ?_⟩
  · have p1 := stdDev_pos h1
    have p2 := stdDev_pos h2
    refine (h.1 (by positivity)).congr ?_
    rw [pearson, mul_div_mul_left _ _ hc.ne']
  · refine h.2.1 ?_ (by rw [covar_flat hl hf, mul_zero])
    rcases hf with hf | hf
    · rw [stdDev_eq_zero.2 hf]; ring
    · rw [stdDev_eq_zero.2 hf]; ring

end Traquer

namespace Traquer.Correlation
open FP FloatLit

section
variable {F : Type} [FloatOps F]

theorem pccFold (l : List (F × F)) (a b c d e : F) :
    l.foldl (fun s (p : F × F) => PccSums.mk (s.xy + p.1 * p.2) (s.x + p.1) (s.y + p.2) (s.x2 + p.1 * p.1)
      (s.y2 + p.2 * p.2)) { xy := a, x := b, y := c, x2 := d, y2 := e } =
    { xy := l.foldl (fun s p => s + p.1 * p.2) a, x := l.foldl (fun s p => s + p.1) b, y := l.foldl (fun s p => s + p.2) c,
      x2 := l.foldl (fun s p => s + p.1 * p.1) d, y2 := l.foldl (fun s p => s + p.2 * p.2) e } := by
  induction l generalizing a b c d e with
  | nil => rfl
  | cons p l ih => simp only [List.foldl_cons, ih]
end

theorem zip_mem {α β : Type} {a : List α} {b : List β} {p : α × β} (h : p ∈ a.zip b) : p.1 ∈ a ∧ p.2 ∈ b := by
  obtain ⟨x, y⟩ := p
  exact List.of_mem_zip h

theorem zip_vals {ρ : Rounding} (xw yw : List (FP ρ)) : (vals xw).zip (vals yw) = (xw.zip yw).map fun p => (p.1.val, p.2.val) := by
  rw [vals, vals, List.zip_map]; rfl

theorem pccWin_corrIs {xw yw : List XF} {w : ℕ} (hx : Fins xw) (hy : Fins yw) (lx : xw.length = w) (ly : yw.length = w) (hw : 1 ≤ w) :
    CorrIs (vals xw) (vals yw) (pccWin w xw yw) := by
  have hl : (vals yw).length = (vals xw).length := by simp [lx, ly]
  have fx : ∀ p ∈ xw.zip yw, p.1 ⇓ p.1.val := fun p hp => (hx _ (zip_mem hp).1).is
  have fy : ∀ p ∈ xw.zip yw, p.2 ⇓ p.2.val := fun p hp => (hy _ (zip_mem hp).2).is
  have e1 : ∀ g : ℝ → ℝ → ℝ, ((xw.zip yw).map fun p => g p.1.val p.2.val) = ((vals xw).zip (vals yw)).map fun p => g p.1 p.2 := fun g => by
    rw [zip_vals, List.map_map]; rfl
  have sxy := (foldl_add_is (t := fun p : XF × XF => p.1 * p.2) (v := fun p => p.1.val * p.2.val) is_zero
    (fun p hp => is_mul (fx p hp) (fy p hp))).congr (b := (((vals xw).zip (vals yw)).map fun p => p.1 * p.2).sum) (by
      rw [zero_add, e1 fun a b => a * b])
  have sx := (foldl_add_is (t := fun p : XF × XF => p.1) (v := fun p => p.1.val) is_zero (fun p hp => fx p hp)).congr
    (b := (vals xw).sum) (by rw [zero_add, e1 fun a _ => a, zip_fst hl])
  have sy := (foldl_add_is (t := fun p : XF × XF => p.2) (v := fun p => p.2.val) is_zero (fun p hp => fy p hp)).congr
    (b := (vals yw).sum) (by rw [zero_add, e1 fun _ b => b, zip_snd hl])
  have sx2 := (foldl_add_is (t := fun p : XF × XF => p.1 * p.1) (v := fun p => p.1.val * p.1.val) is_zero
    (fun p hp => is_mul (fx p hp) (fx p hp))).congr (b := ((vals xw).map fun x => x ^ 2).sum) (by
      rw [zero_add, e1 fun a _ => a * a, map_zip_fst hl fun x => x * x]; simp only [pow_two])
  have sy2 := (foldl_add_is (t := fun p : XF × XF => p.2 * p.2) (v := fun p => p.2.val * p.2.val) is_zero
    (fun p hp => is_mul (fy p hp) (fy p hp))).congr (b := ((vals yw).map fun x => x ^ 2).sum) (by
      rw [zero_add, e1 fun _ b => b * b, map_zip_snd hl fun x => x * x]; simp only [pow_two])
  have hw0 : (0 : ℝ) < w := by exact_mod_cast hw
  have vx : (w : ℝ) * ((vals xw).map fun x => x ^ 2).sum - (vals xw).sum * (vals xw).sum = (w : ℝ) ^ 2 * moment 2 (vals xw) := by
    have := moment_two_eq (vals xw)
    rw [vals_length, lx] at this
    rw [this]; ring
  have vy : (w : ℝ) * ((vals yw).map fun x => x ^ 2).sum - (vals yw).sum * (vals yw).sum = (w : ℝ) ^ 2 * moment 2 (vals yw) := by
    have := moment_two_eq (vals yw)
    rw [vals_length, ly] at this
    rw [this]; ring
  have cxy := covar_eq hl
  rw [vals_length, lx] at cxy
  have m2 : ∀ l : List ℝ, Real.sqrt ((w : ℝ) ^ 2 * moment 2 l) = w * stdDev l := fun l => by
    rw [Real.sqrt_mul (sq_nonneg _), Real.sqrt_sq hw0.le]; rfl
  refine corrIs_of_quot (c := (w : ℝ) ^ 2) hl (by positivity) ?_
  simp only [pccWin, pccSums, pccFold]
  have hnum := is_sub (is_mul (is_flt w) sxy) (is_mul sx sy)
  rw [← cxy] at hnum
  have d1 := is_sub (is_mul (is_flt w) sx2) (is_mul sx sx)
  have d2 := is_sub (is_mul (is_flt w) sy2) (is_mul sy sy)
  rw [vx] at d1
  rw [vy] at d2
  have := is_mul (is_sqrt d1 (mul_nonneg (sq_nonneg _) (moment_two_nonneg _))) (is_sqrt d2 (mul_nonneg (sq_nonneg _) (moment_two_nonneg _)))
  rw [m2, m2] at this
  have q := quotIs hnum this
  rwa [show (w : ℝ) * stdDev (vals xw) * (w * stdDev (vals yw)) = (w : ℝ) ^ 2 * (stdDev (vals xw) * stdDev (vals yw)) by ring] at q

section
variable (s1 s2 : List XF) (w : ℕ) (h : s2.length = s1.length) (hw : 1 ≤ w) (hn : w ≤ s1.length + 1) (h1 : Fins s1) (h2 : Fins s2)
include h hw hn h1 h2

/-- C43: `pcc` is Pearson's correlation coefficient of the last `w` values, NaN if one of the two windows is constant. -/
theorem pcc_reports : ReportsP s1.length (w - 1) (fun i => CorrIs (recent (vals s1) w i) (recent (vals s2) w i)) (pcc s1 s2 w) := by
  run_model [pcc]
  refine reportsP_windows2 (P := fun i => CorrIs (recent (vals s1) w i) (recent (vals s2) w i)) hw h hn fun i hi hl => ?_
  rw [← recent_vals, ← recent_vals]
  exact pccWin_corrIs (h1.recent w i) (h2.recent w i) (recent_length hi hl) (recent_length hi (by omega)) hw

/-- C43: `pcc` is NaN or between -1 and 1. -/
theorem pcc_range : ReportsP s1.length (w - 1) (fun _ => InRange (-1) 1) (pcc s1 s2 w) :=
  (pcc_reports s1 s2 w h hw hn h1 h2).mono fun i y hi hl hy => hy.inRange (by
    rw [recent_length (by omega) (by simp; omega), recent_length (by omega) (by simp; omega)])

/-- C43: `rsq` is NaN or between 0 and 1. -/
theorem rsq_range : ReportsP s1.length (w - 1) (fun _ => InRange 0 1) (rsq s1 s2 w) := by
  obtain ⟨o, e, l, hn', hy⟩ := pcc_range s1 s2 w h hw hn h1 h2
  refine ⟨o.map fun x => x * x, by simp only [rsq, e, Option.bind_eq_bind, Option.bind_some], by simpa using l, fun i hi hl => ?_, fun i hi hl => ?_⟩
  · rw [List.getElem?_map, hn' i hi hl]; rfl
  · obtain ⟨y, ey, hy⟩ := hy i hi hl
    refine ⟨y * y, by rw [List.getElem?_map, ey]; rfl, ?_⟩
    rcases hy with rfl | ⟨r, hr, h1, h2⟩
    · exact .inl rfl
    · exact .inr ⟨_, is_mul hr hr, mul_self_nonneg r, by nlinarith⟩
end

/-- C43: an affine relation `s2 = c * s1 + d` gives 1 for `c > 0` and -1 for `c < 0`, on every window that is not constant. -/
theorem pcc_affine (s1 s2 : List XF) (w : ℕ) (hw : 1 ≤ w) (hn : w ≤ s1.length + 1) (h1 : Fins s1) (h2 : Fins s2)
    (c d : ℝ) (hc : c ≠ 0) (hr : vals s2 = (vals s1).map fun x => c * x + d) :
    ReportsP s1.length (w - 1) (fun i y => (¬ Flat (recent (vals s1) w i) → y ⇓ if 0 < c then 1 else -1) ∧
      (Flat (recent (vals s1) w i) → y = FP.nan)) (pcc s1 s2 w) := by
  have hl : s2.length = s1.length := by simpa using congrArg List.length hr
  refine (pcc_reports s1 s2 w hl hw hn h1 h2).mono fun i y hi hl hy => ⟨fun hf => ?_, fun hf => hy.2 (.inl hf)⟩
  rw [hr, recent_map] at hy
  have hf2 : ¬ Flat ((recent (vals s1) w i).map fun x => c * x + d) := fun hF => hf fun x hx y hy => by
    have := hF _ (List.mem_map.2 ⟨x, hx, rfl⟩) _ (List.mem_map.2 ⟨y, hy, rfl⟩)
    exact mul_left_cancel₀ hc (by linarith)
  refine (hy.1 hf hf2).congr ?_
  rw [pearson_affine hf hc]
  split
  · rename_i h; rw [abs_of_pos h, div_self hc]
  · rename_i h
    have : c < 0 := lt_of_le_of_ne (not_lt.1 h) hc
    rw [abs_of_neg this, div_neg, div_self hc]

/-! ## Symmetry, in every rounding -/

variable {ρ : Rounding}

theorem foldl_zip_swap {α β γ : Type} (f : γ → α → β → γ) (a : List α) (b : List β) (s : γ) :
    (a.zip b).foldl (fun s p => f s p.1 p.2) s = (b.zip a).foldl (fun s p => f s p.2 p.1) s := by
  rw [← List.zip_swap b a, List.foldl_map]
  rfl

theorem pccWin_symm (w : ℕ) (xw yw : List (FP ρ)) : pccWin w xw yw = pccWin w yw xw := by
  simp only [pccWin, pccSums, pccFold]
  rw [foldl_zip_swap (fun s x y => s + x * y) xw yw 0, foldl_zip_swap (fun s x _ => s + x) xw yw 0,
    foldl_zip_swap (fun s _ y => s + y) xw yw 0, foldl_zip_swap (fun s x _ => s + x * x) xw yw 0,
    foldl_zip_swap (fun s _ y => s + y * y) xw yw 0]
  have e : (fun (s : FP ρ) (p : FP ρ × FP ρ) => s + p.2 * p.1) = fun s p => s + p.1 * p.2 := by
    funext s p; rw [FP.mul_comm' p.1]
  rw [e]
  congr 1
  · congr 1
    exact FP.mul_comm' _ _
  · exact FP.mul_comm' _ _

theorem zip_map_symm {α γ : Type} {f : α → α → γ} (h : ∀ x y, f x y = f y x) (a b : List α) :
    (a.zip b).map (fun p => f p.1 p.2) = (b.zip a).map fun p => f p.1 p.2 := by
  rw [← List.zip_swap b a, List.map_map]
  exact List.map_congr_left fun p _ => h _ _

/-- C43: `pcc` is symmetric in its two series, bit for bit, for every input. -/
theorem pcc_symm (s1 s2 : List (FP ρ)) (w : ℕ) : pcc s1 s2 w = pcc s2 s1 w := by
  unfold pcc
  cases w with
  | zero => rfl
  | succ w =>
    simp only [windows_of_pos (Nat.succ_pos w), Option.bind_eq_bind, Option.bind_some]
    rw [zip_map_symm (f := fun x y => pccWin (w + 1) x y) (pccWin_symm _)]

theorem rsq_symm (s1 s2 : List (FP ρ)) (w : ℕ) : rsq s1 s2 w = rsq s2 s1 w := by
  rw [rsq, rsq, pcc_symm]

/-! ## Spearman -/

open Distribution in
theorem rank_ranksOf (srt : Sorter XF) (hs : srt.Valid) {xw : List XF} (hx : Fins xw) (hne : xw ≠ []) :
    ∃ r, rank srt xw none = some r ∧ Fins r ∧ vals r = ranksOf (vals xw) ∧ r.length = xw.length := by
  obtain ⟨r, e, l, h⟩ := rank_min srt hs xw (NoNaN.of_fins hx) hne none (.inl rfl)
  have hr : r = xw.map fun x => flt (numBelow xw x + 1) := by
    apply List.ext_getElem?
    intro i
    by_cases hi : i < xw.length
    · rw [h i _ (List.getElem?_eq_getElem hi)]; simp [hi]
    · rw [List.getElem?_eq_none (by omega), List.getElem?_eq_none (by simp; omega)]
  refine ⟨r, e, ?_, ?_, l⟩
  · intro y hy
    rw [hr] at hy
    obtain ⟨x, -, rfl⟩ := List.mem_map.1 hy
    exact (is_flt _).finite
  · rw [hr, ranksOf, vals, vals, List.map_map, List.map_map]
    refine List.map_congr_left fun x hx' => ?_
    have hv : ((flt (numBelow xw x + 1) : XF)).val = ((numBelow xw x + 1 : ℕ) : ℝ) := (is_flt _).val_eq
    simp only [Function.comp]
    rw [hv]
    push_cast
    congr 2
    rw [numBelow, List.countP_map]
    refine List.countP_congr fun y hy => ?_
    rw [is_lt (hx y hy).is (hx x hx').is]; rfl

open Distribution in
/-- The closing quotient of `srcc`, on two lists of finite numbers. -/
theorem cov_stdev_corrIs {rx ry : List XF} {w : ℕ} (hx : Fins rx) (hy : Fins ry) (lx : rx.length = w) (ly : ry.length = w) (hw : 1 ≤ w) :
    ∃ a b c, cov_stdev rx ry = some (a, b, c) ∧ CorrIs (vals rx) (vals ry) (a / (b * c)) := by
  have hl : (vals ry).length = (vals rx).length := by simp [lx, ly]
  have hw0 : (0 : ℝ) < w := by exact_mod_cast hw
  have sx : ∀ {l : List XF}, Fins l → l.length = w → l.foldl (fun acc x => acc + x) 0 / flt l.length ⇓ mean (vals l) := fun {l} hf hl => by
    have := foldl_add_is (t := fun x : XF => x) (v := val) is_zero (fun x hx => (hf x hx).is)
    refine (is_div this (is_flt _) (by rw [hl]; positivity)).congr ?_
    rw [mean, vals_length, zero_add]; rfl
  have cxy := foldl_add_is (l := rx.zip ry) (t := fun p : XF × XF => (p.1 - rx.foldl (fun acc x => acc + x) 0 / flt rx.length) *
      (p.2 - ry.foldl (fun acc x => acc + x) 0 / flt ry.length))
    (v := fun p => (p.1.val - mean (vals rx)) * (p.2.val - mean (vals ry))) is_zero
    (fun p hp => is_mul (is_sub (hx _ (zip_mem hp).1).is (sx hx lx)) (is_sub (hy _ (zip_mem hp).2).is (sx hy ly)))
  have ce : (0 : ℝ) + ((rx.zip ry).map fun p => (p.1.val - mean (vals rx)) * (p.2.val - mean (vals ry))).sum = w * covar (vals rx) (vals ry) := by
    rw [zero_add, covar, mean_of_length (l := List.map _ ((vals rx).zip (vals ry))) (w := w) (by simp [lx, ly]), zip_vals, List.map_map]
    field_simp
    rfl
  rw [ce] at cxy
  have px := powDev_is hx (sx hx lx) 2
  have py := powDev_is hy (sx hy ly) 2
  have me : ∀ {l : List XF}, l.length = w → ((vals l).map fun x => (x - mean (vals l)) ^ 2).sum = w * moment 2 (vals l) := fun {l} hl => by
    rw [moment, mean_of_length (l := List.map _ (vals l)) (w := w) (by simp [hl])]
    field_simp
  rw [me lx] at px
  rw [me ly] at py
  refine ⟨_, _, _, by run_model [cov_stdev]; rfl, ?_⟩
  rcases Nat.eq_or_lt_of_le hw with rfl | hw2
  · have hf : Flat (vals rx) := by
      match rx, lx with
      | [x], _ => intro a ha b hb; simp at ha hb; rw [ha, hb]
    have c0 := covar_flat hl (.inl hf)
    have : ∀ x y : XF, x ⇓ 0 → y ⇓ 0 → x / y = FP.nan := fun x y hx hy => (quotIs hx hy).2.1 rfl rfl
    rw [this _ _ (cxy.congr (by rw [c0, mul_zero])) ((is_flt _).congr (by rw [lx]; simp))]
    exact ⟨fun h => absurd hf h, fun _ => rfl⟩
  · have hw1 : (0 : ℝ) < (w - 1 : ℕ) := by exact_mod_cast (by omega : 0 < w - 1)
    have n1 : (flt (rx.length - 1) : XF) ⇓ ((w - 1 : ℕ) : ℝ) := (is_flt _).congr (by rw [lx])
    have n2 : (flt (ry.length - 1) : XF) ⇓ ((w - 1 : ℕ) : ℝ) := (is_flt _).congr (by rw [ly])
    have q1 := is_div cxy n1 hw1.ne'
    have q2 := is_sqrt (is_div px n1 hw1.ne') (div_nonneg (mul_nonneg hw0.le (moment_two_nonneg _)) hw1.le)
    have q3 := is_sqrt (is_div py n2 hw1.ne') (div_nonneg (mul_nonneg hw0.le (moment_two_nonneg _)) hw1.le)
    have hc : (0 : ℝ) < w / (w - 1 : ℕ) := by positivity
    refine corrIs_of_quot (c := (w : ℝ) / (w - 1 : ℕ)) hl hc ?_
    have := quotIs q1 (is_mul q2 q3)
    have e : ∀ l : List ℝ, Real.sqrt (w * moment 2 l / (w - 1 : ℕ)) = Real.sqrt (w / (w - 1 : ℕ)) * stdDev l := fun l => by
      rw [stdDev, ← Real.sqrt_mul hc.le]; congr 1; ring
    rw [e, e, show (w : ℝ) * covar (vals rx) (vals ry) / (w - 1 : ℕ) = w / (w - 1 : ℕ) * covar (vals rx) (vals ry) by ring,
      show Real.sqrt ((w : ℝ) / (w - 1 : ℕ)) * stdDev (vals rx) * (Real.sqrt (w / (w - 1 : ℕ)) * stdDev (vals ry)) =
        (Real.sqrt (w / (w - 1 : ℕ)) * Real.sqrt (w / (w - 1 : ℕ))) * (stdDev (vals rx) * stdDev (vals ry)) by ring,
      Real.mul_self_sqrt hc.le] at this
    exact this

open Distribution in
/-- C43: `srcc` is Pearson's correlation of the ranks of the last `w` values (equal values sharing the lowest rank of
their group), NaN if one of the windows is constant. It does not depend on how the unstable sort orders ties. -/
theorem srcc_reports (srt : Sorter XF) (hs : srt.Valid) (s1 s2 : List XF) (w : ℕ) (h : s2.length = s1.length) (hw : 1 ≤ w)
    (hn : w ≤ s1.length + 1) (h1 : Fins s1) (h2 : Fins s2) :
    ReportsP s1.length (w - 1) (fun i => CorrIs (ranksOf (recent (vals s1) w i)) (ranksOf (recent (vals s2) w i)))
      (srcc srt s1 s2 w) := by
  refine (srcc_aligned srt hs s1 s2 w h hw hn (NoNaN.of_fins h1) (NoNaN.of_fins h2)).reportsP ?_
  have it : Items s1.length (w - 1) (fun i y => CorrIs (ranksOf (recent (vals s1) w i)) (ranksOf (recent (vals s2) w i)) y)
      (srcc srt s1 s2 w) := by
    run_model [srcc]
    refine items_windows2 (d := FP.nan) hw h hn fun i hi hl => ?_
    have l1 : (recent s1 w i).length = w := recent_length hi hl
    have l2 : (recent s2 w i).length = w := recent_length hi (by omega)
    obtain ⟨rx, e1, f1, v1, m1⟩ := rank_ranksOf srt hs (h1.recent w i) (by intro e; rw [e] at l1; simp at l1; omega)
    obtain ⟨ry, e2, f2, v2, m2⟩ := rank_ranksOf srt hs (h2.recent w i) (by intro e; rw [e] at l2; simp at l2; omega)
    obtain ⟨a, b, c, e3, hc⟩ := cov_stdev_corrIs (w := w) f1 f2 (by omega) (by omega) hw
    refine ⟨a / (b * c), by simp only [e1, e2, e3, Option.bind_some], ?_⟩
    rw [← recent_vals, ← recent_vals, ← v1, ← v2]
    exact hc
  obtain ⟨o, e, l, hi⟩ := it
  intro out eo
  cases e.symm.trans eo
  exact hi

theorem ranksOf_eq {xs ys : List ℝ} (hl : ys.length = xs.length) (hm : ∀ (i j : ℕ) a b c d, xs[i]? = some a → xs[j]? = some b →
    ys[i]? = some c → ys[j]? = some d → (a < b ↔ c < d)) : ranksOf ys = ranksOf xs := by
  have key : ∀ (p q : ℝ → Bool), (∀ (i : ℕ) a c, xs[i]? = some a → ys[i]? = some c → p a = q c) → ys.countP q = xs.countP p := by
    clear hm
    intro p q
    induction xs generalizing ys with
    | nil => intro _; rw [List.length_eq_zero_iff.1 hl]; rfl
    | cons x xs ih =>
      cases ys with
      | nil => simp at hl
      | cons y ys =>
        intro hpq
        rw [List.countP_cons, List.countP_cons, ih (by simpa using hl) fun i a c ha hc => hpq (i + 1) a c (by simpa using ha) (by simpa using hc),
          hpq 0 x y rfl rfl]
  apply List.ext_getElem?
  intro i
  rw [ranksOf, ranksOf, List.getElem?_map, List.getElem?_map]
  by_cases hi : i < xs.length
  · have ex : xs[i]? = some xs[i] := List.getElem?_eq_getElem hi
    have ey : ys[i]? = some ys[i] := List.getElem?_eq_getElem (by omega)
    rw [ex, ey]
    simp only [Option.map_some]
    rw [key (fun y => decide (y < xs[i])) (fun y => decide (y < ys[i])) fun j a c ha hc => by
      have := hm j i a _ c _ ha ex hc ey
      simp [this]]
  · rw [List.getElem?_eq_none (by omega), List.getElem?_eq_none (by omega)]; rfl

section
variable (srt : Distribution.Sorter XF) (hs : srt.Valid) (s1 s2 : List XF) (w : ℕ) (h : s2.length = s1.length) (hw : 1 ≤ w)
  (hn : w ≤ s1.length + 1) (h1 : Fins s1) (h2 : Fins s2)
include hs h hw hn h1 h2

/-- C43: `srcc` is NaN or between -1 and 1. -/
theorem srcc_range : ReportsP s1.length (w - 1) (fun _ => InRange (-1) 1) (srcc srt s1 s2 w) :=
  (srcc_reports srt hs s1 s2 w h hw hn h1 h2).mono fun i y hi hl hy => hy.inRange (by
    rw [ranksOf, ranksOf, List.length_map, List.length_map, recent_length (by omega) (by simp; omega),
      recent_length (by omega) (by simp; omega)])

/-- C43: `srcc` is 1 wherever the two windows move in the same direction throughout (any strictly increasing relation). -/
theorem srcc_monotone (hm : ∀ (i j : ℕ) a b c d, (vals s1)[i]? = some a → (vals s1)[j]? = some b → (vals s2)[i]? = some c →
    (vals s2)[j]? = some d → (a < b ↔ c < d)) :
    ReportsP s1.length (w - 1) (fun i y => (¬ Flat (ranksOf (recent (vals s1) w i)) → y ⇓ 1) ∧
      (Flat (ranksOf (recent (vals s1) w i)) → y = FP.nan)) (srcc srt s1 s2 w) := by
  refine (srcc_reports srt hs s1 s2 w h hw hn h1 h2).mono fun i y hi hl hy => ?_
  have e : ranksOf (recent (vals s2) w i) = ranksOf (recent (vals s1) w i) := by
    refine ranksOf_eq (by rw [recent_length (by omega) (by simp; omega), recent_length (by omega) (by simp; omega)]) ?_
    intro j k a b c d ha hb hc hd
    have key : ∀ {l : List ℝ} {j : ℕ} {a : ℝ}, (recent l w i)[j]? = some a → l[i + 1 - w + j]? = some a := fun {l j a} h => by
      rw [recent] at h
      have hj : j < w := by
        have := (List.getElem?_eq_some_iff.1 h).1
        rw [List.length_take] at this
        omega
      rwa [List.getElem?_take_of_lt hj, List.getElem?_drop] at h
    exact hm _ _ a b c d (key ha) (key hb) (key hc) (key hd)
  rw [e] at hy
  refine ⟨fun hf => (hy.1 hf hf).congr ?_, fun hf => hy.2 (.inl hf)⟩
  have hp := stdDev_pos hf
  have e2 : moment 2 (ranksOf (recent (vals s1) w i)) = stdDev (ranksOf (recent (vals s1) w i)) * stdDev (ranksOf (recent (vals s1) w i)) :=
    (Real.mul_self_sqrt (moment_two_nonneg _)).symm
  rw [pearson, covar_self, e2]
  exact div_self (by positivity)
end

open Distribution in
theorem cov_stdev_symm (rx ry : List (FP ρ)) (hl : ry.length = rx.length) :
    (cov_stdev rx ry).map (fun t => t.1 / (t.2.1 * t.2.2)) = (cov_stdev ry rx).map fun t => t.1 / (t.2.1 * t.2.2) := by
  unfold cov_stdev
  rw [hl]
  cases usub rx.length 1 with
  | none => rfl
  | some n =>
    simp only [Option.bind_eq_bind, Option.bind_some, Option.map_some]
    rw [foldl_zip_swap (fun s x y => s + (x - rx.foldl (fun acc x => acc + x) 0 / flt rx.length) *
      (y - ry.foldl (fun acc x => acc + x) 0 / flt rx.length)) rx ry 0]
    have e : (fun (s : FP ρ) (p : FP ρ × FP ρ) => s + (p.2 - rx.foldl (fun acc x => acc + x) 0 / flt rx.length) *
        (p.1 - ry.foldl (fun acc x => acc + x) 0 / flt rx.length)) = fun s p => s +
        (p.1 - ry.foldl (fun acc x => acc + x) 0 / flt rx.length) * (p.2 - rx.foldl (fun acc x => acc + x) 0 / flt rx.length) := by
      funext s p; rw [FP.mul_comm' (p.2 - _)]
    rw [e, FP.mul_comm' (Traquer.sqrt _)]

theorem mapP_congr {α β : Type} {f g : α → Option β} {l : List α} (h : ∀ x ∈ l, f x = g x) : mapP f l = mapP g l := by
  induction l with
  | nil => rfl
  | cons x l ih => simp only [mapP, h x (by simp), ih fun y hy => h y (by simp [hy])]

theorem mapP_map {α β γ : Type} (f : β → Option γ) (g : α → β) (l : List α) : mapP f (l.map g) = mapP (fun x => f (g x)) l := by
  induction l with
  | nil => rfl
  | cons x l ih => simp only [List.map_cons, mapP, ih]

open Distribution in
/-- C43: `srcc` is symmetric in its two series, bit for bit. -/
theorem srcc_symm (srt : Sorter (FP ρ)) (hs : srt.Valid) (s1 s2 : List (FP ρ)) (w : ℕ) (h1 : NoNaN s1) (h2 : NoNaN s2) :
    srcc srt s1 s2 w = srcc srt s2 s1 w := by
  unfold srcc
  cases w with
  | zero => rfl
  | succ w =>
    simp only [windows_of_pos (Nat.succ_pos w), Option.bind_eq_bind, Option.bind_some]
    rw [← List.zip_swap (windowsOf (w + 1) s2) (windowsOf (w + 1) s1), mapP_map]
    rw [mapP_congr]
    rintro ⟨x, y⟩ hp
    obtain ⟨m1, m2⟩ := List.of_mem_zip hp
    have l1 := windowsOf_mem_length m1
    have l2 := windowsOf_mem_length m2
    obtain ⟨r1, e1, d1⟩ := rank_yields srt hs x none (sortPanics_of_noNaN (noNaN_window h2 m1)) (by rintro rfl; simp at l1)
    obtain ⟨r2, e2, d2⟩ := rank_yields srt hs y none (sortPanics_of_noNaN (noNaN_window h1 m2)) (by rintro rfl; simp at l2)
    simp only [Prod.swap, e1, e2, Option.bind_some]
    have := cov_stdev_symm r2 r1 (by omega)
    simpa only [Option.map_eq_bind, Function.comp_def] using this

/-- The hypotheses are met: rising and falling against a rising series. -/
example : ReportsP 4 2 (fun i y => (¬ Flat (recent [1, 3, 2, 5] 3 i) → y ⇓ if (0 : ℝ) < -2 then 1 else -1) ∧
    (Flat (recent [1, 3, 2, 5] 3 i) → y = FP.nan)) (pcc ([1, 3, 2, 5].map (fin (ρ := Rounding.exact))) ([5, 1, 3, -3].map fin) 3) := by
  have := pcc_affine ([1, 3, 2, 5].map (fin (ρ := Rounding.exact))) ([5, 1, 3, -3].map fin) 3 (by decide) (by simp) (fins_map_fin _) (fins_map_fin _)
    (-2) 7 (by norm_num) (by rw [vals_map_fin, vals_map_fin]; norm_num)
  rwa [vals_map_fin] at this

example : ¬ Flat (recent [1, 3, 2, 5] 3 2) := fun h => by
  have := h 1 (by simp [recent]) 3 (by simp [recent])
  norm_num at this

end Traquer.Correlation
