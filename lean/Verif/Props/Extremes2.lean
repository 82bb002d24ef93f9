import Verif.Props.Extremes
import Verif.Props.Bounds
/-!
# What an extreme reading means, continued (C100)

Ranges, money flow, standard scores, correlation and forecast errors.
-/

namespace Traquer
open FP

theorem bar_getElem? {l : List ℝ} {j : ℕ} (h : j < l.length) : l[j]? = some (bar l j) := by
  rw [bar, List.getD_eq_getElem?_getD, List.getElem?_eq_getElem h, Option.getD_some]

/-! ## Lists with an outlier, and collinear lists -/

theorem lastOf_snoc {v : ℕ → ℝ} {w i : ℕ} (hw : 2 ≤ w) (hi : w ≤ i + 1) : lastOf v w i = lastOf v (w - 1) (i - 1) ++ [v i] := by
  obtain ⟨k, rfl⟩ : ∃ k, w = k + 1 := ⟨w - 1, by omega⟩
  rw [lastOf, List.range_succ, List.map_append, lastOf, Nat.add_sub_cancel]
  congr 1
  · refine List.map_congr_left fun j _ => ?_
    congr 1; omega
  · simp only [List.map_cons, List.map_nil]
    congr 2; omega

/-- The last value is as far from the mean as the spread allows if and only if all other values are equal. -/
theorem outlier_iff {a : List ℝ} {x : ℝ} (ha : a ≠ []) : (x - mean (a ++ [x])) ^ 2 = a.length * moment 2 (a ++ [x]) ↔ Flat a := by
  have hk : (0 : ℝ) < a.length := by exact_mod_cast List.length_pos_iff.2 ha
  have hs := sum_deviations (l := a ++ [x])
  have hm := moment_sum (l := a ++ [x]) (by simp) 2
  generalize hμ : mean (a ++ [x]) = μ at *
  generalize moment 2 (a ++ [x]) = S at *
  rw [List.map_map, List.map_append, List.sum_append] at hm
  rw [List.map_append, List.sum_append] at hs
  simp only [Function.comp_apply, List.map_cons, List.map_nil, List.sum_cons, List.sum_nil, add_zero, List.length_append, List.length_cons,
    List.length_nil, Nat.cast_add, Nat.cast_one, zero_add] at hm hs
  rw [show ((fun d : ℝ => d ^ 2) ∘ fun x => x - μ) = fun x => (x - μ) ^ 2 from rfl] at hm
  have e : (a.map fun y => (y - (μ - (x - μ) / a.length)) ^ 2).sum =
      (a.length + 1) * S - (x - μ) ^ 2 * ((a.length + 1) / a.length) := by
    rw [show (fun y => (y - (μ - (x - μ) / a.length)) ^ 2) = fun y => ((y - μ) ^ 2 + 2 * ((x - μ) / a.length) * (y - μ)) + ((x - μ) / a.length) ^ 2 by
        funext y; ring, sum_map_add' a (fun y => (y - μ) ^ 2 + 2 * ((x - μ) / a.length) * (y - μ)), sum_map_const,
      sum_map_add' a (fun y => (y - μ) ^ 2), sum_map_mul a _ (fun y => y - μ)]
    rw [show (a.map fun y => (y - μ) ^ 2).sum = (a.length + 1) * S - (x - μ) ^ 2 by linarith, show (a.map fun y => y - μ).sum = -(x - μ) by linarith]
    field_simp
    ring
  constructor
  · intro h
    have h0 : (a.map fun y => (y - (μ - (x - μ) / a.length)) ^ 2).sum = 0 := by
      rw [e, h]; field_simp; ring
    rw [sum_zero_iff fun z hz => by obtain ⟨y, -, rfl⟩ := List.mem_map.1 hz; exact sq_nonneg _] at h0
    intro y hy z hz
    have hy := pow_eq_zero_iff (n := 2) (by norm_num) |>.1 (h0 _ (List.mem_map.2 ⟨y, hy, rfl⟩))
    have hz := pow_eq_zero_iff (n := 2) (by norm_num) |>.1 (h0 _ (List.mem_map.2 ⟨z, hz, rfl⟩))
    linarith
  · intro h
    obtain ⟨c, hc⟩ : ∃ c, ∀ y ∈ a, y = c := ⟨mean a, fun y hy => (h.eq_mean hy).symm⟩
    have hd : (a.map fun y => y - μ).sum = a.length * (c - μ) := by
      rw [← sum_map_const a (c - μ), List.map_congr_left (f := fun y => y - μ) (g := fun _ => c - μ) fun y hy => by rw [hc y hy]]
    have h0 : (a.map fun y => (y - (μ - (x - μ) / a.length)) ^ 2).sum = 0 := by
      refine List.sum_eq_zero fun z hz => ?_
      obtain ⟨y, hy, rfl⟩ := List.mem_map.1 hz
      rw [hd] at hs
      have : c - μ = -((x - μ) / a.length) := by field_simp; linarith
      rw [hc y hy, show c - (μ - (x - μ) / a.length) = (c - μ) + (x - μ) / a.length by ring, this]; ring
    rw [h0] at e
    have h1 : (x - μ) ^ 2 * ((a.length + 1) / a.length) = (a.length + 1) * S := by linarith
    rw [mul_div_assoc', div_eq_iff hk.ne'] at h1
    have : ((a.length : ℝ) + 1) * ((x - μ) ^ 2 - a.length * S) = 0 := by linarith
    rcases mul_eq_zero.1 this with h2 | h2 <;> linarith

theorem pearson_one_iff {xs ys : List ℝ} (h : ys.length = xs.length) (hx : ¬ Flat xs) (hy : ¬ Flat ys) :
    pearson xs ys = 1 ↔ ∃ c d : ℝ, 0 < c ∧ ys = xs.map fun x => c * x + d := by
  have p1 := stdDev_pos hx
  have p2 := stdDev_pos hy
  constructor
  · intro hp
    rw [pearson, div_eq_one_iff_eq (by positivity)] at hp
    have hn : xs ≠ [] := fun e => hx (e ▸ Flat.nil)
    have hn' : (0 : ℝ) < xs.length := by exact_mod_cast List.length_pos_iff.2 hn
    have hny : ys ≠ [] := fun e => hy (e ▸ Flat.nil)
    have m1 : moment 2 xs = stdDev xs ^ 2 := (Real.sq_sqrt (moment_two_nonneg _)).symm
    have m2 : moment 2 ys = stdDev ys ^ 2 := (Real.sq_sqrt (moment_two_nonneg _)).symm
    have s1 : ((xs.zip ys).map fun p => (p.1 - mean xs) ^ 2).sum = xs.length * stdDev xs ^ 2 := by
      rw [map_zip_fst h fun x => (x - mean xs) ^ 2, ← m1, ← moment_sum hn 2, List.map_map]; rfl
    have s2 : ((xs.zip ys).map fun p => (p.2 - mean ys) ^ 2).sum = xs.length * stdDev ys ^ 2 := by
      rw [map_zip_snd h fun x => (x - mean ys) ^ 2, ← m2, ← h, ← moment_sum hny 2, List.map_map]; rfl
    have s3 : ((xs.zip ys).map fun p => (p.1 - mean xs) * (p.2 - mean ys)).sum = xs.length * (stdDev xs * stdDev ys) := by
      have := hp
      rw [covar, mean_of_length (w := xs.length) (by simp [h]), div_eq_iff hn'.ne'] at this
      rw [this]; ring
    have h0 : ((xs.zip ys).map fun p => ((p.2 - mean ys) * stdDev xs - (p.1 - mean xs) * stdDev ys) ^ 2).sum = 0 := by
      rw [show (fun p : ℝ × ℝ => ((p.2 - mean ys) * stdDev xs - (p.1 - mean xs) * stdDev ys) ^ 2) = fun p =>
          (stdDev xs ^ 2 * (p.2 - mean ys) ^ 2 + stdDev ys ^ 2 * (p.1 - mean xs) ^ 2) + (-2 * stdDev xs * stdDev ys) * ((p.1 - mean xs) * (p.2 - mean ys)) by
          funext p; ring, sum_map_add' _ (fun p : ℝ × ℝ => stdDev xs ^ 2 * (p.2 - mean ys) ^ 2 + stdDev ys ^ 2 * (p.1 - mean xs) ^ 2),
        sum_map_add' _ (fun p : ℝ × ℝ => stdDev xs ^ 2 * (p.2 - mean ys) ^ 2), sum_map_mul _ _ (fun p : ℝ × ℝ => (p.2 - mean ys) ^ 2),
        sum_map_mul _ _ (fun p : ℝ × ℝ => (p.1 - mean xs) ^ 2), sum_map_mul _ _ (fun p : ℝ × ℝ => (p.1 - mean xs) * (p.2 - mean ys)), s1, s2, s3]
      ring
    rw [sum_zero_iff fun z hz => by obtain ⟨y, -, rfl⟩ := List.mem_map.1 hz; exact sq_nonneg _] at h0
    refine ⟨stdDev ys / stdDev xs, mean ys - stdDev ys / stdDev xs * mean xs, by positivity, ?_⟩
    rw [← map_zip_fst h]
    refine (zip_snd h).symm.trans (List.map_congr_left fun p hp => ?_)
    have := pow_eq_zero_iff (n := 2) (by norm_num) |>.1 (h0 _ (List.mem_map.2 ⟨p, hp, rfl⟩))
    field_simp
    linarith
  · rintro ⟨c, d, hc, rfl⟩
    rw [pearson_affine hx hc.ne', abs_of_pos hc, div_self hc.ne']

theorem pearson_neg {xs ys : List ℝ} (h : ys.length = xs.length) (hy : ys ≠ []) : pearson xs (ys.map fun y => -y) = -pearson xs ys := by
  have hm : mean (ys.map fun y => -y) = -mean ys := by
    have := mean_mul ys (-1)
    simpa using this
  have hs : stdDev (ys.map fun y => -y) = stdDev ys := by
    have := moment_two_affine ys (-1) 0
    simp only [neg_mul, one_mul, add_zero] at this
    rw [stdDev, this, stdDev]; norm_num
  rw [pearson, pearson, hs, ← neg_div]
  congr 1
  have he := mean_mul ((xs.zip ys).map fun p => (p.1 - mean xs) * (p.2 - mean ys)) (-1)
  rw [neg_one_mul, List.map_map] at he
  rw [covar, covar, hm, List.zip_map_right, List.map_map, ← he]
  congr 1
  refine List.map_congr_left fun p _ => ?_
  simp only [Function.comp_apply, Prod.map_fst, Prod.map_snd, id_eq]
  ring

theorem pearson_minus_one_iff {xs ys : List ℝ} (h : ys.length = xs.length) (hx : ¬ Flat xs) (hy : ¬ Flat ys) :
    pearson xs ys = -1 ↔ ∃ c d : ℝ, c < 0 ∧ ys = xs.map fun x => c * x + d := by
  have hny : ys ≠ [] := fun e => hy (e ▸ Flat.nil)
  have hf : ¬ Flat (ys.map fun y => -y) := fun hF => hy fun a ha b hb => by
    have := hF _ (List.mem_map.2 ⟨a, ha, rfl⟩) _ (List.mem_map.2 ⟨b, hb, rfl⟩)
    linarith
  have := pearson_one_iff (xs := xs) (ys := ys.map fun y => -y) (by simpa using h) hx hf
  rw [pearson_neg h hny] at this
  rw [show pearson xs ys = -1 ↔ -pearson xs ys = 1 from ⟨fun h => by linarith, fun h => by linarith⟩, this]
  constructor
  · rintro ⟨c, d, hc, e⟩
    refine ⟨-c, -d, by linarith, ?_⟩
    have := congrArg (List.map fun y => -y) e
    rw [List.map_map, List.map_map] at this
    simp only [Function.comp_def, neg_neg, List.map_id'] at this
    rw [this]
    exact List.map_congr_left fun x _ => by ring
  · rintro ⟨c, d, hc, e⟩
    refine ⟨-c, -d, by linarith, ?_⟩
    rw [e, List.map_map]
    exact List.map_congr_left fun x _ => by simp only [Function.comp_apply]; ring

namespace Distribution

section
variable (data : List XF) {w i : ℕ}

private theorem zscore_outlier (hw : 2 ≤ w) (hn : w ≤ data.length + 1) (hd : Fins data) (h1 : w ≤ i + 1) (h2 : i < data.length) {v : ℝ}
    (hv : v ^ 2 = w - 1) (hv0 : v ≠ 0) : Shows i (zscore data w) v ↔
      ∃ c, 0 < v * (bar (vals data) i - c) ∧ ∀ j, i + 1 - w ≤ j → j < i → bar (vals data) j = c := by
  set l := recent (vals data) w i with hl
  have h2' : i < (vals data).length := by rw [vals_length]; exact h2
  have el : l = lastOf (bar (vals data)) (w - 1) (i - 1) ++ [bar (vals data) i] := by
    rw [hl, ← lastOf_bar h1 h2', lastOf_snoc hw h1]
  set a := lastOf (bar (vals data)) (w - 1) (i - 1) with ha
  have hal : a.length = w - 1 := by simp [ha, lastOf]
  have hane : a ≠ [] := fun e => by rw [e] at hal; simp at hal; omega
  have hac : (a.length : ℝ) = w - 1 := by rw [hal, Nat.cast_sub (by omega), Nat.cast_one]
  have hw' : (2 : ℝ) ≤ w := by exact_mod_cast hw
  have key := outlier_iff (a := a) (x := bar (vals data) i) hane
  rw [← el, hac] at key
  have hfa : ∀ c, (∀ j, i + 1 - w ≤ j → j < i → bar (vals data) j = c) ↔ ∀ y ∈ a, y = c := fun c => by
    constructor
    · intro h y hy
      obtain ⟨j, h3, h4, rfl⟩ := (mem_lastOf (by omega)).1 hy
      exact h j (by omega) (by omega)
    · intro h j h3 h4
      exact h _ ((mem_lastOf (by omega)).2 ⟨j, by omega, by omega, rfl⟩)
  -- the distance of the newest value from the mean, if the others are equal
  have dist : ∀ c, (∀ y ∈ a, y = c) → bar (vals data) i - mean l = (w - 1) / w * (bar (vals data) i - c) := fun c hc => by
    have : l.sum = (w - 1) * c + bar (vals data) i := by
      have : a.sum = a.length * c := by
        rw [← sum_map_const a c, List.map_congr_left (f := fun _ => c) (g := id) fun y hy => (hc y hy).symm, List.map_id]
      rw [el, List.sum_append, this, hac]; simp
    rw [mean_of_length (w := w) (by rw [hl, recent_length h1 h2']), this]
    field_simp
    ring
  by_cases hf : Flat l
  · rw [(zscore_reports data w (by omega) hn hd).shows_iff (Q := False) (by omega) h2 fun y hy => by
      rw [hy.2 hf]; simp [nan_not_is]]
    rw [false_iff]
    rintro ⟨c, hc, hj⟩
    have : bar (vals data) i = c := by
      have hm : a.head hane ∈ a := List.head_mem hane
      rw [← (hfa c).1 hj _ hm]
      exact hf _ (by rw [el]; simp) _ (by rw [el]; simp [hm])
    rw [this] at hc; simp at hc
  · have hp := stdDev_pos hf
    have hm : moment 2 l = stdDev l ^ 2 := (Real.sq_sqrt (moment_two_nonneg _)).symm
    rw [(zscore_reports data w (by omega) hn hd).shows_iff (Q := (bar (vals data) i - mean l) / stdDev l = v) (by omega) h2 fun y hy =>
      is_iff_eq (hy.1 hf _ (bar_getElem? h2')), div_eq_iff hp.ne']
    constructor
    · intro h
      have hF : Flat a := key.1 (by rw [h, hm, mul_pow, hv])
      refine ⟨mean a, ?_, (hfa _).2 fun y hy => (hF.eq_mean hy).symm⟩
      have hd := dist _ fun y hy => (hF.eq_mean hy).symm
      have h0 : 0 < v * (bar (vals data) i - mean l) := by rw [h]; nlinarith [sq_pos_of_ne_zero hv0]
      rw [hd] at h0
      have hpos : 0 < ((w : ℝ) - 1) / w := div_pos (by linarith) (by linarith)
      by_contra hc
      nlinarith [mul_nonneg hpos.le (neg_nonneg.2 (not_lt.1 hc))]
    · rintro ⟨c, hc, hj⟩
      have hac' := (hfa c).1 hj
      have hF : Flat a := fun y hy z hz => by rw [hac' y hy, hac' z hz]
      have h3 := key.2 hF
      have hd := dist c hac'
      have hpos : 0 < ((w : ℝ) - 1) / w := div_pos (by linarith) (by linarith)
      have h0 : 0 < v * (bar (vals data) i - mean l) := by
        rw [hd]; nlinarith [mul_pos hpos hc]
      rw [hm, ← hv, ← mul_pow] at h3
      rcases sq_eq_sq_iff_eq_or_eq_neg.1 h3 with h4 | h4
      · exact h4
      · exfalso
        rw [h4] at h0
        nlinarith [sq_nonneg v]

/-- C100: `zscore` reaches `√(w - 1)`, the largest value it can take, exactly when the other values of the window are equal and the newest is above them. -/
theorem zscore_largest (hw : 2 ≤ w) (hn : w ≤ data.length + 1) (hd : Fins data) (h1 : w ≤ i + 1) (h2 : i < data.length) :
    Shows i (zscore data w) √((w : ℝ) - 1) ↔ ∃ c, c < bar (vals data) i ∧ ∀ j, i + 1 - w ≤ j → j < i → bar (vals data) j = c := by
  have hw' : (2 : ℝ) ≤ w := by exact_mod_cast hw
  have hp : 0 < √((w : ℝ) - 1) := Real.sqrt_pos.2 (by linarith)
  rw [zscore_outlier data hw hn hd h1 h2 (Real.sq_sqrt (by linarith)) hp.ne']
  exact exists_congr fun c => and_congr_left fun _ => by rw [mul_pos_iff_of_pos_left hp, sub_pos]

/-- C100: `zscore` reaches `-√(w - 1)`, the smallest value it can take, exactly when the other values of the window are equal and the newest is below them. -/
theorem zscore_smallest (hw : 2 ≤ w) (hn : w ≤ data.length + 1) (hd : Fins data) (h1 : w ≤ i + 1) (h2 : i < data.length) :
    Shows i (zscore data w) (-√((w : ℝ) - 1)) ↔ ∃ c, bar (vals data) i < c ∧ ∀ j, i + 1 - w ≤ j → j < i → bar (vals data) j = c := by
  have hw' : (2 : ℝ) ≤ w := by exact_mod_cast hw
  have hp : 0 < √((w : ℝ) - 1) := Real.sqrt_pos.2 (by linarith)
  rw [zscore_outlier data hw hn hd h1 h2 (by rw [neg_sq, Real.sq_sqrt (by linarith)]) (neg_ne_zero.2 hp.ne')]
  refine exists_congr fun c => and_congr_left fun _ => ?_
  rw [neg_mul, ← mul_neg, mul_pos_iff_of_pos_left hp, neg_sub, sub_pos]
end
end Distribution

namespace Correlation
section
variable (s1 s2 : List XF) {w i : ℕ}

private theorem collinear_iff (h : s2.length = s1.length) (h1 : w ≤ i + 1) (h2 : i < s1.length) {c d : ℝ} :
    (recent (vals s2) w i = (recent (vals s1) w i).map fun x => c * x + d) ↔
      ∀ j, i + 1 - w ≤ j → j ≤ i → bar (vals s2) j = c * bar (vals s1) j + d := by
  rw [← lastOf_bar h1 (by rw [vals_length]; omega), ← lastOf_bar h1 (by rw [vals_length]; omega), lastOf, lastOf, List.map_map]
  constructor
  · intro e j h3 h4
    have := List.map_inj_left.1 e (j - (i + 1 - w)) (List.mem_range.2 (by omega))
    simp only [Function.comp_apply] at this
    rwa [show i + 1 - w + (j - (i + 1 - w)) = j by omega] at this
  · intro e
    refine List.map_congr_left fun j hj => ?_
    have := List.mem_range.1 hj
    exact e _ (by omega) (by omega)

theorem flat_recent_iff {l : List ℝ} {w i : ℕ} (h1 : w ≤ i + 1) (h2 : i < l.length) :
    ¬ Flat (recent l w i) ↔ ∃ j k, i + 1 - w ≤ j ∧ j ≤ i ∧ i + 1 - w ≤ k ∧ k ≤ i ∧ bar l j ≠ bar l k := by
  rw [← lastOf_bar h1 h2, Flat]
  push Not
  constructor
  · rintro ⟨x, hx, y, hy, hne⟩
    obtain ⟨j, a1, a2, rfl⟩ := (mem_lastOf h1).1 hx
    obtain ⟨k, b1, b2, rfl⟩ := (mem_lastOf h1).1 hy
    exact ⟨j, k, a1, a2, b1, b2, hne⟩
  · rintro ⟨j, k, a1, a2, b1, b2, hne⟩
    exact ⟨_, (mem_lastOf h1).2 ⟨j, a1, a2, rfl⟩, _, (mem_lastOf h1).2 ⟨k, b1, b2, rfl⟩, hne⟩

private theorem flat_collinear {c d : ℝ} {xs : List ℝ} (hc : c ≠ 0) (h : Flat (xs.map fun x => c * x + d)) : Flat xs := fun x hx y hy => by
  have := h _ (List.mem_map.2 ⟨x, hx, rfl⟩) _ (List.mem_map.2 ⟨y, hy, rfl⟩)
  exact mul_left_cancel₀ hc (by linarith)

/-- C100: `pcc` is 1 exactly when, over the window, the second series is an increasing linear function of the first, which is not constant. -/
theorem pcc_one (h : s2.length = s1.length) (hw : 1 ≤ w) (hn : w ≤ s1.length + 1) (f1 : Fins s1) (f2 : Fins s2) (h1 : w ≤ i + 1) (h2 : i < s1.length) :
    Shows i (pcc s1 s2 w) 1 ↔ ¬ Flat (recent (vals s1) w i) ∧
      ∃ c d : ℝ, 0 < c ∧ ∀ j, i + 1 - w ≤ j → j ≤ i → bar (vals s2) j = c * bar (vals s1) j + d := by
  simp only [← collinear_iff s1 s2 h h1 h2]
  have hl : (recent (vals s2) w i).length = (recent (vals s1) w i).length := by
    rw [recent_length h1 (by rw [vals_length]; omega), recent_length h1 (by rw [vals_length]; omega)]
  refine (pcc_reports s1 s2 w h hw hn f1 f2).shows_iff (by omega) h2 fun y hy => ?_
  by_cases hx : Flat (recent (vals s1) w i)
  · rw [hy.2 (.inl hx)]; exact iff_of_false nan_not_is fun h => h.1 hx
  rw [and_iff_right hx]
  by_cases hy' : Flat (recent (vals s2) w i)
  · rw [hy.2 (.inr hy')]
    refine iff_of_false nan_not_is ?_
    rintro ⟨c, d, hc, e⟩
    exact hx (flat_collinear hc.ne' (e ▸ hy'))
  · rw [is_iff_eq (hy.1 hx hy'), pearson_one_iff hl hx hy']

/-- C100: `pcc` is -1 exactly when, over the window, the second series is a decreasing linear function of the first, which is not constant. -/
theorem pcc_minus_one (h : s2.length = s1.length) (hw : 1 ≤ w) (hn : w ≤ s1.length + 1) (f1 : Fins s1) (f2 : Fins s2) (h1 : w ≤ i + 1)
    (h2 : i < s1.length) : Shows i (pcc s1 s2 w) (-1) ↔ ¬ Flat (recent (vals s1) w i) ∧
      ∃ c d : ℝ, c < 0 ∧ ∀ j, i + 1 - w ≤ j → j ≤ i → bar (vals s2) j = c * bar (vals s1) j + d := by
  simp only [← collinear_iff s1 s2 h h1 h2]
  have hl : (recent (vals s2) w i).length = (recent (vals s1) w i).length := by
    rw [recent_length h1 (by rw [vals_length]; omega), recent_length h1 (by rw [vals_length]; omega)]
  refine (pcc_reports s1 s2 w h hw hn f1 f2).shows_iff (by omega) h2 fun y hy => ?_
  by_cases hx : Flat (recent (vals s1) w i)
  · rw [hy.2 (.inl hx)]; exact iff_of_false nan_not_is fun h => h.1 hx
  rw [and_iff_right hx]
  by_cases hy' : Flat (recent (vals s2) w i)
  · rw [hy.2 (.inr hy')]
    refine iff_of_false nan_not_is ?_
    rintro ⟨c, d, hc, e⟩
    exact hx (flat_collinear hc.ne (e ▸ hy'))
  · rw [is_iff_eq (hy.1 hx hy'), pearson_minus_one_iff hl hx hy']
end
end Correlation

namespace Regression
section
variable (data estimate : List XF) {i : ℕ}

private theorem errors_zero {f : ℝ → ℝ → ℝ} (hl : estimate.length = data.length) (hi : i < data.length) (h0 : ∀ o e, 0 ≤ f o e)
    (hf : ∀ o e, f o e = 0 ↔ o = e) :
    mean (errors f (vals data) (vals estimate) i) = 0 ↔ ∀ j, j ≤ i → bar (vals estimate) j = bar (vals data) j := by
  rw [mean_eq_zero_iff fun x hx => by obtain ⟨p, -, rfl⟩ := List.mem_map.1 hx; exact h0 _ _]
  constructor
  · intro h j hj
    refine ((hf _ _).1 (h _ (List.mem_map.2 ⟨(bar (vals data) j, bar (vals estimate) j), List.mem_iff_getElem?.2 ⟨j, ?_⟩, rfl⟩))).symm
    rw [List.getElem?_take_of_lt (by omega), List.getElem?_zip_eq_some]
    exact ⟨bar_getElem? (by rw [vals_length]; omega), bar_getElem? (by rw [vals_length]; omega)⟩
  · intro h x hx
    obtain ⟨p, hp, rfl⟩ := List.mem_map.1 hx
    obtain ⟨j, hj⟩ := List.mem_iff_getElem?.1 hp
    have hjl := (List.getElem?_eq_some_iff.1 hj).1
    rw [List.length_take] at hjl
    rw [List.getElem?_take_of_lt (by omega), List.getElem?_zip_eq_some] at hj
    rw [hf, ← bar_eq hj.1, ← bar_eq hj.2, h j (by omega)]

/-- C100: `mse` is 0 exactly when every estimate so far was right. -/
theorem mse_nought (hl : estimate.length = data.length) (hd : Fins data) (he : Fins estimate) (hi : i < data.length) :
    Shows i (some (mse data estimate)) 0 ↔ ∀ j, j ≤ i → bar (vals estimate) j = bar (vals data) j := by
  rw [(mse_reports data estimate hl hd he).shows_iff (by omega) hi]
  exact errors_zero data estimate hl hi (fun _ _ => sq_nonneg _) fun o e => by rw [pow_eq_zero_iff two_ne_zero, sub_eq_zero]

/-- C100: `rmse` is 0 exactly when every estimate so far was right. -/
theorem rmse_nought (hl : estimate.length = data.length) (hd : Fins data) (he : Fins estimate) (hi : i < data.length) :
    Shows i (some (rmse data estimate)) 0 ↔ ∀ j, j ≤ i → bar (vals estimate) j = bar (vals data) j := by
  rw [(rmse_reports data estimate hl hd he).shows_iff (by omega) hi, Real.sqrt_eq_zero (mean_nonneg fun x hx => by
    obtain ⟨p, -, rfl⟩ := List.mem_map.1 hx; exact sq_nonneg _)]
  exact errors_zero data estimate hl hi (fun _ _ => sq_nonneg _) fun o e => by rw [pow_eq_zero_iff two_ne_zero, sub_eq_zero]

/-- C100: `mae` is 0 exactly when every estimate so far was right. -/
theorem mae_nought (hl : estimate.length = data.length) (hd : Fins data) (he : Fins estimate) (hi : i < data.length) :
    Shows i (some (mae data estimate)) 0 ↔ ∀ j, j ≤ i → bar (vals estimate) j = bar (vals data) j := by
  rw [(mae_reports data estimate hl hd he).shows_iff (by omega) hi]
  exact errors_zero data estimate hl hi (fun _ _ => abs_nonneg _) fun o e => by rw [abs_eq_zero, sub_eq_zero]

/-- C100: `mda` is 1 exactly when every estimate so far was on the side of the previous value to which the series went (an unchanged value
counting as a rise). -/
theorem mda_one (hl : estimate.length = data.length) (hd : Fins data) (he : Fins estimate) (zd : ∀ x ∈ data, x ≠ negz) (ze : ∀ x ∈ estimate, x ≠ negz)
    (h1 : 1 ≤ i) (hi : i < data.length) : Shows i (mda data estimate) 1 ↔
      ∀ j, 1 ≤ j → j ≤ i → (bar (vals data) j < bar (vals data) (j - 1) ↔ bar (vals estimate) j < bar (vals data) (j - 1)) := by
  have hp : (i : ℝ) ≠ 0 := by positivity
  rw [(mda_reports data estimate hl (by omega) hd he zd ze).shows_iff h1 hi, div_eq_one_iff_eq hp, Nat.cast_inj, directionHits]
  have := List.countP_eq_length (l := List.range i) (p := fun j => decide ((vals data).getD (j + 1) 0 < (vals data).getD j 0 ↔
    (vals estimate).getD (j + 1) 0 < (vals data).getD j 0))
  rw [List.length_range] at this
  rw [this]
  simp only [decide_eq_true_eq, List.mem_range]
  constructor
  · intro h j h2 h3
    have := h (j - 1) (by omega)
    rwa [Nat.sub_add_cancel h2] at this
  · intro h j hj
    exact h (j + 1) (by omega) hj
end
end Regression
end Traquer
