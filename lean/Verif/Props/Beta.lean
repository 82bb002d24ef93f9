import Verif.Props.VolumeFormulas
import Verif.Props.ShapeStats
/-!
# C62: the beta coefficient
-/

namespace Traquer.Correlation
open FP FloatLit
open Traquer.Trend (is_bar)
open Traquer.Volume (reports_nansP)

/-- The relative change of a series at bar `j`. -/
noncomputable def returnAt (l : List ℝ) (j : ℕ) : ℝ := bar l j / bar l (j - 1) - 1

/-- How far the value at bar `i` is from the mean of the last `w` values. -/
noncomputable def deviationAt (v : ℕ → ℝ) (w i : ℕ) : ℝ := v i - mean (lastOf v w i)

theorem returns_reports (l : List XF) (fl : Fins l) (hn : 1 ≤ l.length) (h0 : ∀ x ∈ vals l, x ≠ 0) :
    Reports l.length 1 (returnAt (vals l)) (some (nans 1 ++ returns l)) := by
  refine reports_nansP (by simp [returns]; omega) fun i y hy => ?_
  rw [returns, List.getElem?_map] at hy
  obtain ⟨p, e, rfl⟩ := Option.map_eq_some_iff.1 hy
  obtain ⟨e0, e1⟩ := pairs_getElem?_some e
  have i0 := is_bar fl e0
  have i1 := is_bar fl e1
  have : bar (vals l) i ≠ 0 := by
    rw [bar_vals e0]
    exact h0 _ (List.mem_map_of_mem (List.mem_of_getElem? e0))
  rw [returnAt, Nat.add_sub_cancel_left, Nat.add_comm 1 i]
  exact is_sub (is_div i1 i0 this) is_one

theorem foldl_pair (l : List (XF × XF)) (a b : XF) :
    l.foldl (fun (st : XF × XF) (p : XF × XF) => (st.1 + p.1, st.2 + p.2)) (a, b) =
      ((l.map Prod.fst).foldl (· + ·) a, (l.map Prod.snd).foldl (· + ·) b) := by
  induction l generalizing a b with
  | nil => rfl
  | cons p l ih => simp only [List.foldl_cons, List.map_cons, ih]

/-- C62: `beta` divides the mean product of the deviations of the two returns by the mean square of the deviations of the second one, each
deviation being taken from the rolling mean at its own bar (finite non-zero prices). -/
theorem beta_reports (s1 s2 : List XF) (w : ℕ) (h : s2.length = s1.length) (hw : 1 ≤ w) (hn : 2 * (w - 1) + 1 ≤ s1.length) (f1 : Fins s1)
    (f2 : Fins s2) (p1 : ∀ x ∈ vals s1, x ≠ 0) (p2 : ∀ x ∈ vals s2, x ≠ 0) :
    ReportsP s1.length (2 * (w - 1) + 1) (fun i => QuotIs
      (mean (lastOf (fun j => deviationAt (returnAt (vals s1)) w j * deviationAt (returnAt (vals s2)) w j) w i))
      (mean (lastOf (fun j => deviationAt (returnAt (vals s2)) w j ^ 2) w i))) (beta s1 s2 w) := by
  have r1 := returns_reports s1 f1 (by omega) p1
  have r2 := returns_reports s2 f2 (by omega) p2
  rw [h] at r2
  have w0 : (w : ℝ) ≠ 0 := (Smooth.natCast_pos hw).ne'
  refine (beta_aligned s1 s2 w h hw hn).reportsP fun out eo => ?_
  obtain ⟨k, ek, eo⟩ := Option.bind_eq_some_iff.1 eo
  obtain ⟨-, rfl⟩ := usub_some ek
  obtain ⟨xs, ex, eo⟩ := Option.bind_eq_some_iff.1 eo
  obtain ⟨ys, ey, eo⟩ := Option.bind_eq_some_iff.1 eo
  obtain ⟨cv, ec, eo⟩ := Option.bind_eq_some_iff.1 eo
  obtain ⟨ws, ew, eo⟩ := Option.bind_eq_some_iff.1 eo
  rw [windows_eq _ hw] at ex ey ew
  cases ex; cases ey; cases ew; cases eo
  have lc := mapP_length ec
  have l1 := r1.length
  have l2 := r2.length
  simp only [List.length_append, nans_length] at l1 l2
  simp only [List.length_zip, windowsOf_length] at lc
  have hc : ∀ j p, cv[j]? = some p → p.1 ⇓ deviationAt (returnAt (vals s1)) w (w + j) * deviationAt (returnAt (vals s2)) w (w + j) ∧
      p.2 ⇓ deviationAt (returnAt (vals s2)) w (w + j) ^ 2 := by
    intro j p hp
    have hj := (List.getElem?_eq_some_iff.1 hp).1
    rw [mapP_getElem? ec] at hp
    obtain ⟨⟨xw, yw⟩, e, hp⟩ := Option.bind_eq_some_iff.1 hp
    obtain ⟨e1, e2⟩ := List.getElem?_zip_eq_some.1 e
    obtain ⟨xl, ex, hp⟩ := Option.bind_eq_some_iff.1 hp
    obtain ⟨yl, ey, hp⟩ := Option.bind_eq_some_iff.1 hp
    cases hp
    have key : ∀ {l : List XF} {v : ℕ → ℝ} {n : ℕ} {u : List XF} {z : XF}, Reports n 1 v (some (nans 1 ++ l)) → w + j < n →
        (windowsOf w l)[j]? = some u → u[w - 1]? = some z → z - fsum u / flt w ⇓ deviationAt v w (w + j) := by
      intro l v n u z hr hn' hu hz
      have ll := hr.length
      simp only [List.length_append, nans_length] at ll
      rw [windowsOf_getElem? (by omega)] at hu
      cases hu
      have hrec : recent (nans 1 ++ l) w (w + j) = (l.drop j).take w := by
        rw [recent, show w + j + 1 - w = j + 1 by omega]
        rfl
      obtain ⟨g1, g2⟩ := hr.recent (w := w) (i := w + j) (by omega) hn'
      rw [hrec] at g1 g2
      have iz : z ⇓ v (w + j) := by
        refine hr.at (i := w + j) ?_ (by omega)
        rw [List.getElem?_take_of_lt (by omega), List.getElem?_drop] at hz
        rw [List.getElem?_append_right (by simp; omega), nans_length, show w + j - 1 = j + (w - 1) by omega]
        exact hz
      refine (is_sub iz (is_div g1.fsum (is_flt w) w0)).congr ?_
      rw [g2, deviationAt, mean]
      simp [lastOf]
    have d1 := key r1 (by omega) e1 ex
    have d2 := key r2 (by omega) e2 ey
    exact ⟨is_mul d1 d2, is_powi 2 d2⟩
  have c1 : Reports s1.length w (fun i => deviationAt (returnAt (vals s1)) w i * deviationAt (returnAt (vals s2)) w i)
      (some (nans w ++ cv.map Prod.fst)) := by
    refine reports_nansP (by simp; omega) fun j y hy => ?_
    rw [List.getElem?_map] at hy
    obtain ⟨p, e, rfl⟩ := Option.map_eq_some_iff.1 hy
    exact (hc j p e).1
  have c2 : Reports s1.length w (fun i => deviationAt (returnAt (vals s2)) w i ^ 2)
      (some (nans w ++ cv.map Prod.snd)) := by
    refine reports_nansP (by simp; omega) fun j y hy => ?_
    rw [List.getElem?_map] at hy
    obtain ⟨p, e, rfl⟩ := Option.map_eq_some_iff.1 hy
    exact (hc j p e).2
  intro i y hi hy
  rw [List.getElem?_append_right (by simp; omega), List.getElem?_map] at hy
  obtain ⟨u, hu, rfl⟩ := Option.map_eq_some_iff.1 hy
  have hj := (List.getElem?_eq_some_iff.1 hu).1
  rw [windowsOf_length] at hj
  rw [windowsOf_getElem? (by omega)] at hu
  cases hu
  simp only [nans_length] at hj ⊢
  rw [foldl_pair]
  have key : ∀ {v : ℕ → ℝ} {l : List XF}, l.length = cv.length → Reports s1.length w v (some (nans w ++ l)) →
      fsum ((l.drop (i - ((w - 1) * 2 + 1))).take w) / flt w ⇓ mean (lastOf v w i) := by
    intro v l ll hr
    obtain ⟨g1, g2⟩ := hr.recent (w := w) (i := i) (by omega) (by omega)
    have hrec : recent (nans w ++ l) w i = (l.drop (i - ((w - 1) * 2 + 1))).take w := by
      rw [recent, List.drop_append, nans_length, List.drop_eq_nil_of_le (by simp; omega), List.nil_append]
      congr 2
      omega
    rw [hrec] at g1 g2
    refine (is_div g1.fsum (is_flt w) w0).congr ?_
    rw [g2, mean]
    simp [lastOf]
  have k1 := key (by simp) c1
  have k2 := key (by simp) c2
  rw [← List.map_drop, ← List.map_take] at k1 k2
  exact quotIs k1 k2

theorem sq_mean_zero {v : ℕ → ℝ} {w i : ℕ} (hw : 1 ≤ w) (h : mean (lastOf (fun j => v j ^ 2) w i) = 0) :
    ∀ j, j < w → v (i + 1 - w + j) = 0 := by
  intro j hj
  rw [mean, div_eq_zero_iff] at h
  rcases h with h | h
  · exact pow_eq_zero_iff two_ne_zero |>.1 (List.all_zero_of_le_zero_le_of_sum_eq_zero (fun x hx => by
      simp only [lastOf, List.mem_map] at hx
      obtain ⟨k, -, rfl⟩ := hx
      positivity) h (List.mem_map.2 ⟨j, List.mem_range.2 hj, rfl⟩))
  · simp only [lastOf, List.length_map, List.length_range, Nat.cast_eq_zero] at h
    omega

/-- C62: where the second series did not move against its mean, `beta` is NaN: never infinite. -/
theorem beta_flat (s1 s2 : List XF) (w : ℕ) (h : s2.length = s1.length) (hw : 1 ≤ w) (hn : 2 * (w - 1) + 1 ≤ s1.length) (f1 : Fins s1)
    (f2 : Fins s2) (p1 : ∀ x ∈ vals s1, x ≠ 0) (p2 : ∀ x ∈ vals s2, x ≠ 0) :
    ReportsP s1.length (2 * (w - 1) + 1) (fun i y =>
      mean (lastOf (fun j => deviationAt (returnAt (vals s2)) w j ^ 2) w i) = 0 ∧ y = FP.nan ∨
      mean (lastOf (fun j => deviationAt (returnAt (vals s2)) w j ^ 2) w i) ≠ 0 ∧ y.Finite) (beta s1 s2 w) := by
  refine (beta_reports s1 s2 w h hw hn f1 f2 p1 p2).mono fun i y hi hin q => ?_
  by_cases h0 : mean (lastOf (fun j => deviationAt (returnAt (vals s2)) w j ^ 2) w i) = 0
  · refine Or.inl ⟨h0, q.2.1 h0 ?_⟩
    rw [mean, div_eq_zero_iff]
    left
    refine List.sum_eq_zero fun x hx => ?_
    simp only [lastOf, List.mem_map, List.mem_range] at hx
    obtain ⟨j, hj, rfl⟩ := hx
    rw [sq_mean_zero hw h0 j hj, mul_zero]
  · exact Or.inr ⟨h0, (q.1 h0).finite⟩

/-- C62: `beta` of a series against itself is 1, NaN where the returns do not differ from their rolling mean. -/
theorem beta_self (s : List XF) (w : ℕ) (hw : 1 ≤ w) (hn : 2 * (w - 1) + 1 ≤ s.length) (f : Fins s) (p : ∀ x ∈ vals s, x ≠ 0) :
    ReportsP s.length (2 * (w - 1) + 1) (fun i y =>
      (mean (lastOf (fun j => deviationAt (returnAt (vals s)) w j ^ 2) w i) ≠ 0 → y ⇓ 1) ∧
      (mean (lastOf (fun j => deviationAt (returnAt (vals s)) w j ^ 2) w i) = 0 → y = FP.nan)) (beta s s w) := by
  refine (beta_reports s s w rfl hw hn f f p p).mono fun i y hi hin q => ?_
  have e : (fun j => deviationAt (returnAt (vals s)) w j * deviationAt (returnAt (vals s)) w j) =
      fun j => deviationAt (returnAt (vals s)) w j ^ 2 := funext fun j => (pow_two _).symm
  rw [e] at q
  exact ⟨fun h0 => (q.1 h0).congr (div_self h0), fun h0 => q.2.1 h0 h0⟩

theorem mean_lastOf_mul {v v' : ℕ → ℝ} {c : ℝ} {w i : ℕ} (h : ∀ j, j < w → v' (i + 1 - w + j) = c * v (i + 1 - w + j)) :
    mean (lastOf v' w i) = c * mean (lastOf v w i) := by
  have : lastOf v' w i = (lastOf v w i).map (c * ·) := by
    simp only [lastOf, List.map_map]
    exact List.map_congr_left fun j hj => h j (List.mem_range.1 hj)
  rw [mean, mean, this, List.sum_map_mul_left, List.length_map, List.map_id', mul_div_assoc]

/-- C62: if every return of the first series is multiplied by `c`, so is `beta`. -/
theorem beta_scales (s1 s1' s2 : List XF) (w : ℕ) (c : ℝ) (h : s2.length = s1.length) (h' : s1'.length = s1.length) (hw : 1 ≤ w)
    (hn : 2 * (w - 1) + 1 ≤ s1.length) (f1 : Fins s1) (f1' : Fins s1') (f2 : Fins s2) (p1 : ∀ x ∈ vals s1, x ≠ 0)
    (p1' : ∀ x ∈ vals s1', x ≠ 0) (p2 : ∀ x ∈ vals s2, x ≠ 0)
    (hc : ∀ i, 1 ≤ i → i < s1.length → returnAt (vals s1') i = c * returnAt (vals s1) i) {a b : List XF} (ha : beta s1 s2 w = some a)
    (hb : beta s1' s2 w = some b) {i : ℕ} {x y : XF} (hi : 2 * (w - 1) + 1 ≤ i) (hx : a[i]? = some x) (hy : b[i]? = some y) :
    (x = FP.nan ∧ y = FP.nan) ∨ ∃ r, x ⇓ r ∧ y ⇓ c * r := by
  obtain ⟨a', ea, la, -, qa⟩ := beta_reports s1 s2 w h hw hn f1 f2 p1 p2
  obtain ⟨b', eb, lb, -, qb⟩ := beta_reports s1' s2 w (h.trans h'.symm) hw (by omega) f1' f2 p1' p2
  obtain ⟨a'', ea', -, -, za⟩ := beta_flat s1 s2 w h hw hn f1 f2 p1 p2
  obtain ⟨b'', eb', -, -, zb⟩ := beta_flat s1' s2 w (h.trans h'.symm) hw (by omega) f1' f2 p1' p2
  cases ha.symm.trans ea
  cases hb.symm.trans eb
  cases ha.symm.trans ea'
  cases hb.symm.trans eb'
  have hin : i < s1.length := by have := (List.getElem?_eq_some_iff.1 hx).1; omega
  obtain ⟨x', ex, qx⟩ := qa i hi hin
  obtain ⟨y', ey, qy⟩ := qb i hi (by omega)
  obtain ⟨x'', ex', zx⟩ := za i hi hin
  obtain ⟨y'', ey', zy⟩ := zb i hi (by omega)
  cases hx.symm.trans ex
  cases hy.symm.trans ey
  cases hx.symm.trans ex'
  cases hy.symm.trans ey'
  by_cases h0 : mean (lastOf (fun j => deviationAt (returnAt (vals s2)) w j ^ 2) w i) = 0
  · left
    exact ⟨(zx.resolve_right fun q => q.1 h0).2, (zy.resolve_right fun q => q.1 h0).2⟩
  · right
    refine ⟨_, qx.1 h0, (qy.1 h0).congr ?_⟩
    rw [← mul_div_assoc]
    congr 1
    refine mean_lastOf_mul fun j hj => ?_
    have : deviationAt (returnAt (vals s1')) w (i + 1 - w + j) = c * deviationAt (returnAt (vals s1)) w (i + 1 - w + j) := by
      rw [deviationAt, deviationAt, mul_sub, hc _ (by omega) (by omega)]
      congr 1
      exact mean_lastOf_mul fun k hk => hc _ (by omega) (by omega)
    simp only [this]
    ring

/-! ## The hypotheses can be met -/

/-- Returns 1, 2, 3 and 3, 1, 0; and three times the first. -/
noncomputable def s4 : List XF := ([1, 2, 6, 24] : List ℝ).map fin
/-- See `s4`. -/
noncomputable def t4 : List XF := ([1, 4, 8, 8] : List ℝ).map fin
/-- See `s4`. -/
noncomputable def u4 : List XF := ([1, 4, 28, 280] : List ℝ).map fin

example : ValueAt (beta s4 t4 2) 3 (-3 / 5) :=
  (beta_reports s4 t4 2 rfl (by decide) (by simp [s4]) (fins_map_fin _) (fins_map_fin _) (by simp only [s4, vals_map_fin]; simp)
    (by simp only [t4, vals_map_fin]; simp)).quot 3 (by decide) (by simp [s4])
    (by simp only [t4, vals_map_fin]; norm_num [lastOf, mean, deviationAt, returnAt, bar, List.range_succ])
    (by simp only [s4, t4, vals_map_fin]; norm_num [lastOf, mean, deviationAt, returnAt, bar, List.range_succ])

example : ∃ a b x y r, beta s4 t4 2 = some a ∧ beta u4 t4 2 = some b ∧ a[3]? = some x ∧ b[3]? = some y ∧ x ⇓ r ∧ y ⇓ 3 * r ∧ r = -3 / 5 := by
  obtain ⟨a, ea, la, -, qa⟩ := beta_reports s4 t4 2 rfl (by decide) (by simp [s4]) (fins_map_fin _) (fins_map_fin _)
    (by simp only [s4, vals_map_fin]; simp) (by simp only [t4, vals_map_fin]; simp)
  obtain ⟨b, eb, lb, -, qb⟩ := beta_reports u4 t4 2 rfl (by decide) (by simp [u4]) (fins_map_fin _) (fins_map_fin _)
    (by simp only [u4, vals_map_fin]; simp) (by simp only [t4, vals_map_fin]; simp)
  obtain ⟨x, ex, qx⟩ := qa 3 (by decide) (by simp [s4])
  obtain ⟨y, ey, -⟩ := qb 3 (by decide) (by simp [u4])
  have vx := qx.1 (by simp only [t4, vals_map_fin]; norm_num [lastOf, mean, deviationAt, returnAt, bar, List.range_succ])
  have vx := vx.congr (show _ = (-3 / 5 : ℝ) by
    simp only [s4, t4, vals_map_fin]; norm_num [lastOf, mean, deviationAt, returnAt, bar, List.range_succ])
  rcases beta_scales s4 u4 t4 2 3 rfl rfl (by decide) (by simp [s4]) (fins_map_fin _) (fins_map_fin _) (fins_map_fin _)
    (by simp only [s4, vals_map_fin]; simp) (by simp only [u4, vals_map_fin]; simp) (by simp only [t4, vals_map_fin]; simp)
    (fun i h1 h2 => by
      simp only [s4, List.length_map, List.length_cons, List.length_nil] at h2
      simp only [s4, u4, vals_map_fin]
      interval_cases i <;> norm_num [returnAt, bar]) ea eb (i := 3) (by decide) ex ey with h | ⟨r, h1, h2⟩
  · exact absurd h.1 vx.ne_nan
  · exact ⟨a, b, x, y, r, ea, eb, ex, ey, h1, h2, h1.unique vx⟩

example : ValueAt (beta s4 s4 2) 3 1 := by
  obtain ⟨a, ea, la, -, qa⟩ := beta_self s4 2 (by decide) (by simp [s4]) (fins_map_fin _) (by simp only [s4, vals_map_fin]; simp)
  obtain ⟨x, ex, qx⟩ := qa 3 (by decide) (by simp [s4])
  exact ⟨a, x, ea, ex, qx.1 (by simp only [s4, vals_map_fin]; norm_num [lastOf, mean, deviationAt, returnAt, bar, List.range_succ])⟩

end Traquer.Correlation
