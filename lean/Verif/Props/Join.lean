import Verif.Props.Merge
import Verif.Props.Identities
import Verif.Props.Oscillators
import Verif.Props.Recursive
import Verif.Props.SmoothWeights
/-!
# C134: a long window from two short ones

The last `u + v` bars are the last `v` bars and the `u` bars before them. The reading over the long window follows from the readings over the
two parts: `sma`, `variance`, `wma`, `donchian`, `roc`, and `vwma` and `cmf` (between the parts).
-/

namespace Traquer
open FP FloatLit

theorem recent_join {α : Type} (l : List α) {u v i : ℕ} (h : u + v ≤ i + 1) : recent l (u + v) i = recent l u (i - v) ++ recent l v i := by
  rcases Nat.eq_zero_or_pos u with rfl | hu
  · simp [recent]
  rw [recent, recent, recent, List.take_add, List.drop_drop]
  congr 3 <;> omega

theorem lastOf_join (f : ℕ → ℝ) {u v i : ℕ} (h : u + v ≤ i + 1) : (lastOf f (u + v) i).sum = (lastOf f u (i - v)).sum + (lastOf f v i).sum := by
  rcases Nat.eq_zero_or_pos u with rfl | hu
  · simp [lastOf]
  rw [lastOf, lastOf, lastOf, List.range_add, List.map_append, List.sum_append, List.map_map]
  congr 2
  · exact List.map_congr_left fun j _ => by congr 1; omega
  · exact List.map_congr_left fun j _ => by simp only [Function.comp]; congr 1; omega

theorem mean_join {l m : List ℝ} (hl : l ≠ []) (hm : m ≠ []) : (l.length + m.length) * mean (l ++ m) = l.length * mean l + m.length * mean m := by
  have a : (0 : ℝ) < l.length := by exact_mod_cast List.length_pos_iff.2 hl
  have b : (0 : ℝ) < m.length := by exact_mod_cast List.length_pos_iff.2 hm
  rw [mean, mean, mean, List.sum_append, List.length_append]
  push_cast
  field_simp

theorem moment_join {l m : List ℝ} (hl : l ≠ []) (hm : m ≠ []) : (l.length + m.length) * moment 2 (l ++ m) =
    l.length * moment 2 l + m.length * moment 2 m + l.length * m.length / (l.length + m.length) * (mean l - mean m) ^ 2 := by
  have a : (0 : ℝ) < l.length := by exact_mod_cast List.length_pos_iff.2 hl
  have b : (0 : ℝ) < m.length := by exact_mod_cast List.length_pos_iff.2 hm
  have h1 := moment_two_eq l
  have h2 := moment_two_eq m
  have h3 := moment_two_eq (l ++ m)
  rw [List.map_append, List.sum_append, List.sum_append, List.length_append] at h3
  push_cast at h3
  rw [mean, mean]
  generalize (l.length : ℝ) = p at *
  generalize (m.length : ℝ) = q at *
  generalize moment 2 l = A at *
  generalize moment 2 m = B at *
  generalize moment 2 (l ++ m) = C at *
  generalize l.sum = S at *
  generalize m.sum = T at *
  generalize (l.map fun x => x ^ 2).sum = X at *
  generalize (m.map fun x => x ^ 2).sum = Y at *
  have hA : A = (p * X - S ^ 2) / p ^ 2 := by rw [← h1]; field_simp
  have hB : B = (q * Y - T ^ 2) / q ^ 2 := by rw [← h2]; field_simp
  have hC : C = ((p + q) * (X + Y) - (S + T) ^ 2) / (p + q) ^ 2 := by rw [← h3]; field_simp
  rw [hA, hB, hC]
  field_simp
  ring

/-- A list weighted by `s`, `s + 1`, ... -/
noncomputable def ramp (s : ℕ) (l : List ℝ) : ℝ := ((((List.range' s l.length).map fun i : ℕ => (i : ℝ)).zip l).map fun p => p.1 * p.2).sum

theorem ramp_cons (s : ℕ) (x : ℝ) (l : List ℝ) : ramp s (x :: l) = s * x + ramp (s + 1) l := by
  simp [ramp, List.range'_succ]

theorem ramp_shift (s u : ℕ) (l : List ℝ) : ramp (s + u) l = ramp s l + u * l.sum := by
  induction l generalizing s with
  | nil => simp [ramp]
  | cons x l ih =>
    rw [ramp_cons, ramp_cons, List.sum_cons, show s + u + 1 = s + 1 + u by omega, ih]
    push_cast
    ring

theorem ramp_append (s : ℕ) (l m : List ℝ) : ramp s (l ++ m) = ramp s l + ramp (s + l.length) m := by
  induction l generalizing s with
  | nil => simp [ramp]
  | cons x l ih =>
    rw [List.cons_append, ramp_cons, ramp_cons, ih, List.length_cons, show s + 1 + l.length = s + (l.length + 1) by omega]
    ring

theorem ramp_sum (w : ℕ) : ((List.range' 1 w).map fun i : ℕ => (i : ℝ)).sum = w * (w + 1) / 2 := by
  induction w with
  | zero => simp
  | succ w ih => rw [List.range'_concat, List.map_append, List.sum_append, ih]; push_cast; simp; ring

theorem weightedMean_ramp {l : List ℝ} {w : ℕ} (hw : 1 ≤ w) (hl : l.length = w) :
    w * (w + 1) / 2 * weightedMean ((List.range' 1 w).map fun i : ℕ => (i : ℝ)) l = ramp 1 l := by
  have w0 : (0 : ℝ) < w := by exact_mod_cast hw
  rw [weightedMean, ramp_sum, ramp, hl]
  field_simp

section
variable (data : List XF) (u v i : ℕ) (hu : 1 ≤ u) (hv : 1 ≤ v) (h1 : u + v ≤ i + 1) (h2 : i < data.length) (hd : Fins data)
include hu hv h1 h2 hd

/-- C134: `sma` over `u + v` bars is the mean of the two parts, weighted by their lengths. -/
theorem Smooth.sma_joins : ∃ a b c, Shows (i - v) (Smooth.sma data u) a ∧ Shows i (Smooth.sma data v) b ∧ Shows i (Smooth.sma data (u + v)) c ∧
    (u + v) * c = u * a + v * b := by
  refine ⟨_, _, _, (Smooth.sma_reports data u hu (by omega) hd).shows (by omega) (by omega), (Smooth.sma_reports data v hv (by omega) hd).shows (by omega) h2,
    (Smooth.sma_reports data (u + v) (by omega) (by omega) hd).shows (by omega) h2, ?_⟩
  have l1 : (recent (vals data) u (i - v)).length = u := recent_length (by omega) (by simp; omega)
  have l2 : (recent (vals data) v i).length = v := recent_length (by omega) (by simpa using h2)
  have := mean_join (l := recent (vals data) u (i - v)) (m := recent (vals data) v i) (List.ne_nil_of_length_pos (by omega))
    (List.ne_nil_of_length_pos (by omega))
  rwa [← recent_join _ h1, l1, l2] at this

/-- C134: `variance` over `u + v` bars: what the parts have, and what the difference of their averages adds. -/
theorem Distribution.variance_joins : ∃ a b c p q, Shows (i - v) (Distribution.variance data u) a ∧ Shows i (Distribution.variance data v) b ∧
    Shows i (Distribution.variance data (u + v)) c ∧ Shows (i - v) (Smooth.sma data u) p ∧ Shows i (Smooth.sma data v) q ∧
    (u + v) * c = u * a + v * b + u * v / (u + v) * (p - q) ^ 2 := by
  refine ⟨_, _, _, _, _, (Distribution.variance_reports data u hu (by omega) hd).shows (by omega) (by omega),
    (Distribution.variance_reports data v hv (by omega) hd).shows (by omega) h2,
    (Distribution.variance_reports data (u + v) (by omega) (by omega) hd).shows (by omega) h2,
    (Smooth.sma_reports data u hu (by omega) hd).shows (by omega) (by omega), (Smooth.sma_reports data v hv (by omega) hd).shows (by omega) h2, ?_⟩
  have l1 : (recent (vals data) u (i - v)).length = u := recent_length (by omega) (by simp; omega)
  have l2 : (recent (vals data) v i).length = v := recent_length (by omega) (by simpa using h2)
  have := moment_join (l := recent (vals data) u (i - v)) (m := recent (vals data) v i) (List.ne_nil_of_length_pos (by omega))
    (List.ne_nil_of_length_pos (by omega))
  rwa [← recent_join _ h1, l1, l2] at this

/-- C134: `wma` over `u + v` bars from the two parts and the `sma` of the later one. -/
theorem Smooth.wma_joins : ∃ a b c m, Shows (i - v) (Smooth.wma data u) a ∧ Shows i (Smooth.wma data v) b ∧ Shows i (Smooth.wma data (u + v)) c ∧
    Shows i (Smooth.sma data v) m ∧
    (u + v) * (u + v + 1) / 2 * c = u * (u + 1) / 2 * a + v * (v + 1) / 2 * b + u * v * m := by
  refine ⟨_, _, _, _, (Smooth.wma_reports data u hu (by omega) hd).shows (by omega) (by omega),
    (Smooth.wma_reports data v hv (by omega) hd).shows (by omega) h2,
    (Smooth.wma_reports data (u + v) (by omega) (by omega) hd).shows (by omega) h2, (Smooth.sma_reports data v hv (by omega) hd).shows (by omega) h2, ?_⟩
  have l1 : (recent (vals data) u (i - v)).length = u := recent_length (by omega) (by simp; omega)
  have l2 : (recent (vals data) v i).length = v := recent_length (by omega) (by simpa using h2)
  have l3 : (recent (vals data) (u + v) i).length = u + v := recent_length (by omega) (by simpa using h2)
  have e := weightedMean_ramp (l := recent (vals data) (u + v) i) (w := u + v) (by omega) l3
  push_cast at e
  have v0 : (0 : ℝ) < v := by exact_mod_cast hv
  beta_reduce
  rw [e, weightedMean_ramp hu l1, weightedMean_ramp hv l2, recent_join _ h1, ramp_append, l1, ramp_shift, mean, l2]
  field_simp
  ring

/-- C134: `roc` compounds: a window of `u + v - 1` bars spans the `u - 1` steps of the first part and the `v - 1` steps of the second. -/
theorem Momentum.roc_joins (hp : Positive (vals data)) : ∃ a b c, Shows (i - (v - 1)) (Momentum.roc data u) a ∧ Shows i (Momentum.roc data v) b ∧
    Shows i (Momentum.roc data (u + v - 1)) c ∧ 1 + c / 100 = (1 + a / 100) * (1 + b / 100) := by
  have pos : ∀ j, j < data.length → 0 < bar (vals data) j := fun j hj => by
    rw [bar, List.getD_eq_getElem?_getD, List.getElem?_eq_getElem (by simpa using hj)]
    exact hp _ (List.getElem_mem _)
  have e1 : i - (u + v - 1 - 1) = i - (v - 1) - (u - 1) := by omega
  have p1 := pos (i - (v - 1)) (by omega)
  have p2 := pos (i - (v - 1) - (u - 1)) (by omega)
  obtain ⟨o, e, g1, -, g3⟩ := Momentum.roc_reports data u hu (by omega) hd
  obtain ⟨y, hy, q⟩ := g3 (i - (v - 1)) (by omega) (by omega)
  obtain ⟨o', e', g1', -, g3'⟩ := Momentum.roc_reports data v hv (by omega) hd
  obtain ⟨y', hy', q'⟩ := g3' i (by omega) h2
  obtain ⟨o'', e'', g1'', -, g3''⟩ := Momentum.roc_reports data (u + v - 1) (by omega) (by omega) hd
  obtain ⟨y'', hy'', q''⟩ := g3'' i (by omega) h2
  refine ⟨_, _, _, ⟨o, y, e, hy, q.1 p2.ne'⟩, ⟨o', y', e', hy', q'.1 p1.ne'⟩, ⟨o'', y'', e'', hy'', q''.1 (by rw [e1]; exact p2.ne')⟩, ?_⟩
  rw [e1]
  generalize bar (vals data) (i - (v - 1) - (u - 1)) = A at *
  generalize bar (vals data) (i - (v - 1)) = B at *
  field_simp
  ring

end

/-- C134: the upper band of `donchian` over `u + v` bars is the higher of the upper bands of the parts, the lower band the lower. -/
theorem Volatility.donchian_joins (high low : List XF) (u v i : ℕ) (hl : low.length = high.length) (hu : 1 ≤ u) (hv : 1 ≤ v) (h1 : u + v ≤ i + 1)
    (h2 : i < high.length) (fh : Fins high) (fl : Fins low) : ∃ o o' o'' p p' p'' U U' L L', donchian high low u = some o ∧
      donchian high low v = some o' ∧ donchian high low (u + v) = some o'' ∧ o[i - v]? = some p ∧ o'[i]? = some p' ∧ o''[i]? = some p'' ∧
      p.1 ⇓ U ∧ p'.1 ⇓ U' ∧ p.2.2 ⇓ L ∧ p'.2.2 ⇓ L' ∧ p''.1 ⇓ max U U' ∧ p''.2.2 ⇓ min L L' := by
  obtain ⟨o, e, lo, q⟩ := donchian_attained high low u hl hu (by omega) fh fl
  obtain ⟨o', e', lo', q'⟩ := donchian_attained high low v hl hv (by omega) fh fl
  obtain ⟨o'', e'', lo'', q''⟩ := donchian_attained high low (u + v) hl (by omega) (by omega) fh fl
  have hp : o[i - v]? = some o[i - v] := List.getElem?_eq_getElem (by omega)
  have hp' : o'[i]? = some o'[i] := List.getElem?_eq_getElem (by omega)
  have hp'' : o''[i]? = some o''[i] := List.getElem?_eq_getElem (by omega)
  obtain ⟨a1, a2⟩ := q _ _ (by omega) hp
  obtain ⟨b1, b2⟩ := q' _ _ (by omega) hp'
  obtain ⟨c1, c2⟩ := q'' _ _ (by omega) hp''
  have n1 : recent (vals high) u (i - v) ≠ [] := recent_ne_nil hu (by omega) (by simp; omega)
  have n2 : recent (vals high) v i ≠ [] := recent_ne_nil hv (by omega) (by simpa using h2)
  have n3 : recent (vals low) u (i - v) ≠ [] := recent_ne_nil hu (by omega) (by simp; omega)
  have n4 : recent (vals low) v i ≠ [] := recent_ne_nil hv (by omega) (by simp; omega)
  refine ⟨o, o', o'', _, _, _, _, _, _, _, e, e', e'', hp, hp', hp'', a1, b1, a2, b2, c1.congr ?_, c2.congr ?_⟩
  · rw [recent_join _ h1, Traquer.Smooth.maxOf_append n1 n2]
  · rw [recent_join _ h1, Traquer.Smooth.minOf_append n3 n4]

section
variable (high low close volume : List XF) (u v i : ℕ) (hu : 1 ≤ u) (hv : 1 ≤ v) (h1 : u + v ≤ i + 1) (fc : Fins close) (fv : Fins volume)
  (p : ∀ x ∈ volume, 0 < x.val)
include hu hv h1 fc fv p

/-- C134: `vwma` over `u + v` bars lies between the two parts (positive volumes). -/
theorem Volume.vwma_joins (hl : volume.length = close.length) (h2 : i < close.length) :
    ∃ a b c, Shows (i - v) (Volume.vwma close volume u) a ∧ Shows i (Volume.vwma close volume v) b ∧
      Shows i (Volume.vwma close volume (u + v)) c ∧ min a b ≤ c ∧ c ≤ max a b := by
  have pos : ∀ j < close.length, 0 < bar (vals volume) j := fun j hj => by
    rw [bar_vals (List.getElem?_eq_getElem (by omega))]
    exact p _ (List.getElem_mem _)
  have key : ∀ w i, 1 ≤ w → w ≤ i + 1 → i < close.length → Shows i (Volume.vwma close volume w)
      ((lastOf (fun j => bar (vals close) j * bar (vals volume) j) w i).sum / (lastOf (bar (vals volume)) w i).sum) ∧
      0 < (lastOf (bar (vals volume)) w i).sum := fun w i hw g1 g2 => by
    have s := Momentum.lastOf_sum_pos (v := bar (vals volume)) (w := w) (i := i) hw g1 (fun j hj => (pos j (by omega)).le) (pos i g2)
    obtain ⟨o, e, -, -, g⟩ := Volume.vwma_reports close volume w hl hw (by omega) fc fv
    obtain ⟨y, hy, hq⟩ := g i (by omega) g2
    rw [← lastOf_bar (l := vals close) (by omega) (by simpa using g2), ← lastOf_bar (l := vals volume) (by omega) (by simp; omega)] at hq
    refine ⟨⟨o, y, e, hy, (hq.1 s.ne').congr ?_⟩, s⟩
    simp [lastOf, List.zip_map', Function.comp_def]
  obtain ⟨a, a0⟩ := key u (i - v) hu (by omega) (by omega)
  obtain ⟨b, b0⟩ := key v i hv (by omega) h2
  refine ⟨_, _, _, a, b, (key (u + v) i (by omega) h1 h2).1, ?_⟩
  rw [lastOf_join _ h1, lastOf_join _ h1]
  exact mediant a0 b0

/-- C134: `cmf` over `u + v` bars lies between the two parts (positive volumes, bars whose high and low differ). -/
theorem Volume.cmf_joins (hl : low.length = high.length) (hc : close.length = high.length) (hvl : volume.length = high.length) (fh : Fins high)
    (fl : Fins low) (hr : ∀ j, j < high.length → bar (vals high) j ≠ bar (vals low) j) (h2 : i < high.length) :
    ∃ a b c, Shows (i - v) (Volume.cmf high low close volume u) a ∧ Shows i (Volume.cmf high low close volume v) b ∧
      Shows i (Volume.cmf high low close volume (u + v)) c ∧ min a b ≤ c ∧ c ≤ max a b := by
  have pos : ∀ j < high.length, 0 < bar (vals volume) j := fun j hj => by
    rw [bar_vals (List.getElem?_eq_getElem (by omega))]
    exact p _ (List.getElem_mem _)
  have key : ∀ w i, 1 ≤ w → w ≤ i + 1 → i < high.length → Shows i (Volume.cmf high low close volume w)
      ((lastOf (adTerm (vals high) (vals low) (vals close) (vals volume)) w i).sum / (lastOf (bar (vals volume)) w i).sum) ∧
      0 < (lastOf (bar (vals volume)) w i).sum := fun w i hw g1 g2 => by
    have s := Momentum.lastOf_sum_pos (v := bar (vals volume)) (w := w) (i := i) hw g1 (fun j hj => (pos j (by omega)).le) (pos i g2)
    obtain ⟨o, e, -, -, g⟩ := Volume.cmf_reports high low close volume w hl hc hvl hw (by omega) fh fl fc fv hr
    obtain ⟨y, hy, hq⟩ := g i (by omega) g2
    exact ⟨⟨o, y, e, hy, hq.1 s.ne'⟩, s⟩
  obtain ⟨a, a0⟩ := key u (i - v) hu (by omega) (by omega)
  obtain ⟨b, b0⟩ := key v i hv (by omega) h2
  refine ⟨_, _, _, a, b, (key (u + v) i (by omega) h1 h2).1, ?_⟩
  rw [lastOf_join _ h1, lastOf_join _ h1]
  exact mediant a0 b0

end

section examples

private noncomputable def c6 : List XF := [2, 5, 3, 8, 6, 7].map fin
private noncomputable def v6 : List XF := [10, 20, 5, 7, 9, 1].map fin
private noncomputable def h6 : List XF := [3, 6, 5, 9, 8, 7].map fin
private noncomputable def l6 : List XF := [1, 4, 2, 6, 5, 4].map fin

example := Smooth.sma_joins c6 2 3 5 (by decide) (by decide) (by decide) (by simp [c6]) (fins_map_fin _)
example := Smooth.wma_joins c6 2 3 5 (by decide) (by decide) (by decide) (by simp [c6]) (fins_map_fin _)
example := Distribution.variance_joins c6 2 3 4 (by decide) (by decide) (by decide) (by simp [c6]) (fins_map_fin _)
example := Momentum.roc_joins c6 2 3 4 (by decide) (by decide) (by decide) (by simp [c6]) (fins_map_fin _) (by simp [c6, Positive, vals, FP.val])
example := Volatility.donchian_joins h6 l6 2 3 4 rfl (by decide) (by decide) (by decide) (by simp [h6]) (fins_map_fin _) (fins_map_fin _)
example := Volume.vwma_joins c6 v6 2 3 4 (by decide) (by decide) (by decide) (fins_map_fin _) (fins_map_fin _) (by simp [v6, FP.val]) rfl (by simp [c6])
example := Volume.cmf_joins h6 l6 c6 v6 2 3 4 (by decide) (by decide) (by decide) (fins_map_fin _) (fins_map_fin _) (by simp [v6, FP.val]) rfl rfl rfl
  (fins_map_fin _) (fins_map_fin _) (fun j hj => by
    have : j < 6 := by simpa [h6] using hj
    interval_cases j <;> norm_num [h6, l6, bar, vals, FP.val]) (by simp [h6])

end examples

end Traquer
