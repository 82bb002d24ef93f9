import Verif.Spec.Reverse
import Verif.Props.Order
import Verif.Props.Cross
/-!
# C130: reading a chart backwards

The averages with equal or symmetric weights and the dispersions give a stretch of bars the same reading whether it is read forwards or
backwards; `cmo` gives the opposite reading, `roc` the reciprocal growth, and the two readings of `wma` average to the plain mean.
-/

namespace Traquer
open FP FloatLit

theorem recent_reverse {β : Type} (l : List β) {w i : ℕ} (hw : 1 ≤ w) (h1 : w ≤ i + 1) (h2 : i < l.length) :
    recent l.reverse w (l.length - 1 + (w - 1) - i) = (recent l w i).reverse := by
  have e1 : (recent l w i).length = w := recent_length h1 h2
  have e2 : (recent l.reverse w (l.length - 1 + (w - 1) - i)).length = w := recent_length (by omega) (by simp; omega)
  refine List.ext_getElem (by rw [List.length_reverse, e1, e2]) fun j g1 g2 => ?_
  rw [List.getElem_reverse]
  simp only [recent, List.getElem_take, List.getElem_drop, List.getElem_reverse]
  congr 1
  rw [← recent, e1]
  rw [e2] at g1
  omega

theorem vals_reverse (l : List XF) : vals l.reverse = (vals l).reverse := by simp [vals]

theorem fins_reverse {l : List XF} (h : Fins l) : Fins l.reverse := fun x hx => h x (List.mem_reverse.1 hx)

/-- A reading that is a function of the window. -/
theorem backwards_of {data : List XF} {w : ℕ} {V : List ℝ → ℝ} {P : ℝ → ℝ → Prop} {r r' : Option (List XF)} (hw : 1 ≤ w)
    (h : Reports data.length (w - 1) (fun i => V (recent (vals data) w i)) r)
    (h' : Reports data.reverse.length (w - 1) (fun i => V (recent (vals data.reverse) w i)) r')
    (hP : ∀ l : List ℝ, l.length = w → P (V l) (V l.reverse)) : Backwards data.length (w - 1) P r r' := by
  rw [List.length_reverse] at h'
  refine ⟨_, _, h, h', fun i h1 h2 => ?_⟩
  beta_reduce
  have e := recent_reverse (vals data) (i := i) hw (by omega) (by simpa using h2)
  rw [vals_length] at e
  rw [vals_reverse, e]
  exact hP _ (recent_length (by omega) (by simpa using h2))

theorem weightedMean_reverse {ws l : List ℝ} (h : l.length = ws.length) : weightedMean ws l.reverse = weightedMean ws.reverse l := by
  rw [weightedMean, weightedMean, List.sum_reverse]
  have : ws.zip l.reverse = (ws.reverse.zip l).reverse := by
    refine List.ext_getElem (by simp [h]) fun i g1 g2 => ?_
    simp only [List.getElem_zip, List.getElem_reverse]
    simp only [List.length_zip, List.length_reverse, h, min_self] at g1 g2 ⊢
    refine Prod.ext ?_ rfl
    simp only
    congr 1
    omega
  rw [this, List.map_reverse, List.sum_reverse]

theorem pairs_concat (l : List ℝ) (x y : ℝ) : pairs (l ++ [x, y]) = pairs (l ++ [x]) ++ [(x, y)] := by
  match l with
  | [] => rfl
  | [a] => rfl
  | a :: b :: l =>
    have := pairs_concat (b :: l) x y
    simp only [List.cons_append, pairs] at this ⊢
    rw [this]

theorem pairs_reverse (l : List ℝ) : pairs l.reverse = ((pairs l).map Prod.swap).reverse := by
  match l with
  | [] => rfl
  | [a] => rfl
  | a :: b :: l =>
    have := pairs_reverse (b :: l)
    rw [List.reverse_cons] at this
    rw [List.reverse_cons, List.reverse_cons, List.append_assoc, List.cons_append, List.nil_append, pairs_concat, this, pairs, List.map_cons,
      List.reverse_cons]
    rfl

/-- Values of a list by position. -/
theorem getD_at {l : List ℝ} {i : ℕ} (h : i < l.length) : l.getD i 0 = l[i] := by rw [List.getD, List.getElem?_eq_getElem h]; rfl

theorem rises_reverse (l : List ℝ) : (rises l.reverse).sum = (falls l).sum := by
  rw [rises, falls, pairs_reverse, List.map_reverse, List.sum_reverse, List.map_map]
  rfl

theorem falls_reverse (l : List ℝ) : (falls l.reverse).sum = (rises l).sum := by
  rw [rises, falls, pairs_reverse, List.map_reverse, List.sum_reverse, List.map_map]
  rfl

namespace Smooth
variable (data : List XF) (w : ℕ) (hw : 1 ≤ w) (hn : w ≤ data.length + 1) (hd : Fins data)
include hw hn hd

/-- C130: `sma`. -/
theorem sma_backwards : Backwards data.length (w - 1) (fun a b => a = b) (sma data w) (sma data.reverse w) :=
  backwards_of (V := mean) hw (sma_reports _ _ hw hn hd) (sma_reports _ _ hw (by simpa using hn) (fins_reverse hd)) fun l _ =>
    l.reverse_perm.symm.mean

/-- C130: `pwma`, whose weights are symmetric. -/
theorem pwma_backwards (hp : w ≤ 63) : Backwards data.length (w - 1) (fun a b => a = b) (pwma data w) (pwma data.reverse w) := by
  refine backwards_of hw (pwma_reports _ _ hw hp hn hd) (pwma_reports _ _ hw hp (by simpa using hn) (fins_reverse hd)) fun l hl => ?_
  rw [weightedMean_reverse (by simpa using hl)]
  congr 1
  refine List.ext_getElem (by simp) fun i g1 g2 => ?_
  simp only [List.length_map, List.length_range] at g1
  simp only [List.getElem_reverse, List.getElem_map, List.getElem_range, List.length_map, List.length_range]
  rw [Nat.choose_symm_of_eq_add (n := w - 1) (a := i) (b := w - 1 - i) (by omega)]

/-- C130: the forward and the backward `wma` of the same bars average to their mean. -/
theorem wma_backwards : ∃ m, Reports data.length (w - 1) m (sma data w) ∧ ∃ v v', Reports data.length (w - 1) v (wma data w) ∧
    Reports data.length (w - 1) v' (wma data.reverse w) ∧
    ∀ i, w - 1 ≤ i → i < data.length → (v i + v' (data.length - 1 + (w - 1) - i)) / 2 = m i := by
  have h' := wma_reports data.reverse w hw (by simpa using hn) (fins_reverse hd)
  rw [List.length_reverse] at h'
  refine ⟨_, sma_reports data w hw hn hd, _, _, wma_reports data w hw hn hd, h', fun i h1 h2 => ?_⟩
  beta_reduce
  have e := recent_reverse (vals data) (i := i) hw (by omega) (by simpa using h2)
  rw [vals_length] at e
  have hl : (recent (vals data) w i).length = w := recent_length (by omega) (by simpa using h2)
  rw [vals_reverse, e, weightedMean_reverse (by simpa using hl)]
  generalize recent (vals data) w i = l at hl
  have w0 : (0 : ℝ) < w := by exact_mod_cast hw
  have S : ((List.range' 1 w).map fun i : ℕ => (i : ℝ)).sum = w * (w + 1) / 2 := by
    clear * -
    induction w with
    | zero => simp
    | succ w ih => rw [List.range'_concat, List.map_append, List.sum_append, ih]; push_cast; simp; ring
  rw [weightedMean, weightedMean, List.sum_reverse, S, mean, hl]
  have T : ((((List.range' 1 w).map fun i : ℕ => (i : ℝ)).zip l).map fun p => p.1 * p.2).sum +
      ((((List.range' 1 w).map fun i : ℕ => (i : ℝ)).reverse.zip l).map fun p => p.1 * p.2).sum = (w + 1) * l.sum := by
    have a : ∀ ws : List ℝ, ws.length = w → ((ws.zip l).map fun p => p.1 * p.2).sum = ∑ j ∈ Finset.range w, ws.getD j 0 * l.getD j 0 := by
      intro ws h
      have := sum_range_getD2 (fun a b => a * b) (xs := ws) (ys := l) (by omega)
      rw [h] at this
      exact this.symm
    rw [a _ (by simp), a _ (by simp), ← Finset.sum_add_distrib]
    have b := sum_range_getD (fun c => c) l
    rw [hl, List.map_id'] at b
    rw [← b, Finset.mul_sum]
    refine Finset.sum_congr rfl fun j hj => ?_
    have hj := Finset.mem_range.1 hj
    rw [← add_mul]
    congr 1
    rw [getD_at (by simpa using hj), getD_at (by simpa using hj), List.getElem_reverse]
    simp only [List.getElem_map, List.getElem_range', List.length_map, List.length_range']
    have : (w : ℝ) = ((w - 1 - j : ℕ) : ℝ) + j + 1 := by exact_mod_cast (show w = w - 1 - j + j + 1 by omega)
    push_cast
    rw [this]
    push_cast
    ring
  rw [← add_div, T]
  field_simp

/-- C130: `trima`, whose weights are symmetric. -/
theorem trima_backwards : Backwards data.length (w - 1) (fun a b => a = b) (trima data w) (trima data.reverse w) := by
  have h' := trima_reports data.reverse w hw (by simpa using hn) (fins_reverse hd)
  rw [List.length_reverse] at h'
  refine ⟨_, _, trima_reports data w hw hn hd, h', fun i h1 h2 => ?_⟩
  beta_reduce
  refine List.Perm.mean ?_
  rw [← List.reverse_perm']
  refine .of_eq ?_
  refine List.ext_getElem (by simp [lastOf]) fun j g1 g2 => ?_
  have g : j < w / 2 + 1 := by simpa [lastOf] using g2
  simp only [lastOf, List.getElem_reverse, List.getElem_map, List.getElem_range, List.length_map, List.length_range]
  have e := recent_reverse (vals data) (w := (w + 1) / 2) (i := i + 1 - (w / 2 + 1) + (w / 2 + 1 - 1 - j)) (by omega) (by omega) (by simp; omega)
  rw [vals_length] at e
  rw [vals_reverse, show data.length - 1 + (w - 1) - i + 1 - (w / 2 + 1) + j = data.length - 1 + ((w + 1) / 2 - 1) -
    (i + 1 - (w / 2 + 1) + (w / 2 + 1 - 1 - j)) by omega, e]
  exact (List.reverse_perm _).symm.mean

end Smooth

namespace Distribution
variable (data : List XF) (w : ℕ) (hw : 1 ≤ w) (hn : w ≤ data.length + 1) (hd : Fins data)
include hw hn hd

/-- C130: `variance`. -/
theorem variance_backwards : Backwards data.length (w - 1) (fun a b => a = b) (variance data w) (variance data.reverse w) :=
  backwards_of hw (variance_reports _ _ hw hn hd) (variance_reports _ _ hw (by simpa using hn) (fins_reverse hd)) fun l _ =>
    l.reverse_perm.symm.moment 2

/-- C130: `std_dev`. -/
theorem std_dev_backwards : Backwards data.length (w - 1) (fun a b => a = b) (std_dev data w) (std_dev data.reverse w) :=
  backwards_of hw (std_dev_reports _ _ hw hn hd) (std_dev_reports _ _ hw (by simpa using hn) (fins_reverse hd)) fun l _ =>
    l.reverse_perm.symm.stdDev

/-- C130: `mad`. -/
theorem mad_backwards : Backwards data.length (w - 1) (fun a b => a = b) (mad data w) (mad data.reverse w) :=
  backwards_of hw (mad_reports _ _ hw hn hd) (mad_reports _ _ hw (by simpa using hn) (fins_reverse hd)) fun l _ =>
    l.reverse_perm.symm.meanAbsDev

/-- C130: `quantile`, at every level. -/
theorem quantile_backwards {q : XF} (hq : q.Finite) (hw' : w ≤ 2 ^ 53) :
    Backwards data.length (w - 1) (fun a b => a = b) (quantile data w q) (quantile data.reverse w q) :=
  backwards_of (V := fun l => quantileOf l ((w - 1 : ℕ) * (max 0 (min q.val 100) / 100))) hw (quantile_reports _ _ q _ hq.is hw hw' hn hd)
    (quantile_reports _ _ q _ hq.is hw hw' (by simpa using hn) (fins_reverse hd)) fun l _ => l.reverse_perm.symm.quantileOf _

end Distribution

namespace Momentum

/-- C130: `cmo` read backwards is the opposite, where the price moves in every window. -/
theorem cmo_backwards (data : List XF) (w : ℕ) (hn : w ≤ data.length) (h1 : 1 ≤ data.length) (hd : Fins data)
    (hm : ∀ i, w ≤ i → i < data.length →
      (rises (recent (vals data) (w + 1) i)).sum + (falls (recent (vals data) (w + 1) i)).sum ≠ 0) :
    Backwards data.length w (fun a b => b = -a) (cmo data w) (cmo data.reverse w) := by
  have h' := cmo_reports data.reverse w (by simpa using hn) (by simpa using h1) (fins_reverse hd)
  rw [List.length_reverse] at h'
  have e : ∀ i, w ≤ i → i < data.length → recent (vals data.reverse) (w + 1) (data.length - 1 + w - i) = (recent (vals data) (w + 1) i).reverse :=
    fun i g1 g2 => by
      have e := recent_reverse (vals data) (w := w + 1) (i := i) (by omega) (by omega) (by simpa using g2)
      rwa [vals_length, ← vals_reverse] at e
  refine ⟨fun i => ((rises (recent (vals data) (w + 1) i)).sum - (falls (recent (vals data) (w + 1) i)).sum) /
      ((rises (recent (vals data) (w + 1) i)).sum + (falls (recent (vals data) (w + 1) i)).sum) * 100,
    fun i => ((rises (recent (vals data.reverse) (w + 1) i)).sum - (falls (recent (vals data.reverse) (w + 1) i)).sum) /
      ((rises (recent (vals data.reverse) (w + 1) i)).sum + (falls (recent (vals data.reverse) (w + 1) i)).sum) * 100,
    (cmo_reports data w hn h1 hd).mono fun i y g1 g2 g => g.1 (hm i g1 g2), h'.mono fun i y g1 g2 g => g.1 ?_, fun i g1 g2 => ?_⟩
  · have a := e (data.length - 1 + w - i) (by omega) (by omega)
    rw [show data.length - 1 + w - (data.length - 1 + w - i) = i by omega] at a
    rw [a, rises_reverse, falls_reverse, add_comm]
    exact hm _ (by omega) (by omega)
  · beta_reduce
    rw [e i g1 g2, rises_reverse, falls_reverse]
    rw [add_comm (falls _).sum]
    ring

/-- C130: `roc` read backwards undoes the growth: the two factors `1 + roc / 100` are reciprocal. -/
theorem roc_backwards (data : List XF) (w : ℕ) (hw : 1 ≤ w) (hn : w ≤ data.length + 1) (hd : Fins data) (hp : Positive (vals data)) :
    Backwards data.length (w - 1) (fun a b => (1 + a / 100) * (1 + b / 100) = 1) (roc data w) (roc data.reverse w) := by
  have h' := roc_reports data.reverse w hw (by simpa using hn) (fins_reverse hd)
  rw [List.length_reverse] at h'
  have pos : ∀ i, i < data.length → 0 < bar (vals data) i := fun i hi => hp.bar (by simpa using hi)
  have e : ∀ i, i < data.length → bar (vals data.reverse) i = bar (vals data) (data.length - 1 - i) := fun i hi => by
    rw [vals_reverse]
    simp only [bar]
    rw [getD_at (by simpa using hi), getD_at (by simp; omega), List.getElem_reverse]
    simp
  refine ⟨_, _, (roc_reports data w hw hn hd).mono fun i y g1 g2 g => g.1 (pos _ (by omega)).ne',
    h'.mono fun i y g1 g2 g => g.1 (by rw [e _ (by omega)]; exact (pos _ (by omega)).ne'), fun i g1 g2 => ?_⟩
  beta_reduce
  rw [e _ (by omega), e _ (by omega), show data.length - 1 - (data.length - 1 + (w - 1) - i) = i - (w - 1) by omega,
    show data.length - 1 - (data.length - 1 + (w - 1) - i - (w - 1)) = i by omega]
  have a := pos i g2
  have b := pos (i - (w - 1)) (by omega)
  field_simp
  ring

end Momentum

example := Smooth.trima_backwards ([1, 5, 2, 9, 4].map fin) 4 (by decide) (by simp) (fins_map_fin _)
example := Smooth.wma_backwards ([1, 5, 2, 9, 4].map fin) 3 (by decide) (by simp) (fins_map_fin _)
example := Smooth.pwma_backwards ([1, 5, 2, 9, 4].map fin) 3 (by decide) (by simp) (fins_map_fin _) (by decide)
example := Distribution.std_dev_backwards ([1, 5, 2, 9, 4].map fin) 3 (by decide) (by simp) (fins_map_fin _)
example := Distribution.quantile_backwards ([1, 5, 2, 9, 4].map fin) 3 (by decide) (by simp) (fins_map_fin _) (q := 75) (is_lit 75).1 (by norm_num)
example := Momentum.roc_backwards ([1, 5, 2, 9, 4].map fin) 3 (by decide) (by simp) (fins_map_fin _) (by
  rw [vals_map_fin]; intro x hx; fin_cases hx <;> norm_num)
example := Momentum.cmo_backwards ([1, 5, 2, 9].map fin) 2 (by simp) (by simp) (fins_map_fin _) (by
  rw [vals_map_fin]
  intro i h1 h2
  have : i < 4 := by simpa using h2
  interval_cases i <;> simp [recent, rises, falls, pairs] <;> norm_num)

end Traquer
