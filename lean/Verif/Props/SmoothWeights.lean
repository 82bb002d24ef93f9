import Verif.Props.SmoothMean
import Verif.Props.ShapeSmooth
import Verif.Lemmas.Pascal
import Mathlib.Data.Nat.Fib.Basic
import Mathlib.Data.Nat.Choose.Sum
/-!
# C19, C20, C21, C22, C23: weighted averages and the regression forecast
-/

namespace Traquer.Smooth
open FP FloatLit

theorem dot_is {ws : List XF} {l : List XF} (hw : Fins ws) (hl : Fins l) :
    dot ws l ⇓ (((vals ws).zip (vals l)).map fun p => p.1 * p.2).sum := by
  have h := is_fsum_map (l := l.zip ws) (t := fun (p : XF × XF) => p.1 * p.2) (v := fun p => p.2.val * p.1.val)
    (fun p hp => by
      have := List.of_mem_zip hp
      exact (is_mul (hl _ this.1).is (hw _ this.2).is).congr (mul_comm _ _))
  refine h.congr ?_
  congr 1
  clear hw hl h
  induction l generalizing ws with
  | nil => simp [vals]
  | cons x l ih =>
    cases ws with
    | nil => simp [vals]
    | cons w ws => simp only [List.zip_cons_cons, List.map_cons, vals_cons]; rw [ih]

/-- Weights that are numbers `u i` divided by their sum. -/
theorem dot_weightedMean {ws l : List XF} {us : List ℝ} (hw : Fins ws) (hl : Fins l)
    (hu : vals ws = us.map fun u => u / us.sum) : dot ws l ⇓ weightedMean us (vals l) :=
  (dot_is hw hl).congr (by rw [hu, dot_div, weightedMean])

/-- A list of computed weights. -/
theorem fins_vals_map {α : Type} {l : List α} {f : α → XF} {g : α → ℝ} (h : ∀ a ∈ l, f a ⇓ g a) :
    Fins (l.map f) ∧ vals (l.map f) = l.map g := by
  constructor
  · intro x hx
    obtain ⟨a, ha, rfl⟩ := List.mem_map.1 hx
    exact (h a ha).1
  · rw [vals, List.map_map]
    exact List.map_congr_left fun a ha => (h a ha).2

/-! ## C19: wma -/

theorem sum_range'_cast (n : ℕ) : ((List.range' 1 n).map fun i : ℕ => (i : ℝ)).sum = (n ^ 2 + n) / 2 := by
  induction n with
  | zero => simp
  | succ n ih =>
    rw [List.range'_1_concat, List.map_append, List.sum_append, ih]
    simp
    ring

theorem wmaWeights_vals (w : ℕ) (hw : 1 ≤ w) : Fins (wmaWeights w : List XF) ∧
    vals (wmaWeights w : List XF) = ((List.range' 1 w).map fun i : ℕ => (i : ℝ)).map
      fun u => u / ((List.range' 1 w).map fun i : ℕ => (i : ℝ)).sum := by
  have hd : (flt (w ^ 2 + w) / 2 : XF) ⇓ ((w : ℝ) ^ 2 + w) / 2 := by
    refine (is_div (is_flt _) (is_lit 2) (by norm_num)).congr ?_
    push_cast; rfl
  have hp := natCast_pos hw
  have := fins_vals_map (l := List.range' 1 w) (f := fun i => (flt i / (flt (w ^ 2 + w) / 2) : XF))
    (fun a _ => is_div (is_flt a) hd (by positivity))
  refine ⟨this.1, ?_⟩
  rw [wmaWeights, this.2, sum_range'_cast, List.map_map]
  rfl

/-- C19: `wma` reports the weighted mean of the window with weights `1, 2, …, w`, the newest value having
weight `w`. -/
theorem wma_reports (data : List XF) (w : ℕ) (hw : 1 ≤ w) (hn : w ≤ data.length + 1) (hd : Fins data) :
    Reports data.length (w - 1)
      (fun i => weightedMean ((List.range' 1 w).map fun i : ℕ => (i : ℝ)) (recent (vals data) w i)) (wma data w) := by
  run_model [wma]
  refine reports_windows hw hn fun i h1 h2 => ?_
  rw [← recent_vals]
  exact dot_weightedMean (wmaWeights_vals w hw).1 (hd.recent w i) (wmaWeights_vals w hw).2

/-- A list of naturals, not all zero, as weights. -/
theorem weightedMean_nat_convex {us : List ℕ} {l : List ℝ} (hl : us.length = l.length) (h : ∃ u ∈ us, 0 < u) :
    ConvexComb l (weightedMean (us.map fun u : ℕ => (u : ℝ)) l) := by
  apply convexComb_weightedMean (by simpa using hl)
  · intro w hw
    obtain ⟨u, -, rfl⟩ := List.mem_map.1 hw
    positivity
  · have e : (us.map fun u : ℕ => (u : ℝ)).sum = ((us.sum : ℕ) : ℝ) := by
      clear h hl
      induction us with
      | nil => simp
      | cons u us ih => rw [List.map_cons, List.sum_cons, List.sum_cons, ih, Nat.cast_add]
    rw [e]
    obtain ⟨u, hu, hp⟩ := h
    exact_mod_cast lt_of_lt_of_le hp (List.single_le_sum (fun _ _ => Nat.zero_le _) u hu)

/-- C19: the weights are positive and sum to one: every value is a convex combination of the window. -/
theorem wma_convex (data : List XF) (w : ℕ) (hw : 1 ≤ w) (hn : w ≤ data.length + 1) (hd : Fins data) :
    ∃ v, Reports data.length (w - 1) v (wma data w) ∧
      ∀ i, w ≤ i + 1 → i < data.length → ConvexComb (recent (vals data) w i) (v i) := by
  refine ⟨_, wma_reports data w hw hn hd, fun i h1 h2 => ?_⟩
  apply weightedMean_nat_convex
  · rw [recent_length h1 (by simpa using h2)]; simp
  · exact ⟨1, by simp; omega, by decide⟩

/-- The weighted means of `[1, 2, 4]` and `[2, 4, 8]`: `(1 + 4 + 12) / 6` and `(2 + 8 + 24) / 6`. -/
example : ∃ v, Reports 4 2 v (wma ([fin 1, fin 2, fin 4, fin 8] : List XF) 3) ∧ v 2 = 17 / 6 ∧ v 3 = 34 / 6 := by
  refine ⟨_, wma_reports [fin 1, fin 2, fin 4, fin 8] 3 (by decide) (by simp)
    (by intro x hx; simp at hx; rcases hx with rfl | rfl | rfl | rfl <;> trivial), ?_, ?_⟩ <;>
  · simp [weightedMean, recent, vals, List.range']
    norm_num

/-! ## C20: pwma -/

theorem sum_map_range (f : ℕ → ℝ) (n : ℕ) : ((List.range n).map f).sum = ∑ k ∈ Finset.range n, f k := by
  induction n with
  | zero => simp
  | succ n ih => rw [List.range_succ, List.map_append, List.sum_append, ih, Finset.sum_range_succ]; simp

theorem pascal_sum (w : ℕ) (hw : 1 ≤ w) :
    (((List.range w).map fun k => (w - 1).choose k).map fun u : ℕ => (u : ℝ)).sum = 2 ^ (w - 1) := by
  have h := Nat.sum_range_choose (w - 1)
  rw [show w - 1 + 1 = w by omega] at h
  rw [List.map_map, sum_map_range]
  simp only [Function.comp]
  rw [← Nat.cast_sum, h]
  simp

/-- C20: `pwma` reports the weighted mean of the window whose weights are row `w - 1` of Pascal's
triangle, for windows up to 63. -/
theorem pwma_reports (data : List XF) (w : ℕ) (hw : 1 ≤ w) (hp : w ≤ 63) (hn : w ≤ data.length + 1) (hd : Fins data) :
    Reports data.length (w - 1)
      (fun i => weightedMean (((List.range w).map fun k => (w - 1).choose k).map fun u : ℕ => (u : ℝ))
        (recent (vals data) w i)) (pwma data w) := by
  have hr := pascalRow_eq hw hp
  have hW := fins_vals_map (l := (List.range w).map fun k => (w - 1).choose k)
    (f := fun i => (flt i / flt (2 ^ (w - 1)) : XF)) (g := fun i => (i : ℝ) / 2 ^ (w - 1))
    (fun a _ => (is_div (is_flt a) (is_flt _) (by positivity)).congr (by push_cast; rfl))
  run_model [pwma, hr]
  refine reports_windows hw hn fun i h1 h2 => ?_
  rw [← recent_vals]
  refine dot_weightedMean hW.1 (hd.recent w i) ?_
  rw [hW.2, pascal_sum w hw]
  simp only [List.map_map, Function.comp_def]

/-- C20: the weights are positive and sum to one. -/
theorem pwma_convex (data : List XF) (w : ℕ) (hw : 1 ≤ w) (hp : w ≤ 63) (hn : w ≤ data.length + 1) (hd : Fins data) :
    ∃ v, Reports data.length (w - 1) v (pwma data w) ∧
      ∀ i, w ≤ i + 1 → i < data.length → ConvexComb (recent (vals data) w i) (v i) := by
  refine ⟨_, pwma_reports data w hw hp hn hd, fun i h1 h2 => ?_⟩
  apply weightedMean_nat_convex
  · rw [recent_length h1 (by simpa using h2)]; simp
  · exact ⟨1, by rw [List.mem_map]; exact ⟨0, by simp; omega, by simp⟩, by decide⟩

/-- C20, C15: in any arithmetic `pwma` panics exactly for window 0 and for windows of 64 and more, where the
row of Pascal's triangle leaves 64 bits. -/
theorem pwma_panics_iff {F : Type} [FloatOps F] (data : List F) (w : ℕ) : pwma data w = none ↔ w = 0 ∨ 64 ≤ w := by
  rcases Nat.lt_or_ge w 1 with h | h
  · obtain rfl : w = 0 := by omega
    simp [pwma, usub]
  · rcases Nat.lt_or_ge w 64 with h' | h'
    · have hr := pascalRow_eq h (by omega)
      have : pwma data w ≠ none := by run_model [pwma, hr]; simp
      simp [this]; omega
    · have hr := pascalRow_overflow h'
      have : pwma data w = none := by simp [pwma, usub, h, hr]
      simp [this]; omega

/-- Window 5 has the weights 1, 4, 6, 4, 1 over 16. -/
example : ∃ v, Reports 5 4 v (pwma ([fin 1, fin 2, fin 3, fin 4, fin 10] : List XF) 5) ∧ v 4 = 53 / 16 := by
  refine ⟨_, pwma_reports [fin 1, fin 2, fin 3, fin 4, fin 10] 5 (by decide) (by decide) (by simp)
    (by intro x hx; simp at hx; rcases hx with rfl | rfl | rfl | rfl | rfl <;> trivial), ?_⟩
  simp [weightedMean, recent, vals, List.range, List.range.loop, Nat.choose]
  norm_num

/-! ## C21: fwma -/

theorem fibScan_is (n k : ℕ) {a b d : XF} {D : ℝ} (ha : a ⇓ (Nat.fib k : ℝ)) (hb : b ⇓ (Nat.fib (k + 1) : ℝ)) (hd : d ⇓ D) :
    Fins (fibScan n a b d).1 ∧
      vals (fibScan n a b d).1 = ((List.range' (k + 2) n).map Nat.fib).map (fun u : ℕ => (u : ℝ)) ∧
      (fibScan n a b d).2 ⇓ D + (((List.range' (k + 2) n).map Nat.fib).map (fun u : ℕ => (u : ℝ))).sum := by
  induction n generalizing k a b d D with
  | zero => exact ⟨by intro x hx; simp [fibScan] at hx, by simp [fibScan], by simpa [fibScan] using hd⟩
  | succ n ih =>
    have hb' : a + b ⇓ (Nat.fib (k + 2) : ℝ) := (is_add ha hb).congr (by rw [Nat.fib_add_two]; push_cast; rfl)
    obtain ⟨h1, h2, h3⟩ := ih (k + 1) hb hb' (is_add hd hb')
    simp only [fibScan, List.range'_succ, List.map_cons, List.sum_cons]
    refine ⟨?_, ?_, h3.congr (by ring)⟩
    · intro x hx
      rcases List.mem_cons.1 hx with rfl | hx
      · exact hb'.1
      · exact h1 x hx
    · rw [vals_cons, h2, hb'.2]

theorem fwmaWeights_vals (w : ℕ) (hw : 2 ≤ w) : Fins (fwmaWeights (w - 2) : List XF) ∧ vals (fwmaWeights (w - 2) : List XF) =
      (((List.range' 1 w).map Nat.fib).map fun u : ℕ => (u : ℝ)).map fun u =>
        u / (((List.range' 1 w).map Nat.fib).map fun u : ℕ => (u : ℝ)).sum := by
  have h1 : (1 : XF) ⇓ (Nat.fib 1 : ℝ) := is_one.congr (by simp)
  have h2 : (1 : XF) ⇓ (Nat.fib 2 : ℝ) := is_one.congr (by simp)
  obtain ⟨f1, f2, f3⟩ := fibScan_is (w - 2) 1 h1 h2 (is_lit 2)
  have he : ((List.range' 1 w).map Nat.fib).map (fun u : ℕ => (u : ℝ)) =
      1 :: 1 :: ((List.range' 3 (w - 2)).map Nat.fib).map (fun u : ℕ => (u : ℝ)) := by
    obtain ⟨k, rfl⟩ : ∃ k, w = k + 2 := ⟨w - 2, by omega⟩
    simp [List.range'_succ]
  have hs : (fibScan (w - 2) (1 : XF) 1 2).2 ⇓ (((List.range' 1 w).map Nat.fib).map fun u : ℕ => (u : ℝ)).sum := by
    refine f3.congr ?_
    rw [he]
    simp only [List.sum_cons]
    rw [← add_assoc]
    norm_num
  have hpos : (0 : ℝ) < (((List.range' 1 w).map Nat.fib).map fun u : ℕ => (u : ℝ)).sum := by
    rw [he]
    simp only [List.sum_cons]
    have : (0 : ℝ) ≤ (((List.range' 3 (w - 2)).map Nat.fib).map fun u : ℕ => (u : ℝ)).sum := by
      apply List.sum_nonneg
      intro x hx
      obtain ⟨u, -, rfl⟩ := List.mem_map.1 hx
      positivity
    linarith
  have := fins_vals_map (l := (1 : XF) :: 1 :: (fibScan (w - 2) (1 : XF) 1 2).1)
    (f := fun i => i / (fibScan (w - 2) (1 : XF) 1 2).2)
    (g := fun i => i.val / (((List.range' 1 w).map Nat.fib).map fun u : ℕ => (u : ℝ)).sum)
    (fun a ha => is_div (by
      refine FP.Finite.is ?_
      simp only [List.mem_cons] at ha
      rcases ha with rfl | rfl | ha
      · exact is_one.1
      · exact is_one.1
      · exact f1 a ha) hs hpos.ne')
  refine ⟨this.1, ?_⟩
  have e : vals ((1 : XF) :: 1 :: (fibScan (w - 2) (1 : XF) 1 2).1) =
      ((List.range' 1 w).map Nat.fib).map fun u : ℕ => (u : ℝ) := by
    rw [vals_cons, vals_cons, f2, he, is_one.val_eq]
  have h3 := this.2
  rw [fwmaWeights, h3]
  generalize (List.map (fun u : ℕ => (u : ℝ)) (List.map Nat.fib (List.range' 1 w))).sum = S
  rw [← e, vals, List.map_map]
  rfl

/-- C21: `fwma` reports the weighted mean of the window whose weights are the Fibonacci numbers
`F₁, …, F_w`, the newest value having the weight `F_w`. -/
theorem fwma_reports (data : List XF) (w : ℕ) (hw : 2 ≤ w) (hn : w ≤ data.length + 1) (hd : Fins data) :
    Reports data.length (w - 1)
      (fun i => weightedMean (((List.range' 1 w).map Nat.fib).map fun u : ℕ => (u : ℝ)) (recent (vals data) w i))
      (fwma data w) := by
  have hW := fwmaWeights_vals w hw
  run_model [fwma]
  refine reports_windows (by omega) hn fun i _ _ => ?_
  rw [← recent_vals]
  exact dot_weightedMean hW.1 (hd.recent w i) hW.2

/-- C21: every value is a convex combination of the window. -/
theorem fwma_convex (data : List XF) (w : ℕ) (hw : 2 ≤ w) (hn : w ≤ data.length + 1) (hd : Fins data) :
    ∃ v, Reports data.length (w - 1) v (fwma data w) ∧
      ∀ i, w ≤ i + 1 → i < data.length → ConvexComb (recent (vals data) w i) (v i) := by
  refine ⟨_, fwma_reports data w hw hn hd, fun i h1 h2 => ?_⟩
  apply weightedMean_nat_convex
  · rw [recent_length h1 (by simpa using h2)]; simp
  · exact ⟨1, by rw [List.mem_map]; exact ⟨1, by simp; omega, by simp⟩, by decide⟩

/-- C15: `fwma` panics exactly for windows below 2 (so a window of 1, valid for every other average, is
not accepted). -/
theorem fwma_panics_iff {F : Type} [FloatOps F] (data : List F) (w : ℕ) : fwma data w = none ↔ w < 2 := by
  rcases Nat.lt_or_ge w 2 with h | h
  · have : ¬ 2 ≤ w := by omega
    simp [fwma, usub, this]; omega
  · have : fwma data w ≠ none := by run_model [fwma]; simp
    simp [this]; omega

/-- Window 4 has the weights 1, 1, 2, 3 over 7. -/
example : ∃ v, Reports 5 3 v (fwma ([fin 1, fin 2, fin 3, fin 4, fin 10] : List XF) 4) ∧ v 4 = 43 / 7 := by
  refine ⟨_, fwma_reports [fin 1, fin 2, fin 3, fin 4, fin 10] 4 (by decide) (by simp)
    (by intro x hx; simp at hx; rcases hx with rfl | rfl | rfl | rfl | rfl <;> trivial), ?_⟩
  simp [weightedMean, recent, vals, List.range', Nat.fib_add_two]
  norm_num

/-! ## C22: trima -/

/-- `sma` over the output of another indicator. -/
theorem sma_after {n k w : ℕ} {v : ℕ → ℝ} {m : List XF} (hm : Reports n k v (some m)) (hw : 1 ≤ w) (hn : w ≤ n + 1) :
    Reports n (k + (w - 1)) (fun i => mean (lastOf v w i)) (sma m w) := by
  run_model [sma]
  refine hm.windows hw hn (fun l _ hx => ?_) fun i h1 h2 => ?_
  · have := fsum_isNaN hx
    nanp
  · obtain ⟨h3, h4⟩ := hm.recent h1 h2
    have h := is_div h3.fsum (is_flt w) (natCast_pos hw).ne'
    rw [h4] at h
    refine h.congr ?_
    rw [mean]
    simp [lastOf]

theorem within_lastOf {lo hi : ℝ} {v : ℕ → ℝ} {w i : ℕ} (h : ∀ j, i + 1 ≤ j + w → j ≤ i → lo ≤ v j ∧ v j ≤ hi)
    (hw : w ≤ i + 1) : Within lo hi (lastOf v w i) := by
  intro x hx
  obtain ⟨j, hj, rfl⟩ := List.mem_map.1 hx
  rw [List.mem_range] at hj
  exact h _ (by omega) (by omega)

theorem mem_recent {α : Type} {l : List α} {w i : ℕ} {x : α} :
    x ∈ recent l w i ↔ ∃ j, i + 1 - w ≤ j ∧ j < i + 1 - w + w ∧ l[j]? = some x := by
  rw [List.mem_iff_getElem?]
  constructor
  · rintro ⟨j, hj⟩
    rw [recent, List.getElem?_take] at hj
    split at hj
    · rw [List.getElem?_drop] at hj
      exact ⟨_, by omega, by omega, hj⟩
    · cases hj
  · rintro ⟨j, h1, h2, h3⟩
    refine ⟨j - (i + 1 - w), ?_⟩
    rw [recent, List.getElem?_take_of_lt (by omega), List.getElem?_drop, show i + 1 - w + (j - (i + 1 - w)) = j by omega]
    exact h3

/-- C22: `trima` starts at bar `w - 1` and reports the mean of the last `⌊w/2⌋ + 1` simple averages of
window `⌈w/2⌉`. -/
theorem trima_reports (data : List XF) (w : ℕ) (hw : 1 ≤ w) (hn : w ≤ data.length + 1) (hd : Fins data) :
    Reports data.length (w - 1)
      (fun i => mean (lastOf (fun j => mean (recent (vals data) ((w + 1) / 2) j)) (w / 2 + 1) i)) (trima data w) := by
  have e1 : divCeil w 2 = (w + 1) / 2 := divCeil_two _
  have e2 : (if w % 2 = 0 then (w + 1) / 2 + 1 else (w + 1) / 2) = w / 2 + 1 := by split <;> omega
  obtain ⟨m, em, rm, lm⟩ := (sma_reports data ((w + 1) / 2) (by omega) (by omega) hd).some
  have := sma_after rm (w := w / 2 + 1) (by omega) (by omega)
  simp only [trima, e1, e2, em, Option.bind_eq_bind, Option.bind_some]
  rw [show (w + 1) / 2 - 1 + (w / 2 + 1 - 1) = w - 1 by omega] at this
  exact this

/-- C22: every value of `trima` lies between any bounds of the last `w` values. -/
theorem trima_within (data : List XF) (w : ℕ) (hw : 1 ≤ w) (hn : w ≤ data.length + 1) (hd : Fins data) :
    ∃ v, Reports data.length (w - 1) v (trima data w) ∧ ∀ i, w ≤ i + 1 → i < data.length → ∀ lo hi,
      Within lo hi (recent (vals data) w i) → lo ≤ v i ∧ v i ≤ hi := by
  refine ⟨_, trima_reports data w hw hn hd, fun i h1 h2 lo hi h => ?_⟩
  refine within_mean (within_lastOf (fun j hj1 hj2 => ?_) (by omega)) (by simp [lastOf])
  refine within_mean (fun x hx => h x ?_) ?_
  · rw [mem_recent] at *
    obtain ⟨k, hk⟩ := hx
    exact ⟨k, by omega, by omega, hk.2.2⟩
  · rw [← List.length_pos_iff, recent_length (by omega) (by simp; omega)]
    omega

/-- Window 3: the mean of two means of two values; window 4: the mean of three means of two values. -/
example : ∃ v, Reports 4 2 v (trima ([fin 1, fin 2, fin 5, fin 10] : List XF) 3) ∧ v 2 = 10 / 4 := by
  refine ⟨_, trima_reports [fin 1, fin 2, fin 5, fin 10] 3 (by decide) (by simp)
    (by intro x hx; simp at hx; rcases hx with rfl | rfl | rfl | rfl <;> trivial), ?_⟩
  simp [mean, lastOf, recent, vals, List.range, List.range.loop]
  norm_num

/-! ## C23: lrf -/

/-- Sum of squared errors of the line `a + b * x` at `x = 1, 2, …` for the values `ys`. -/
noncomputable def lineError (a b : ℝ) (ys : List ℝ) : ℝ :=
  (((List.range' 1 ys.length).zip ys).map fun p => (p.2 - (a + b * (p.1 : ℝ))) ^ 2).sum

theorem pair_foldl_is {l : List (XF × XF)} {s : XF × XF} {u : ℝ × ℝ} (h1 : s.1 ⇓ u.1) (h2 : s.2 ⇓ u.2)
    (hl : ∀ p ∈ l, p.1.Finite ∧ p.2.Finite) :
    (l.foldl (fun (st : XF × XF) (cv : XF × XF) => (st.1 + cv.2, st.2 + cv.1 * cv.2)) s).1 ⇓
        u.1 + (l.map fun p => p.2.val).sum ∧
      (l.foldl (fun (st : XF × XF) (cv : XF × XF) => (st.1 + cv.2, st.2 + cv.1 * cv.2)) s).2 ⇓
        u.2 + (l.map fun p => p.1.val * p.2.val).sum := by
  induction l generalizing s u with
  | nil => simpa using ⟨h1, h2⟩
  | cons p l ih =>
    have hp := hl p (by simp)
    have := ih (s := (s.1 + p.2, s.2 + p.1 * p.2)) (u := (u.1 + p.2.val, u.2 + p.1.val * p.2.val))
      (is_add h1 hp.2.is) (is_add h2 (is_mul hp.1.is hp.2.is)) (fun q hq => hl q (by simp [hq]))
    simp only [List.foldl_cons, List.map_cons, List.sum_cons]
    exact ⟨this.1.congr (by simp; ring), this.2.congr (by simp; ring)⟩

/-- Sum of `y` and of `k * y` over the window, `k = 1 … w`. -/
noncomputable def ySum (ys : List ℝ) : ℝ := ys.sum
noncomputable def xySum (ys : List ℝ) : ℝ := (((List.range' 1 ys.length).zip ys).map fun p => (p.1 : ℝ) * p.2).sum

/-- The regression coefficients computed by lrf. -/
noncomputable def slope (ys : List ℝ) : ℝ :=
  let w : ℝ := ys.length
  let x := w * (w + 1) / 2
  let xx := x * (2 * w + 1) / 3
  (w * xySum ys - x * ySum ys) / (w * xx - x * x)
noncomputable def intercept (ys : List ℝ) : ℝ :=
  let w : ℝ := ys.length
  let x := w * (w + 1) / 2
  let xx := x * (2 * w + 1) / 3
  (ySum ys * xx - x * xySum ys) / (w * xx - x * x)

theorem divisor_pos {w : ℝ} (h : 2 ≤ w) :
    0 < w * (w * (w + 1) / 2 * (2 * w + 1) / 3) - w * (w + 1) / 2 * (w * (w + 1) / 2) := by
  have e : w * (w * (w + 1) / 2 * (2 * w + 1) / 3) - w * (w + 1) / 2 * (w * (w + 1) / 2) =
      w ^ 2 * (w + 1) * (w - 1) / 12 := by ring
  rw [e]
  have : 0 < w - 1 := by linarith
  positivity

theorem lrfWin_is {l : List XF} (h : Fins l) (hl : 2 ≤ l.length) :
    lrfWin l.length l ⇓ slope (vals l) * l.length + intercept (vals l) := by
  set w := l.length with hw
  have hwp : (2 : ℝ) ≤ w := by exact_mod_cast hl
  have hx : (flt (w * (w + 1)) / 2 : XF) ⇓ (w : ℝ) * (w + 1) / 2 :=
    (is_div (is_flt _) (is_lit 2) (by norm_num)).congr (by push_cast; rfl)
  have hxx : (flt (w * (w + 1)) / 2 * flt (2 * w + 1) / 3 : XF) ⇓ (w : ℝ) * (w + 1) / 2 * (2 * w + 1) / 3 :=
    (is_div (is_mul hx (is_flt _)) (is_lit 3) (by norm_num)).congr (by push_cast; rfl)
  have hz : ∀ p ∈ ((List.range' 1 w).map fun x => (flt x : XF)).zip l, p.1.Finite ∧ p.2.Finite := by
    intro p hp
    have := List.of_mem_zip hp
    obtain ⟨k, -, e⟩ := List.mem_map.1 this.1
    exact ⟨by rw [← e]; exact (is_flt k).1, h _ this.2⟩
  have hf := pair_foldl_is (s := ((0 : XF), (0 : XF))) (u := (0, 0)) is_zero is_zero hz
  have e1 : ((((List.range' 1 w).map fun x => (flt x : XF)).zip l).map fun p => p.2.val).sum = ySum (vals l) := by
    have : (((List.range' 1 w).map fun x => (flt x : XF)).zip l).map (fun p => p.2.val) =
        ((((List.range' 1 w).map fun x => (flt x : XF)).zip l).map Prod.snd).map val := by
      rw [List.map_map]; rfl
    rw [this, List.map_snd_zip (by simp [hw])]
    rfl
  have e2 : ((((List.range' 1 w).map fun x => (flt x : XF)).zip l).map fun p => p.1.val * p.2.val).sum =
      xySum (vals l) := by
    rw [xySum, vals_length, ← hw, vals, List.zip_map_left, List.zip_map_right, List.map_map, List.map_map]
    congr 1
    apply List.map_congr_left
    intro p _
    simp [(is_flt p.1).val_eq]
  rw [e1, e2] at hf
  simp only [zero_add] at hf
  have hdiv := is_sub (is_mul (is_flt w) hxx) (is_mul hx hx)
  have hd0 := (divisor_pos hwp).ne'
  have := is_add (is_mul (is_div (is_sub (is_mul (is_flt w) hf.2) (is_mul hx hf.1)) hdiv hd0) (is_flt w))
    (is_div (is_sub (is_mul hf.1 hxx) (is_mul hx hf.2)) hdiv hd0)
  refine FP.Is.congr (a := _) this ?_
  simp only [slope, intercept, vals_length, ← hw]

/-- The normal equations make a line a minimiser. -/
theorem lineError_min (ys : List ℝ) (a b a' b' : ℝ)
    (h1 : (((List.range' 1 ys.length).zip ys).map fun p => p.2 - (a + b * (p.1 : ℝ))).sum = 0)
    (h2 : (((List.range' 1 ys.length).zip ys).map fun p => (p.1 : ℝ) * (p.2 - (a + b * (p.1 : ℝ)))).sum = 0) :
    lineError a b ys ≤ lineError a' b' ys := by
  have key : ∀ l : List (ℕ × ℝ), (l.map fun p => (p.2 - (a + b * (p.1 : ℝ))) ^ 2).sum +
      2 * (a - a') * (l.map fun p => p.2 - (a + b * (p.1 : ℝ))).sum +
      2 * (b - b') * (l.map fun p => (p.1 : ℝ) * (p.2 - (a + b * (p.1 : ℝ)))).sum ≤
      (l.map fun p => (p.2 - (a' + b' * (p.1 : ℝ))) ^ 2).sum := by
    intro l
    induction l with
    | nil => simp
    | cons p l ih =>
      simp only [List.map_cons, List.sum_cons]
      nlinarith [sq_nonneg ((a - a') + (b - b') * (p.1 : ℝ))]
  have := key ((List.range' 1 ys.length).zip ys)
  rw [h1, h2] at this
  simpa [lineError] using this

theorem sum_range'_sq (n : ℕ) :
    ((List.range' 1 n).map fun i : ℕ => (i : ℝ) * i).sum = (n : ℝ) * (n + 1) / 2 * (2 * n + 1) / 3 := by
  induction n with
  | zero => simp
  | succ n ih =>
    rw [List.range'_1_concat, List.map_append, List.sum_append, ih]
    simp
    ring

theorem sum_zip_fst (f : ℕ → ℝ) (ys : List ℝ) :
    (((List.range' 1 ys.length).zip ys).map fun p => f p.1).sum = ((List.range' 1 ys.length).map f).sum := by
  have : ((List.range' 1 ys.length).zip ys).map (fun p => f p.1) =
      (((List.range' 1 ys.length).zip ys).map Prod.fst).map f := by rw [List.map_map]; rfl
  rw [this, List.map_fst_zip (by simp)]

theorem sum_zip_snd (ys : List ℝ) : (((List.range' 1 ys.length).zip ys).map fun p => p.2).sum = ys.sum := by
  rw [List.map_snd_zip (by simp)]

theorem normal_eq₁ {w x xx S T : ℝ} (h : w * xx - x * x ≠ 0) :
    S - (S * xx - x * T) / (w * xx - x * x) * w - (w * T - x * S) / (w * xx - x * x) * x = 0 := by
  generalize hD : w * xx - x * x = D at h ⊢
  field_simp
  rw [← hD]
  ring

theorem normal_eq₂ {w x xx S T : ℝ} (h : w * xx - x * x ≠ 0) :
    T - (S * xx - x * T) / (w * xx - x * x) * x - (w * T - x * S) / (w * xx - x * x) * xx = 0 := by
  generalize hD : w * xx - x * x = D at h ⊢
  field_simp
  rw [← hD]
  ring

/-- The coefficients of lrf solve the normal equations. -/
theorem lineError_slope_min (ys : List ℝ) (h : 2 ≤ ys.length) (a b : ℝ) :
    lineError (intercept ys) (slope ys) ys ≤ lineError a b ys := by
  have hw : (2 : ℝ) ≤ ys.length := by exact_mod_cast h
  have hd := (divisor_pos hw).ne'
  have hx : ((List.range' 1 ys.length).map fun i : ℕ => (i : ℝ)).sum = (ys.length : ℝ) * (ys.length + 1) / 2 := by
    rw [sum_range'_cast]; ring
  have hxx := sum_range'_sq ys.length
  have g1 : ∀ (A B : ℝ) (l : List (ℕ × ℝ)), (l.map fun p => p.2 - (A + B * (p.1 : ℝ))).sum =
      (l.map fun p => p.2).sum - A * l.length - B * (l.map fun p => (p.1 : ℝ)).sum := by
    intro A B l
    induction l with
    | nil => simp
    | cons p l ih => simp only [List.map_cons, List.sum_cons, ih, List.length_cons]; push_cast; ring
  have g2 : ∀ (A B : ℝ) (l : List (ℕ × ℝ)), (l.map fun p => (p.1 : ℝ) * (p.2 - (A + B * (p.1 : ℝ)))).sum =
      (l.map fun p => (p.1 : ℝ) * p.2).sum - A * (l.map fun p => (p.1 : ℝ)).sum -
        B * (l.map fun p => (p.1 : ℝ) * p.1).sum := by
    intro A B l
    induction l with
    | nil => simp
    | cons p l ih => simp only [List.map_cons, List.sum_cons, ih]; ring
  apply lineError_min
  · rw [g1, sum_zip_snd, sum_zip_fst (fun i => (i : ℝ)), hx]
    simp only [List.length_zip, List.length_range', min_self, slope, intercept, ySum]
    exact normal_eq₁ hd
  · rw [g2, sum_zip_fst (fun i => (i : ℝ)), sum_zip_fst (fun i => (i : ℝ) * i), hx, hxx, ← xySum]
    simp only [slope, intercept, ySum]
    exact normal_eq₂ hd

/-- C23: `lrf` reports, at every bar, the value at the newest bar of a line that minimises the sum of
squared errors over the window. -/
theorem lrf_least_squares (data : List XF) (w : ℕ) (hw : 2 ≤ w) (hn : w ≤ data.length + 1) (hd : Fins data) :
    ∃ a b : ℕ → ℝ, Reports data.length (w - 1) (fun i => a i + b i * w) (lrf data w) ∧
      ∀ i, w ≤ i + 1 → i < data.length → ∀ a' b',
        lineError (a i) (b i) (recent (vals data) w i) ≤ lineError a' b' (recent (vals data) w i) := by
  refine ⟨fun i => intercept (recent (vals data) w i), fun i => slope (recent (vals data) w i), ?_, ?_⟩
  · run_model [lrf]
    refine reports_windows (by omega) hn fun i h1 h2 => ?_
    have hl := recent_length h1 h2
    have := lrfWin_is (hd.recent w i) (by omega)
    rw [hl, recent_vals] at this
    exact this.congr (by ring)
  · intro i h1 h2 a' b'
    exact lineError_slope_min _ (by rw [recent_length h1 (by simpa using h2)]; exact hw) _ _

/-- A line without error is the only minimiser of a window of two values or more. -/
theorem lineError_eq_zero {a b : ℝ} {ys : List ℝ} (h : lineError a b ys ≤ 0) :
    ∀ k, k < ys.length → ys[k]? = some (a + b * (k + 1)) := by
  intro k hk
  have hnn : ∀ l : List (ℕ × ℝ), 0 ≤ (l.map fun p => (p.2 - (a + b * (p.1 : ℝ))) ^ 2).sum := fun l =>
    List.sum_nonneg (by intro x hx; obtain ⟨p, -, rfl⟩ := List.mem_map.1 hx; positivity)
  have hz : ∀ l : List (ℕ × ℝ), (l.map fun p => (p.2 - (a + b * (p.1 : ℝ))) ^ 2).sum ≤ 0 →
      ∀ p ∈ l, p.2 = a + b * p.1 := by
    intro l
    induction l with
    | nil => simp
    | cons q l ih =>
      intro h p hp
      simp only [List.map_cons, List.sum_cons] at h
      have := hnn l
      have hq : (q.2 - (a + b * (q.1 : ℝ))) ^ 2 = 0 := le_antisymm (by linarith) (sq_nonneg _)
      rcases List.mem_cons.1 hp with rfl | hp
      · have := pow_eq_zero_iff (two_ne_zero) |>.1 hq
        linarith
      · exact ih (by linarith [sq_nonneg (q.2 - (a + b * (q.1 : ℝ)))]) p hp
  have := hz _ h (k + 1, ys[k]) (by
    rw [List.mem_iff_getElem?]
    refine ⟨k, ?_⟩
    rw [List.getElem?_zip_eq_some]
    exact ⟨by rw [List.getElem?_range' hk]; simp [add_comm], by simp⟩)
  rw [getElem?_of_lt hk]
  push_cast at this
  exact congrArg some this

/-- C23: on a series that is a straight line `lrf` reproduces the series. -/
theorem lrf_line (data : List XF) (w : ℕ) (c m : ℝ) (hw : 2 ≤ w) (hn : w ≤ data.length + 1)
    (hd : ∀ (i : ℕ) x, data[i]? = some x → x ⇓ c + m * i) :
    Reports data.length (w - 1) (fun i => c + m * i) (lrf data w) := by
  have hf : Fins data := fun x hx => by
    obtain ⟨i, hi⟩ := List.mem_iff_getElem?.1 hx
    exact (hd i x hi).1
  obtain ⟨a, b, h1, h2⟩ := lrf_least_squares data w hw hn hf
  refine h1.congr fun i hi hin => ?_
  have hl : (recent (vals data) w i).length = w := recent_length (by omega) (by simpa using hin)
  have hv : ∀ k, k < w → (recent (vals data) w i)[k]? = some (c + m * (i + 1 - w + k : ℕ)) := by
    intro k hk
    rw [recent, List.getElem?_take_of_lt hk, List.getElem?_drop, vals_getElem?, getElem?_of_lt (by omega)]
    exact congrArg some (hd _ _ (getElem?_of_lt (by omega))).2
  have hz := h2 i (by omega) hin (c + m * (i + 1 - w : ℕ) - m) m
  have h0 : lineError (c + m * (i + 1 - w : ℕ) - m) m (recent (vals data) w i) = 0 := by
    apply List.sum_eq_zero
    intro x hx
    obtain ⟨p, hp, rfl⟩ := List.mem_map.1 hx
    obtain ⟨k, hk⟩ := List.mem_iff_getElem?.1 hp
    rw [List.getElem?_zip_eq_some] at hk
    have hk' := (List.getElem?_eq_some_iff.1 hk.2).1
    rw [hl] at hk'
    have e1 := hk.1
    rw [List.getElem?_range' (by rw [hl]; exact hk')] at e1
    have e2 := hk.2
    rw [hv k hk'] at e2
    rw [← Option.some.inj e1, ← Option.some.inj e2]
    push_cast
    ring
  rw [h0] at hz
  have := lineError_eq_zero hz (w - 1) (by omega)
  rw [hv _ (by omega)] at this
  have e := Option.some.inj this
  have e3 : ((w - 1 : ℕ) : ℝ) + 1 = w := by
    have : w - 1 + 1 = w := by omega
    exact_mod_cast this
  rw [e3] at e
  rw [← e]
  congr 3
  omega

/-- `1, 3, 5, 7` is a line. -/
example : Reports 4 2 (fun i => 1 + 2 * i) (lrf ([fin 1, fin 3, fin 5, fin 7] : List XF) 3) := by
  refine lrf_line [fin 1, fin 3, fin 5, fin 7] 3 1 2 (by decide) (by simp) fun i x hx => ?_
  match i, hx with
  | 0, hx => cases hx; exact (is_fin _).congr (by norm_num)
  | 1, hx => cases hx; exact (is_fin _).congr (by norm_num)
  | 2, hx => cases hx; exact (is_fin _).congr (by norm_num)
  | 3, hx => cases hx; exact (is_fin _).congr (by norm_num)

end Traquer.Smooth
