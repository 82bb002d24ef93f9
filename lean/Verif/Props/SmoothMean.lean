import Verif.Model.Smooth
import Verif.Lemmas.Real
/-!
# C16, C17, C18, C19, C22: means

Exact arithmetic (`XF`); rounding versions are in other files.
-/

namespace Traquer.Smooth
open FP FloatLit

theorem natCast_pos {n : ℕ} (h : 1 ≤ n) : (0 : ℝ) < n := by exact_mod_cast h

/-! ## C16: sma -/

/-- C16: `sma` is NaN for `w - 1` bars and then the arithmetic mean of the last `w` values. -/
theorem sma_reports (data : List XF) (w : ℕ) (hw : 1 ≤ w) (hn : w ≤ data.length + 1) (hd : Fins data) :
    Reports data.length (w - 1) (fun i => mean (recent (vals data) w i)) (sma data w) := by
  run_model [sma]
  refine reports_windows hw hn fun i h1 h2 => ?_
  have h := is_div (hd.recent w i).fsum (is_flt w) (natCast_pos hw).ne'
  rw [recent_vals] at h
  refine h.congr ?_
  rw [mean, recent_length h1 (by simpa using h2)]

/-- C16: every value of `sma` lies between any bounds of the values in its window. -/
theorem sma_within (data : List XF) (w : ℕ) (hw : 1 ≤ w) (hn : w ≤ data.length + 1) (hd : Fins data) :
    ∃ v, Reports data.length (w - 1) v (sma data w) ∧ ∀ i, w ≤ i + 1 → i < data.length → ∀ lo hi,
      Within lo hi (recent (vals data) w i) → lo ≤ v i ∧ v i ≤ hi := by
  refine ⟨_, sma_reports data w hw hn hd, fun i h1 h2 lo hi h => within_mean h ?_⟩
  rw [← List.length_pos_iff, recent_length h1 (by simpa using h2)]
  omega

theorem recent_replicate {α : Type} (n w i : ℕ) (c : α) (h1 : w ≤ i + 1) (h2 : i < n) :
    recent (List.replicate n c) w i = List.replicate w c := by
  simp [recent]
  omega

/-- C16: `sma` of a constant series is that constant. -/
theorem sma_const (n w : ℕ) (c : ℝ) (hw : 1 ≤ w) (hn : w ≤ n + 1) :
    Reports n (w - 1) (fun _ => c) (sma (List.replicate n (fin c : XF)) w) := by
  have h := sma_reports (List.replicate n (fin c : XF)) w hw (by simpa using hn)
    (fun x hx => by rw [List.eq_of_mem_replicate hx]; trivial)
  rw [List.length_replicate] at h
  refine h.congr fun i h1 h2 => ?_
  simp only [vals, List.map_replicate, val]
  rw [recent_replicate _ _ _ _ (by omega) h2, mean_replicate hw]

theorem mean_affine (a b : ℝ) (l : List ℝ) (h : l ≠ []) : mean (l.map fun x => a * x + b) = a * mean l + b := by
  have hp : (l.length : ℝ) ≠ 0 := by
    have := List.length_pos_iff.2 h
    positivity
  have hs : (l.map fun x => a * x + b).sum = a * l.sum + b * l.length := by
    clear h hp
    induction l with
    | nil => simp
    | cons x l ih =>
      simp only [List.map_cons, List.sum_cons, ih, List.length_cons, Nat.cast_add, Nat.cast_one]
      ring
  rw [mean, mean, hs, List.length_map]
  field_simp

/-- C16: changing the unit and origin of the prices changes `sma` in the same way. -/
theorem sma_affine (xs : List ℝ) (w : ℕ) (a b : ℝ) (hw : 1 ≤ w) (hn : w ≤ xs.length + 1) :
    ∃ v, Reports xs.length (w - 1) v (sma (xs.map (fin : ℝ → XF)) w) ∧
      Reports xs.length (w - 1) (fun i => a * v i + b) (sma ((xs.map fun x => a * x + b).map (fin : ℝ → XF)) w) := by
  have h := sma_reports (xs.map (fin : ℝ → XF)) w hw (by simpa using hn) (fins_map_fin _)
  have h' := sma_reports ((xs.map fun x => a * x + b).map (fin : ℝ → XF)) w hw (by simpa using hn) (fins_map_fin _)
  simp only [List.length_map, vals_map_fin] at h h'
  refine ⟨_, h, h'.congr fun i h1 h2 => ?_⟩
  rw [recent_map, mean_affine]
  rw [← List.length_pos_iff, recent_length (by omega) h2]
  omega

/-- What the statement says on a concrete series: the means of `[1, 2, 3]` and `[2, 3, 4]`. -/
example : ∃ out : List XF, sma [fin 1, fin 2, fin 3, fin 4] 3 = some out ∧ out.length = 4 ∧
    out[1]? = some nan ∧ (∃ y, out[2]? = some y ∧ y ⇓ 2) ∧ (∃ y, out[3]? = some y ∧ y ⇓ 3) := by
  obtain ⟨o, h1, h2, h3, h4⟩ := sma_reports [fin 1, fin 2, fin 3, fin 4] 3 (by decide) (by simp)
    (by intro x hx; simp at hx; rcases hx with rfl | rfl | rfl | rfl <;> trivial)
  refine ⟨o, h1, h2, h3 1 (by decide) (by simp), ?_, ?_⟩
  · obtain ⟨y, e, hy⟩ := h4 2 (by decide) (by simp)
    exact ⟨y, e, hy.congr (by simp [mean, recent, vals]; norm_num)⟩
  · obtain ⟨y, e, hy⟩ := h4 3 (by decide) (by simp)
    exact ⟨y, e, hy.congr (by simp [mean, recent, vals]; norm_num)⟩

/-! ## C17: ewma -/

/-- C17: `ewma` starts at bar `w - 1` with the mean of the first `w` values and then moves by `2/(w+1)`
towards each new value. -/
theorem ewma_reports (data : List XF) (w : ℕ) (hw : 1 ≤ w) (hn : w ≤ data.length) (hd : Fins data) :
    ∃ v, Reports data.length (w - 1) v (ewma data w) ∧ v (w - 1) = mean ((vals data).take w) ∧
      ∀ i x, w - 1 ≤ i → (vals data)[i + 1]? = some x →
        v (i + 1) = x * (2 / (w + 1)) + v i * (1 - 2 / (w + 1)) := by
  have hw' := natCast_pos hw
  have h0 : fsum (data.take w) / flt w ⇓ mean ((vals data).take w) := by
    have h := is_div (hd.take w).fsum (is_flt w) hw'.ne'
    refine h.congr ?_
    rw [mean, vals_take, List.length_take, vals_length, min_eq_left hn]
  have ha : (2 / flt (w + 1) : XF) ⇓ 2 / (w + 1) := by
    have := is_div (is_lit 2) (is_flt (w + 1)) (by positivity)
    push_cast at this
    exact this
  let g : ℝ → ℝ → ℝ := fun s x => x * (2 / (w + 1)) + s * (1 - 2 / (w + 1))
  refine ⟨fun i => (((vals data).drop w).take (i + 1 - w)).foldl g (mean ((vals data).take w)), ?_, ?_, ?_⟩
  · run_model [ewma]
    refine reports_nans (by simp; omega) fun i hi => ?_
    cases i with
    | zero =>
      refine ⟨_, rfl, h0.congr ?_⟩
      simp [show w - 1 + 1 - w = 0 by omega]
    | succ i =>
      simp at hi
      simp only [List.getElem?_cons_succ]
      obtain ⟨y, h1, h2⟩ := scanS_is (f := fun state x : XF => x * (2 / flt (w + 1)) + state * (1 - 2 / flt (w + 1)))
        (g := fun (s : ℝ) (x : XF) => g s x.val) (l := data.drop w) h0 (fun s u x hx hs => by
          have hx' := (hd.drop w x hx).is
          exact is_add (is_mul hx' ha) (is_mul hs (is_sub is_one ha))) i (by simp; omega)
      refine ⟨y, h1, h2.congr ?_⟩
      rw [show w - 1 + (i + 1) + 1 - w = i + 1 by omega, foldl_vals_slice]
  · simp [show w - 1 + 1 - w = 0 by omega]
  · intro i x hi hx
    show List.foldl g _ _ = g (List.foldl g _ _) x
    rw [show i + 1 + 1 - w = i + 1 - w + 1 by omega]
    refine foldl_take_succ g _ _ _ ?_
    rw [List.getElem?_drop, show w + (i + 1 - w) = i + 1 by omega]
    exact hx

theorem within_take_succ {lo hi : ℝ} {l : List ℝ} {i : ℕ} (h : Within lo hi (l.take (i + 1))) :
    Within lo hi (l.take i) := fun x hx =>
  h x ((List.take_prefix_take_left (by omega)).subset hx)

theorem mem_take_of_getElem? {α : Type} {l : List α} {i n : ℕ} {x : α} (h : l[i]? = some x) (hi : i < n) : x ∈ l.take n := by
  rw [List.mem_iff_getElem?]
  exact ⟨i, by rw [List.getElem?_take_of_lt hi]; exact h⟩

theorem two_div_succ_range {w : ℕ} (hw : 1 ≤ w) : (0 : ℝ) ≤ 2 / (w + 1) ∧ (2 : ℝ) / (w + 1) ≤ 1 := by
  have : (1 : ℝ) ≤ w := by exact_mod_cast hw
  constructor
  · positivity
  · rw [div_le_one (by positivity)]; linarith

/-- C17: every value of `ewma` lies within any bounds of the inputs seen so far. -/
theorem ewma_within (data : List XF) (w : ℕ) (hw : 1 ≤ w) (hn : w ≤ data.length) (hd : Fins data) :
    ∃ v, Reports data.length (w - 1) v (ewma data w) ∧ ∀ i, w ≤ i + 1 → i < data.length → ∀ lo hi,
      Within lo hi ((vals data).take (i + 1)) → lo ≤ v i ∧ v i ≤ hi := by
  obtain ⟨v, h1, h2, h3⟩ := ewma_reports data w hw hn hd
  refine ⟨v, h1, ?_⟩
  intro i hi
  induction i, (show w - 1 ≤ i by omega) using Nat.le_induction with
  | base =>
    intro hlt lo hi hwi
    rw [h2]
    rw [show w - 1 + 1 = w by omega] at hwi
    refine within_mean hwi ?_
    rw [← List.length_pos_iff]
    simp; omega
  | succ i hi' ih =>
    intro hlt lo hi hwi
    have hx : (vals data)[i + 1]? = some ((vals data)[i + 1]'(by simpa using hlt)) := by simp
    rw [h3 i _ hi' hx]
    refine convex_range (hwi _ (mem_take_of_getElem? hx (by omega))) ?_ (two_div_succ_range hw).1 (two_div_succ_range hw).2
    exact ih (by omega) (by omega) lo hi (within_take_succ hwi)

/-- C17: a constant series is a fixed point of `ewma`. -/
theorem ewma_const (n w : ℕ) (c : ℝ) (hw : 1 ≤ w) (hn : w ≤ n) :
    Reports n (w - 1) (fun _ => c) (ewma (List.replicate n (fin c : XF)) w) := by
  obtain ⟨v, h1, h2⟩ := ewma_within (List.replicate n (fin c : XF)) w hw (by simpa using hn)
    (fun x hx => by rw [List.eq_of_mem_replicate hx]; trivial)
  rw [List.length_replicate] at h1 h2
  refine h1.congr fun i hi hi2 => ?_
  have := h2 i (by omega) hi2 c c (fun x hx => by
    simp only [vals, List.map_replicate, val] at hx
    rw [List.eq_of_mem_replicate (List.mem_of_mem_take hx)]
    exact ⟨le_refl _, le_refl _⟩)
  linarith [this.1, this.2]

example : ∃ v, Reports 4 1 v (ewma ([fin 1, fin 3, fin 5, fin (-1)] : List XF) 2) ∧ v 1 = 2 ∧ v 2 = 4 := by
  obtain ⟨v, h1, h2, h3⟩ := ewma_reports [fin 1, fin 3, fin 5, fin (-1)] 2 (by decide) (by simp)
    (by intro x hx; simp at hx; rcases hx with rfl | rfl | rfl | rfl <;> trivial)
  have e1 : v 1 = 2 := by rw [h2]; simp [mean, vals]; norm_num
  exact ⟨v, h1, e1, by rw [h3 1 5 (by simp) (by simp [vals]), e1]; norm_num⟩

/-! ## C18: wilder -/

/-- C18: `wilder` starts with the mean of the first `w` values and continues with
`(previous * (w - 1) + x) / w`. -/
theorem wilder_reports (data : List XF) (w : ℕ) (hw : 1 ≤ w) (hn : w ≤ data.length) (hd : Fins data) :
    ∃ v, Reports data.length (w - 1) v (wilder data w) ∧ v (w - 1) = mean ((vals data).take w) ∧
      ∀ i x, w - 1 ≤ i → (vals data)[i + 1]? = some x → v (i + 1) = (v i * (w - 1) + x) / w := by
  by_cases h1 : w = 1
  · subst h1
    refine ⟨fun i => (vals data)[i]?.getD 0, ?_, ?_, ?_⟩
    · refine ⟨data, by simp [wilder], rfl, fun i hi => by simp at hi, fun i _ hi => ?_⟩
      exact ⟨_, getElem?_of_lt hi, hd.getElem? (getElem?_of_lt hi)⟩
    · cases data with
      | nil => simp at hn
      | cons x l => simp [mean]
    · intro i x _ hx
      simp [hx]
  have hk : (0 : ℝ) < ((w - 1 : ℕ) : ℝ) := natCast_pos (by omega)
  have hk1 : ((w - 1 : ℕ) : ℝ) = (w : ℝ) - 1 := by push_cast [Nat.cast_sub hw]; ring
  have h0 : fsum (data.take (w - 1)) / flt (w - 1) ⇓ mean ((vals data).take (w - 1)) := by
    have h := is_div (hd.take (w - 1)).fsum (is_flt (w - 1)) hk.ne'
    refine h.congr ?_
    rw [mean, vals_take, List.length_take, vals_length, min_eq_left (by omega)]
  let g : ℝ → ℝ → ℝ := fun s x => (s * ((w - 1 : ℕ) : ℝ) + x) / w
  refine ⟨fun i => (((vals data).drop (w - 1)).take (i + 1 - (w - 1))).foldl g (mean ((vals data).take (w - 1))), ?_, ?_, ?_⟩
  · rw [wilder, if_neg h1]
    run_model [usub_of_le]
    refine reports_nans (by simp; omega) fun i hi => ?_
    simp at hi
    obtain ⟨y, h1, h2⟩ := scanS_is (f := fun state x : XF => (state * flt (w - 1) + x) / flt w)
      (g := fun (s : ℝ) (x : XF) => g s x.val) (l := data.drop (w - 1)) h0 (fun s u x hx hs => by
        have hx' := (hd.drop _ x hx).is
        exact is_div (is_add (is_mul hs (is_flt _)) hx') (is_flt _) (natCast_pos hw).ne') i (by simp; omega)
    refine ⟨y, h1, h2.congr ?_⟩
    rw [show w - 1 + i + 1 - (w - 1) = i + 1 by omega, foldl_vals_slice]
  · have hx : (vals data)[w - 1]? = some ((vals data)[w - 1]'(by simp; omega)) := getElem?_of_lt _
    have := foldl_take_succ g (mean ((vals data).take (w - 1))) ((vals data).drop (w - 1)) 0
      (by rw [List.getElem?_drop]; exact hx)
    simp only [show w - 1 + 1 - (w - 1) = 0 + 1 by omega]
    rw [this]
    simp only [List.take_zero, List.foldl_nil, g]
    obtain ⟨k, rfl⟩ : ∃ k, w = k + 1 := ⟨w - 1, by omega⟩
    simp only [Nat.add_sub_cancel] at *
    rw [mean, mean, List.take_add_one, hx]
    have hl : ((vals data).take k).length = k := by simp; omega
    simp only [Option.toList_some, List.sum_append, List.sum_cons, List.sum_nil, add_zero, List.length_append,
      hl, List.length_cons, List.length_nil]
    rw [div_mul_cancel₀ _ hk.ne']
  · intro i x hi hx
    rw [← hk1]
    show List.foldl g _ _ = g (List.foldl g _ _) x
    rw [show i + 1 + 1 - (w - 1) = i + 1 - (w - 1) + 1 by omega]
    refine foldl_take_succ g _ _ _ ?_
    rw [List.getElem?_drop, show w - 1 + (i + 1 - (w - 1)) = i + 1 by omega]
    exact hx

/-- C18: every value of `wilder` lies within any bounds of the inputs seen so far. -/
theorem wilder_within (data : List XF) (w : ℕ) (hw : 1 ≤ w) (hn : w ≤ data.length) (hd : Fins data) :
    ∃ v, Reports data.length (w - 1) v (wilder data w) ∧ ∀ i, w ≤ i + 1 → i < data.length → ∀ lo hi,
      Within lo hi ((vals data).take (i + 1)) → lo ≤ v i ∧ v i ≤ hi := by
  obtain ⟨v, h1, h2, h3⟩ := wilder_reports data w hw hn hd
  refine ⟨v, h1, ?_⟩
  intro i hi
  induction i, (show w - 1 ≤ i by omega) using Nat.le_induction with
  | base =>
    intro hlt lo hi hwi
    rw [h2]
    rw [show w - 1 + 1 = w by omega] at hwi
    refine within_mean hwi ?_
    rw [← List.length_pos_iff]
    simp; omega
  | succ i hi' ih =>
    intro hlt lo hi hwi
    have hx : (vals data)[i + 1]? = some ((vals data)[i + 1]'(by simpa using hlt)) := by simp
    rw [h3 i _ hi' hx]
    have hw1 : (1 : ℝ) ≤ w := by exact_mod_cast hw
    have h4 := hwi _ (mem_take_of_getElem? hx (by omega))
    have h5 := ih (by omega) (by omega) lo hi (within_take_succ hwi)
    have hwp : (0 : ℝ) < w := by linarith
    rw [le_div_iff₀ hwp, div_le_iff₀ hwp]
    have h6 : (0 : ℝ) ≤ w - 1 := by linarith
    constructor <;> nlinarith [mul_le_mul_of_nonneg_right h5.1 h6, mul_le_mul_of_nonneg_right h5.2 h6, h4.1, h4.2]

/-- C18: a constant series is a fixed point of `wilder`. -/
theorem wilder_const (n w : ℕ) (c : ℝ) (hw : 1 ≤ w) (hn : w ≤ n) :
    Reports n (w - 1) (fun _ => c) (wilder (List.replicate n (fin c : XF)) w) := by
  obtain ⟨v, h1, h2⟩ := wilder_within (List.replicate n (fin c : XF)) w hw (by simpa using hn)
    (fun x hx => by rw [List.eq_of_mem_replicate hx]; trivial)
  rw [List.length_replicate] at h1 h2
  refine h1.congr fun i hi hi2 => ?_
  have := h2 i (by omega) hi2 c c (fun x hx => by
    simp only [vals, List.map_replicate, val] at hx
    rw [List.eq_of_mem_replicate (List.mem_of_mem_take hx)]
    exact ⟨le_refl _, le_refl _⟩)
  linarith [this.1, this.2]

example : ∃ v, Reports 4 2 v (wilder ([fin 1, fin 3, fin 5, fin (-1)] : List XF) 3) ∧ v 2 = 3 ∧ v 3 = 5 / 3 := by
  obtain ⟨v, h1, h2, h3⟩ := wilder_reports [fin 1, fin 3, fin 5, fin (-1)] 3 (by decide) (by simp)
    (by intro x hx; simp at hx; rcases hx with rfl | rfl | rfl | rfl <;> trivial)
  have e1 : v 2 = 3 := by rw [h2]; simp [mean, vals]; norm_num
  exact ⟨v, h1, e1, by rw [h3 2 (-1) (by simp) (by simp [vals]), e1]; norm_num⟩

end Traquer.Smooth
