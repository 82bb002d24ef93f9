import Verif.Props.TrendFormulas
import Mathlib.Analysis.SpecialFunctions.Log.Base

/-! The Hurst exponent: the loop over the sub-window sizes (C61) and the value (C71). -/

namespace Traquer
open FP FloatLit Smooth

/-- The partial sums of the deviations from the mean. -/
noncomputable def cumDev (l : List ℝ) : List ℝ := (List.range l.length).map fun k => ((l.take (k + 1)).map (· - mean l)).sum

/-- The rescaled range: the range of the accumulated deviations in units of the sample standard deviation. -/
noncomputable def rescaledRange (l : List ℝ) : ℝ :=
  (maxOf (cumDev l) - minOf (cumDev l)) / √((l.map fun x => (x - mean l) ^ 2).sum / (l.length - 1 : ℕ))

/-- The full chunks of `s` consecutive values. -/
def chunksOf {α : Type} (s : ℕ) (l : List α) : List (List α) := (List.range (l.length / s)).map fun i => (l.drop (i * s)).take s

/-- The slope of the least squares line through the points. -/
noncomputable def lineSlope (p : List (ℝ × ℝ)) : ℝ :=
  (p.map fun q => (q.1 - mean (p.map (·.1))) * (q.2 - mean (p.map (·.2)))).sum / (p.map fun q => (q.1 - mean (p.map (·.1))) ^ 2).sum

/-- The Hurst exponent of `l` over the given scales: the slope of the log of the mean rescaled range against the log of the scale. -/
noncomputable def hurstOf (sizes : List ℕ) (l : List ℝ) : ℝ :=
  lineSlope (sizes.map fun (s : ℕ) => (Real.logb 10 s, Real.logb 10 (mean ((chunksOf s l).map rescaledRange))))

/-- The `k`-th scale: the integer part of `m * 10 ^ (k / 4)`. -/
noncomputable def scaleAt (m k : ℕ) : ℕ := ⌊(m : ℝ) * 10 ^ ((k : ℝ) / 4)⌋₊

namespace Trend

theorem hurstSizes_step (w : ℕ) (x : XF) : hurstSizes w x = if w ≤ Traquer.toUsize (Traquer.powf 10 x) then some [] else
    (hurstSizes w (x + 0.25)).bind fun r => some (Traquer.toUsize (Traquer.powf 10 x) :: r) := by
  rw [hurstSizes]
  rfl

/-- C61: for `min_win ≥ 1` the loop ends: it collects the scales `⌊m * 10 ^ (k / 4)⌋` in order, up to the first that reaches the window. -/
theorem hurst_scales (m w : ℕ) (hm : 1 ≤ m) (hw : w < 2 ^ 64) : ∃ n, hurstSizes w (log10 (flt m : XF)) = some ((List.range n).map (scaleAt m)) ∧
    (∀ k < n, scaleAt m k < w) ∧ w ≤ scaleAt m n := by
  have mpos : (0 : ℝ) < m := by exact_mod_cast hm
  have ex : ∃ n, w ≤ scaleAt m n := by
    refine ⟨4 * w, Nat.le_floor ?_⟩
    have h1 : (1 : ℝ) ≤ m := by exact_mod_cast hm
    have h2 : (w : ℝ) ≤ 10 ^ (((4 * w : ℕ) : ℝ) / 4) := by
      rw [show (((4 * w : ℕ) : ℝ) / 4) = (w : ℝ) by push_cast; ring, Real.rpow_natCast]
      have := Nat.lt_pow_self (n := w) (show 1 < 10 by norm_num)
      exact_mod_cast this.le
    nlinarith [Real.rpow_pos_of_pos (show (0 : ℝ) < 10 by norm_num) (((4 * w : ℕ) : ℝ) / 4)]
  classical
  obtain ⟨n, hn, hmin⟩ : ∃ n, w ≤ scaleAt m n ∧ ∀ k < n, scaleAt m k < w :=
    ⟨Nat.find ex, Nat.find_spec ex, fun k hk => not_le.1 (Nat.find_min ex hk)⟩
  have val : ∀ (k : ℕ) (x : XF), x ⇓ Real.logb 10 m + (k : ℝ) / 4 → (Traquer.powf 10 x : XF) ⇓ (m : ℝ) * 10 ^ ((k : ℝ) / 4) := by
    intro k x hx
    refine (is_powf (is_lit 10) hx (by norm_num)).congr ?_
    rw [show (OfNat.ofNat 10 : ℝ) = 10 from rfl, Real.rpow_add (by norm_num), Real.rpow_logb (by norm_num) (by norm_num) mpos]
  have big : ∀ (x : XF) (a : ℝ), x ⇓ a → w ≤ ⌊a⌋₊ → w ≤ Traquer.toUsize x := by
    intro x a hx ha
    by_cases h : a < 2 ^ 64
    · rwa [is_toUsize hx h]
    · rcases is_iff.1 hx with rfl | ⟨rfl, rfl⟩
      · show w ≤ min ⌊a⌋₊ (2 ^ 64 - 1)
        omega
      · exact absurd (by norm_num) h
  have step : ∀ d k (x : XF), k + d = n → x ⇓ Real.logb 10 m + (k : ℝ) / 4 →
      hurstSizes w x = some ((List.range' k d).map (scaleAt m)) := by
    intro d
    induction d with
    | zero =>
      intro k x hk hx
      rw [hurstSizes_step, if_pos (big _ _ (val k x hx) (by rw [← hk] at hn; exact hn))]
      rfl
    | succ d ih =>
      intro k x hk hx
      have lt := hmin k (by omega)
      have hv := val k x hx
      have sm : (m : ℝ) * 10 ^ ((k : ℝ) / 4) < 2 ^ 64 := by
        have := Nat.lt_of_floor_lt lt
        have : (w : ℝ) < 2 ^ 64 := by exact_mod_cast hw
        linarith
      have eu : Traquer.toUsize (Traquer.powf 10 x : XF) = scaleAt m k := is_toUsize hv sm
      rw [hurstSizes_step, eu, if_neg (by omega), ih (k + 1) (x + 0.25) (by omega)]
      · rw [List.range'_succ]
        rfl
      · refine (is_add hx (is_sci 25 true 2)).congr ?_
        push_cast
        norm_num
        ring
  refine ⟨n, ?_, hmin, hn⟩
  rw [step n 0 _ (by omega) ((is_log10 (is_flt m) mpos).congr (by simp)), List.range_eq_range']

/-- C61: with `min_win = 0` the loop never ends: the first exponent is minus infinity and stays so, and every scale is 0. In the model a loop
that does not end has no result. -/
theorem hurst_zero_diverges (data : List XF) (w : ℕ) (hw : 1 ≤ w) :
    hurstSizes w (log10 (flt 0 : XF)) = none ∧ hurst data w (some 0) = none := by
  have e : log10 (flt 0 : XF) = inf true := by
    show logWith (Real.logb 10) (FP.mk false ((0 : ℕ) : ℝ)) = _
    have : (FP.mk false ((0 : ℕ) : ℝ) : XF) = fin 0 := by simp [FP.mk, Rounding.exact]
    rw [this]
    simp [logWith]
  have p : ∀ r, hurstSizes w (inf true : XF) = some r → False := by
    intro r h
    have := hurstSizes.partial_correctness (F := XF) w (fun x _ => x = inf true → False) (by
      intro f ih x r h hx
      subst hx
      have e10 : Traquer.toUsize (Traquer.powf 10 (inf true) : XF) = 0 := by
        have i10 : (10 : XF) = fin 10 := (is_iff.1 (is_lit 10)).resolve_right (by
          rintro ⟨-, h⟩
          exact absurd h (by norm_num))
        rw [i10]
        have : (Traquer.powf (fin 10) (inf true) : XF) = fin 0 := by
          show FP.powf (fin 10) (inf true) = _
          simp [FP.powf, FP.val]
        rw [this]
        show min ⌊(0 : ℝ)⌋₊ (2 ^ 64 - 1) = 0
        simp
      simp only [e10] at h
      rw [if_neg (by omega)] at h
      obtain ⟨rest, hr, -⟩ := Option.bind_eq_some_iff.1 h
      exact ih _ rest hr (by
        have i25 : (0.25 : XF) = fin 0.25 := (is_iff.1 (is_sci 25 true 2)).resolve_right (by
          rintro ⟨-, h⟩
          exact absurd h (by norm_num))
        rw [i25]
        rfl)) (inf true) r h rfl
    exact this
  have e1 : hurstSizes w (log10 (flt 0 : XF)) = none := by
    rw [e]
    cases h : hurstSizes w (inf true : XF) with
    | none => rfl
    | some r => exact (p r h).elim
  refine ⟨e1, ?_⟩
  simp only [hurst, Option.getD_some, e1]
  rfl

/-! ## The value -/

theorem hurst_fold (c : XF) {a : ℝ} (hc : c ⇓ a) (l : List XF) (hl : Fins l) :
    ∃ p q r s, l.foldl (fun (st : XF × XF × XF × XF) x =>
      (fmax st.1 (st.2.2.1 + (x - c)), fmin st.2.1 (st.2.2.1 + (x - c)), st.2.2.1 + (x - c), st.2.2.2 + (x - c) * (x - c)))
        (-maxValue, maxValue, 0, 0) = (p, q, r, s) ∧
      p ⇓ ((List.range l.length).map fun k => (((vals l).take (k + 1)).map (· - a)).sum).foldl max (-f64Max) ∧
      q ⇓ ((List.range l.length).map fun k => (((vals l).take (k + 1)).map (· - a)).sum).foldl min f64Max ∧
      r ⇓ ((vals l).map (· - a)).sum ∧ s ⇓ ((vals l).map fun x => (x - a) ^ 2).sum := by
  induction l using List.reverseRecOn with
  | nil => exact ⟨_, _, _, _, rfl, (is_neg is_maxValue).congr rfl, is_maxValue.congr rfl, by simpa using is_zero, by simpa using is_zero⟩
  | append_singleton l x ih =>
    obtain ⟨p, q, r, s, e, hp, hq, hr, hs⟩ := ih fun y hy => hl y (List.mem_append_left _ hy)
    have hx : x ⇓ val x := (hl x (by simp)).is
    have hd := is_sub hx hc
    have hr' := is_add hr hd
    have hv : vals (l ++ [x]) = vals l ++ [val x] := by simp [vals]
    have lv : (vals l).length = l.length := by simp [vals]
    have er : ((vals l).map (· - a)).sum + (val x - a) = ((vals (l ++ [x])).map (· - a)).sum := by
      rw [hv]; simp
    have ez : ((List.range (l ++ [x]).length).map fun k => (((vals (l ++ [x])).take (k + 1)).map (· - a)).sum) =
        ((List.range l.length).map fun k => (((vals l).take (k + 1)).map (· - a)).sum) ++ [((vals (l ++ [x])).map (· - a)).sum] := by
      rw [List.length_append, List.length_singleton, List.range_succ, List.map_append]
      congr 1
      · refine List.map_congr_left fun k hk => ?_
        have := List.mem_range.1 hk
        rw [hv, List.take_append_of_le_length (by omega)]
      · simp only [List.map_cons, List.map_nil]
        rw [List.take_of_length_le (by simp [vals])]
    rw [er] at hr'
    refine ⟨_, _, _, _, by rw [List.foldl_append, e]; rfl, ?_, ?_, hr', ?_⟩
    · rw [ez, List.foldl_append]
      exact is_fmax hp hr'
    · rw [ez, List.foldl_append]
      exact is_fmin hq hr'
    · refine (is_add hs (is_mul hd hd)).congr ?_
      rw [hv]
      simp
      ring

theorem cumDev_last {l : List ℝ} (hl : l ≠ []) : (0 : ℝ) ∈ cumDev l := by
  have : 0 < l.length := List.length_pos_iff.2 hl
  refine List.mem_map.2 ⟨l.length - 1, List.mem_range.2 (by omega), ?_⟩
  rw [List.take_of_length_le (by omega)]
  have h : ∀ (l : List ℝ) (c : ℝ), (l.map (· - c)).sum = l.sum - l.length * c := by
    intro l c
    induction l with
    | nil => simp
    | cons x l ih => simp [ih]; ring
  have hp : (l.length : ℝ) ≠ 0 := by positivity
  rw [h, mean]
  field_simp
  ring

/-- A series that is not constant has a positive range of accumulated deviations. -/
theorem cumDev_range_pos {l : List ℝ} (hl : (l.map fun x => (x - mean l) ^ 2).sum ≠ 0) : 0 < maxOf (cumDev l) - minOf (cumDev l) := by
  have hne : l ≠ [] := by rintro rfl; simp at hl
  have z := cumDev_last hne
  have h1 := le_maxOf z
  have h2 := minOf_le z
  by_contra hc
  have e1 : maxOf (cumDev l) = 0 := by linarith
  have e2 : minOf (cumDev l) = 0 := by linarith
  have all : ∀ k < l.length, ((l.take (k + 1)).map (· - mean l)).sum = 0 := by
    intro k hk
    have m : ((l.take (k + 1)).map (· - mean l)).sum ∈ cumDev l := List.mem_map.2 ⟨k, List.mem_range.2 hk, rfl⟩
    have := le_maxOf m
    have := minOf_le m
    linarith
  have all' : ∀ k ≤ l.length, ((l.take k).map (· - mean l)).sum = 0 := by
    intro k hk
    cases k with
    | zero => simp
    | succ k => exact all k (by omega)
  apply hl
  apply List.sum_eq_zero
  intro y hy
  obtain ⟨x, hx, rfl⟩ := List.mem_map.1 hy
  obtain ⟨k, hk, rfl⟩ := List.getElem_of_mem hx
  have a1 := all' k (by omega)
  have a2 := all' (k + 1) (by omega)
  rw [List.take_succ_eq_append_getElem hk, List.map_append, List.sum_append, a1] at a2
  have : l[k] - mean l = 0 := by simpa using a2
  simp [this]

/-- The rescaled range of a chunk of moderate values that is not constant. -/
theorem hurst_rs_is {l : List XF} {M : ℝ} (hl : Fins l) (h2 : 2 ≤ l.length) (hb : ∀ x ∈ vals l, |x| ≤ M) (hM : 2 * l.length * M ≤ f64Max)
    (hv : ((vals l).map fun x => (x - mean (vals l)) ^ 2).sum ≠ 0) :
    ∃ y, hurst_rs l = some y ∧ y ⇓ rescaledRange (vals l) ∧ 0 < rescaledRange (vals l) := by
  have lv : (vals l).length = l.length := by simp [vals]
  have npos : (0 : ℝ) < l.length := by exact_mod_cast (show 0 < l.length by omega)
  have hm : fsum l / flt l.length ⇓ mean (vals l) := (is_div (is_fsum hl) (is_flt _) npos.ne').congr (by rw [mean, lv]; rfl)
  obtain ⟨p, q, r, s, e, hp, hq, -, hs⟩ := hurst_fold _ hm l hl
  have lne : vals l ≠ [] := by
    intro h
    rw [h] at lv
    simp at lv
    omega
  have zne : cumDev (vals l) ≠ [] := List.ne_nil_of_mem (cumDev_last lne)
  have mb : |mean (vals l)| ≤ M := by
    have h1 : ∀ (t : List ℝ), (∀ x ∈ t, |x| ≤ M) → |t.sum| ≤ t.length * M := by
      intro t
      induction t with
      | nil => intro _; simp
      | cons x t ih =>
        intro h
        have := abs_add_le x t.sum
        have := ih fun y hy => h y (List.mem_cons_of_mem _ hy)
        have := h x (List.mem_cons_self)
        simp only [List.sum_cons, List.length_cons]
        push_cast
        linarith
    have := h1 _ hb
    rw [mean, abs_div, abs_of_nonneg (show (0 : ℝ) ≤ (vals l).length by positivity), div_le_iff₀ (by rw [lv]; exact npos)]
    linarith
  have zb : ∀ z ∈ cumDev (vals l), |z| ≤ f64Max := by
    intro z hz
    obtain ⟨k, hk, rfl⟩ := List.mem_map.1 hz
    have h1 : ∀ (t : List ℝ), (∀ x ∈ t, |x| ≤ M) → |(t.map (· - mean (vals l))).sum| ≤ t.length * (2 * M) := by
      intro t
      induction t with
      | nil => intro _; simp
      | cons x t ih =>
        intro h
        have := abs_add_le (x - mean (vals l)) (t.map (· - mean (vals l))).sum
        have := abs_sub x (mean (vals l))
        have := ih fun y hy => h y (List.mem_cons_of_mem _ hy)
        have := h x (List.mem_cons_self)
        simp only [List.map_cons, List.sum_cons, List.length_cons]
        push_cast
        linarith
    have := h1 ((vals l).take (k + 1)) fun x hx => hb x (List.mem_of_mem_take hx)
    have hle : (((vals l).take (k + 1)).length : ℝ) ≤ l.length := by
      have : ((vals l).take (k + 1)).length ≤ l.length := by rw [← lv]; exact (List.length_take_le' _ _)
      exact_mod_cast this
    have M0 : 0 ≤ M := (abs_nonneg _).trans mb
    nlinarith
  have fp : p ⇓ maxOf (cumDev (vals l)) := by
    rw [cumDev, lv] at zne zb ⊢
    exact hp.congr (foldl_max_seed zne fun z hz => (abs_le.1 (zb z hz)).1)
  have fq : q ⇓ minOf (cumDev (vals l)) := by
    rw [cumDev, lv] at zne zb ⊢
    exact hq.congr (foldl_min_seed zne fun z hz => (abs_le.1 (zb z hz)).2)
  have vpos : 0 < ((vals l).map fun x => (x - mean (vals l)) ^ 2).sum := lt_of_le_of_ne (List.sum_nonneg (by
    intro y hy
    obtain ⟨x, -, rfl⟩ := List.mem_map.1 hy
    positivity)) (Ne.symm hv)
  have n1 : (0 : ℝ) < ((l.length - 1 : ℕ) : ℝ) := by exact_mod_cast (show 0 < l.length - 1 by omega)
  have spos : 0 < √(((vals l).map fun x => (x - mean (vals l)) ^ 2).sum / (l.length - 1 : ℕ)) := Real.sqrt_pos.2 (div_pos vpos n1)
  refine ⟨_, ?_, (is_div (is_sub fp fq) (is_sqrt (is_div hs (is_flt _) n1.ne') (div_pos vpos n1).le) spos.ne').congr (by rw [rescaledRange, lv]),
    by rw [rescaledRange, lv]; exact div_pos (cumDev_range_pos hv) spos⟩
  simp only [hurst_rs, usub_of_le (show 1 ≤ l.length by omega), Option.bind_eq_bind, Option.bind_some]
  erw [e]

theorem linreg_is {α : Type} (l : List α) (x y : α → XF) (a b : α → ℝ) (hx : ∀ t ∈ l, x t ⇓ a t) (hy : ∀ t ∈ l, y t ⇓ b t) (hl : l ≠ [])
    (h0 : ((l.map fun t => (a t, b t)).map fun q => (q.1 - mean ((l.map fun t => (a t, b t)).map (·.1))) ^ 2).sum ≠ 0) :
    linreg (l.map x) (l.map y) ⇓ lineSlope (l.map fun t => (a t, b t)) := by
  have npos : (l.length : ℝ) ≠ 0 := by
    have := List.length_pos_iff.2 hl
    positivity
  have m1 : (l.map x).foldl (fun acc x => acc + x) 0 / flt (l.map x).length ⇓ mean ((l.map fun t => (a t, b t)).map (·.1)) := by
    rw [List.length_map, List.map_map, mean, List.length_map]
    exact is_div (is_fsum_map hx) (is_flt _) npos
  have m2 : (l.map y).foldl (fun acc x => acc + x) 0 / flt (l.map y).length ⇓ mean ((l.map fun t => (a t, b t)).map (·.2)) := by
    rw [List.length_map, List.map_map, mean, List.length_map]
    exact is_div (is_fsum_map hy) (is_flt _) npos
  unfold linreg
  simp only
  generalize (l.map x).foldl (fun acc x => acc + x) 0 / flt (l.map x).length = mx at m1 ⊢
  generalize (l.map y).foldl (fun acc x => acc + x) 0 / flt (l.map y).length = my at m2 ⊢
  rw [lineSlope]
  generalize mean ((l.map fun t => (a t, b t)).map (·.1)) = c at m1 h0 ⊢
  generalize mean ((l.map fun t => (a t, b t)).map (·.2)) = d at m2 ⊢
  have key : ∀ (l : List α) (s : XF × XF) (u v : ℝ), (∀ t ∈ l, x t ⇓ a t) → (∀ t ∈ l, y t ⇓ b t) → s.1 ⇓ u → s.2 ⇓ v →
      (((l.map x).zip (l.map y)).foldl (fun (st : XF × XF) (p : XF × XF) => (st.1 + (p.1 - mx) * (p.2 - my), st.2 + powi (p.1 - mx) 2)) s).1 ⇓
        u + ((l.map fun t => (a t, b t)).map fun q => (q.1 - c) * (q.2 - d)).sum ∧
      (((l.map x).zip (l.map y)).foldl (fun (st : XF × XF) (p : XF × XF) => (st.1 + (p.1 - mx) * (p.2 - my), st.2 + powi (p.1 - mx) 2)) s).2 ⇓
        v + ((l.map fun t => (a t, b t)).map fun q => (q.1 - c) ^ 2).sum := by
    intro l
    induction l with
    | nil => intro s u v _ _ h1 h2; simpa using ⟨h1, h2⟩
    | cons t l ih =>
      intro s u v hx hy h1 h2
      have d1 := is_sub (hx t (by simp)) m1
      have d2 := is_sub (hy t (by simp)) m2
      have := ih (s.1 + (x t - mx) * (y t - my), s.2 + powi (x t - mx) 2) _ _ (fun t ht => hx t (by simp [ht])) (fun t ht => hy t (by simp [ht]))
        (is_add h1 (is_mul d1 d2)) (is_add h2 (is_powi 2 d1))
      refine ⟨this.1.congr ?_, this.2.congr ?_⟩
      · simp; ring
      · simp; ring
  have := key l (0, 0) 0 0 hx hy is_zero is_zero
  rw [zero_add, zero_add] at this
  exact is_div this.1 this.2 h0

theorem sum_sq_zero {α : Type} (l : List α) (f : α → ℝ) (h : (l.map fun t => f t ^ 2).sum = 0) : ∀ t ∈ l, f t = 0 := by
  intro t ht
  have nn : ∀ y ∈ l.map fun t => f t ^ 2, 0 ≤ y := by
    intro y hy
    obtain ⟨s, -, rfl⟩ := List.mem_map.1 hy
    positivity
  have := List.single_le_sum nn _ (List.mem_map.2 ⟨t, ht, rfl⟩)
  rw [h] at this
  exact pow_eq_zero_iff two_ne_zero |>.1 (le_antisymm this (sq_nonneg _))

theorem chunksOf_vals (s : ℕ) (l : List XF) : chunksOf s (vals l) = (chunksOf s l).map vals := by
  simp [chunksOf, vals, List.map_drop, List.map_take]

/-- The accepted parameters of `hurst`: the smallest scale and the window. -/
structure HurstInput (data : List XF) (w m : ℕ) (M : ℝ) : Prop where
  fins : Fins data
  scale : 2 ≤ m ∧ m < w ∧ w < 2 ^ 64
  long : w ≤ data.length
  moderate : (∀ x ∈ vals data, |x| ≤ M) ∧ 2 * w * M ≤ f64Max
  /-- No chunk that is measured is constant. -/
  moving : ∀ i, w - 1 ≤ i → i < data.length → ∀ s, m ≤ s → s ≤ w → ∀ c ∈ chunksOf s (recent (vals data) w i),
    (c.map fun x => (x - mean c) ^ 2).sum ≠ 0

/-- C71: `hurst` is the Hurst exponent of each window over the scales `⌊m * 10 ^ (k / 4)⌋` below the window and the window itself. -/
theorem hurst_reports (data : List XF) (w : ℕ) (minWin : Option ℕ) {M : ℝ} (h : HurstInput data w (minWin.getD 4) M) :
    ∃ n, (∀ k < n, scaleAt (minWin.getD 4) k < w) ∧ w ≤ scaleAt (minWin.getD 4) n ∧
      Reports data.length (w - 1) (fun i => hurstOf ((List.range n).map (scaleAt (minWin.getD 4)) ++ [w]) (recent (vals data) w i))
        (hurst data w minWin) := by
  obtain ⟨hf, ⟨hm, hmw, hw64⟩, hn, ⟨hb, hM⟩, hv⟩ := h
  set m := minWin.getD 4 with hmdef
  obtain ⟨n, es, hlt, hge⟩ := hurst_scales m w (by omega) hw64
  refine ⟨n, hlt, hge, ?_⟩
  set sizes := (List.range n).map (scaleAt m) ++ [w] with hsz
  have mle : ∀ k, m ≤ scaleAt m k := by
    intro k
    apply Nat.le_floor
    have : (1 : ℝ) ≤ 10 ^ ((k : ℝ) / 4) := Real.one_le_rpow (by norm_num) (by positivity)
    have : (0 : ℝ) ≤ m := by positivity
    nlinarith
  have s0 : scaleAt m 0 = m := by simp [scaleAt]
  have n1 : 1 ≤ n := by
    rcases Nat.eq_zero_or_pos n with rfl | h
    · rw [s0] at hge; omega
    · exact h
  have sle : ∀ s ∈ sizes, m ≤ s ∧ s ≤ w := by
    intro s hs
    rcases List.mem_append.1 hs with h | h
    · obtain ⟨k, hk, rfl⟩ := List.mem_map.1 h
      exact ⟨mle k, (hlt k (List.mem_range.1 hk)).le⟩
    · rw [List.mem_singleton.1 h]; exact ⟨hmw.le, le_rfl⟩
  have m0 : m ∈ sizes := List.mem_append_left _ (List.mem_map.2 ⟨0, List.mem_range.2 n1, s0⟩)
  have w0 : w ∈ sizes := List.mem_append_right _ (by simp)
  -- one window
  have win : ∀ i, w - 1 ≤ i → i < data.length → ∃ y, (mapP (fun x => (chunksExact x (recent data w i)).bind fun chunks =>
      (mapP hurst_rs chunks).bind fun vs => some (log10 (vs.foldl (fun acc v => acc + v) 0 / flt chunks.length) : XF)) sizes).bind
        (fun rs => some (linreg (sizes.map fun x => log10 (flt x)) rs)) = some y ∧ y ⇓ hurstOf sizes (recent (vals data) w i) := by
    intro i hi hin
    have lr : (recent data w i).length = w := recent_length (by omega) (by omega)
    have fr : Fins (recent data w i) := hf.recent _ _
    have er : vals (recent data w i) = recent (vals data) w i := recent_vals _ _ _
    have one : ∀ s ∈ sizes, ∃ y, ((chunksExact s (recent data w i)).bind fun chunks =>
        (mapP hurst_rs chunks).bind fun vs => some (log10 (vs.foldl (fun acc v => acc + v) 0 / flt chunks.length) : XF)) = some y ∧
        y ⇓ Real.logb 10 (mean ((chunksOf s (recent (vals data) w i)).map rescaledRange)) := by
      intro s hs
      obtain ⟨s1, s2⟩ := sle s hs
      have ec : chunksExact s (recent data w i) = some (chunksOf s (recent data w i)) := by
        rw [chunksExact, if_neg (by omega)]; rfl
      have each : ∀ c ∈ chunksOf s (recent data w i), ∃ y, hurst_rs c = some y ∧ y ⇓ rescaledRange (vals c) ∧ 0 < rescaledRange (vals c) := by
        intro c hc
        have hc' := hc
        obtain ⟨j, hj, rfl⟩ := List.mem_map.1 hc
        have hj := List.mem_range.1 hj
        have lc : (((recent data w i).drop (j * s)).take s).length = s := by
          rw [List.length_take, List.length_drop, lr]
          rw [lr] at hj
          have := (Nat.le_div_iff_mul_le (show 0 < s by omega)).1 (show j + 1 ≤ w / s by omega)
          have : (j + 1) * s = j * s + s := by ring
          omega
        refine hurst_rs_is (M := M) ((fr.drop _).take _) (by omega) (fun x hx => hb x ?_) ?_ ?_
        · obtain ⟨z, hz, rfl⟩ := List.mem_map.1 hx
          exact List.mem_map.2 ⟨z, List.mem_of_mem_drop (List.mem_of_mem_take (List.mem_of_mem_drop (List.mem_of_mem_take hz))), rfl⟩
        · rw [lc]
          have M0 : 0 ≤ M := by
            obtain ⟨x, hx⟩ := List.exists_mem_of_ne_nil (vals data) (by
              intro h
              have := congrArg List.length h
              simp [vals] at this
              simp [this] at hin)
            exact (abs_nonneg _).trans (hb x hx)
          have : (s : ℝ) ≤ w := by exact_mod_cast s2
          nlinarith
        · refine hv i hi hin s s1 s2 _ ?_
          rw [← er, chunksOf_vals]
          exact List.mem_map.2 ⟨_, hc', rfl⟩
      obtain ⟨vs, ev⟩ := mapP_isSome (f := hurst_rs) (l := chunksOf s (recent data w i)) (by
        intro c hc
        obtain ⟨y, hy, -⟩ := each c hc
        rw [hy]; rfl)
      have evs : vals vs = (chunksOf s (recent (vals data) w i)).map rescaledRange ∧ Fins vs := by
        have at' : ∀ (j : ℕ) (y : XF), vs[j]? = some y → ∃ c, (chunksOf s (recent data w i))[j]? = some c ∧ y ⇓ rescaledRange (vals c) := by
          intro j y hy
          rw [mapP_getElem? ev] at hy
          obtain ⟨c, hc, hy⟩ := Option.bind_eq_some_iff.1 hy
          obtain ⟨y', hy', hi, -⟩ := each c (List.mem_of_getElem? hc)
          rw [hy'] at hy; cases hy
          exact ⟨c, hc, hi⟩
        refine ⟨?_, fun y hy => ?_⟩
        · rw [← er, chunksOf_vals]
          apply List.ext_getElem?
          intro j
          rw [List.getElem?_map, List.getElem?_map, vals, List.getElem?_map]
          cases h : vs[j]? with
          | none =>
            have := List.getElem?_eq_none_iff.1 h
            rw [mapP_length ev] at this
            rw [List.getElem?_eq_none_iff.2 this]
            rfl
          | some y =>
            obtain ⟨c, hc, hy⟩ := at' j y h
            rw [hc]
            simp only [Option.map_some]
            rw [hy.2]
        · obtain ⟨j, hj⟩ := List.mem_iff_getElem?.1 hy
          obtain ⟨c, -, hi⟩ := at' j y hj
          exact hi.1
      have lch : (chunksOf s (recent data w i)).length = w / s := by simp [chunksOf, lr]
      have lpos : 0 < w / s := Nat.div_pos s2 (by omega)
      have lchr : ((chunksOf s (recent data w i)).length : ℝ) ≠ 0 := by rw [lch]; positivity
      have hmean : (vs.foldl (fun acc v => acc + v) 0 / flt (chunksOf s (recent data w i)).length : XF) ⇓
          mean ((chunksOf s (recent (vals data) w i)).map rescaledRange) := by
        refine (is_div (is_fsum evs.2) (is_flt _) lchr).congr ?_
        rw [mean, ← evs.1, vals, List.length_map, mapP_length ev]
      have mpos : 0 < mean ((chunksOf s (recent (vals data) w i)).map rescaledRange) := by
        rw [mean, ← er, chunksOf_vals, List.map_map]
        refine div_pos (List.sum_pos _ ?_ ?_) (by rw [List.length_map, lch]; exact_mod_cast lpos)
        · intro y hy
          obtain ⟨c, hc, rfl⟩ := List.mem_map.1 hy
          obtain ⟨y, -, -, hp⟩ := each c hc
          exact hp
        · intro h
          have := congrArg List.length h
          rw [List.length_map, lch] at this
          simp at this
          omega
      refine ⟨_, ?_, is_log10 hmean mpos⟩
      rw [ec]
      simp only [Option.bind_some, ev]
    choose! g hg using one
    have em := mapP_eq_map (g := g) (l := sizes) (fun s hs => (hg s hs).1)
    rw [em]
    refine ⟨_, rfl, ?_⟩
    have hlog : ∀ s ∈ sizes, (log10 (flt s : XF)) ⇓ Real.logb 10 s := fun s hs => is_log10 (is_flt s) (by
      have := (sle s hs).1
      have : 0 < s := by omega
      exact_mod_cast this)
    refine linreg_is sizes _ _ _ _ hlog (fun s hs => (hg s hs).2) (List.ne_nil_of_mem w0) ?_
    intro h0
    have z := sum_sq_zero _ _ h0
    have b1 := z _ (List.mem_map.2 ⟨m, m0, rfl⟩)
    have b2 := z _ (List.mem_map.2 ⟨w, w0, rfl⟩)
    simp only at b1 b2
    have : Real.logb 10 m < Real.logb 10 w := Real.logb_lt_logb (by norm_num) (by exact_mod_cast (show 0 < m by omega)) (by exact_mod_cast hmw)
    linarith
  run_model [hurst]
  rw [← hmdef, es, Option.bind_some]
  have := reportsP_mapP_windows (data := data) (w := w) (f := fun l => (mapP (fun x =>
      (chunksExact x l).bind fun chunks => (mapP hurst_rs chunks).bind fun vs =>
        some (log10 (vs.foldl (fun acc v => acc + v) 0 / flt chunks.length) : XF)) sizes).bind
      (fun rs => some (linreg (sizes.map fun x => log10 (flt x)) rs))) (P := fun i y => y ⇓ hurstOf sizes (recent (vals data) w i)) (by omega) (by omega)
    fun i h1 h2 => win i (by omega) h2
  exact this

/-! ## Concrete cases -/

example : ∃ n, hurstSizes 5 (log10 (flt 2 : XF)) = some ((List.range n).map (scaleAt 2)) ∧ (∀ k < n, scaleAt 2 k < 5) ∧ 5 ≤ scaleAt 2 n :=
  hurst_scales 2 5 (by decide) (by norm_num)
example := hurst_zero_diverges ([1, 2, 4].map fin) 3 (by decide)

theorem hurst_case : HurstInput ([1, 2, 4].map fin) 3 2 4 := by
  refine ⟨fins_map_fin _, by norm_num, by simp, ⟨?_, ?_⟩, ?_⟩
  · simp only [vals_map_fin]
    intro x hx
    simp at hx
    rcases hx with rfl | rfl | rfl <;> norm_num
  · have := f64Max_ge
    norm_num
    linarith
  · simp only [vals_map_fin, List.length_map]
    intro i h1 h2 s s1 s2 c hc
    have : i = 2 := by simp at h2; omega
    subst this
    have : s = 2 ∨ s = 3 := by omega
    rcases this with rfl | rfl
    · simp [chunksOf, recent] at hc
      subst hc
      norm_num [mean]
    · simp [chunksOf, recent] at hc
      subst hc
      norm_num [mean]

example := hurst_reports ([1, 2, 4].map fin) 3 (some 2) hurst_case

end Trend
end Traquer
